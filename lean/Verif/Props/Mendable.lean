import Verif.Lemmas.Mendable
import Verif.Props.Fixable
import Verif.Props.Json
import Verif.Props.JsonText
import Verif.Props.JsonLexer
import Verif.Props.Modes

/-!
# C90: nested grammars that can always be repaired

C56 bounds the insertions that are needed at one place by a constant, which nested brackets do not have.  Here the bound may
depend on the length of the input, so that it covers recursive grammars such as JSON: if `max_insertions` is large enough
for the input, recovery always finds a repair.
-/

namespace Reparsec

variable {τ ρ : Type} {Γ : ρ → Type} {α β : Type} [BEq τ]

/-- C90. If an input of `m` elements can always be repaired with at most `k m` insertions at each place, and
`max_insertions` is at least that, `unwrap(recover=True)` does not raise. -/
theorem C90_always_repaired {env : Env τ ρ Γ} {p : P τ ρ Γ α} {k : Nat → Nat} (hp : AlwaysMendable env k p)
    {s : List τ} {K : Int} (hK : k s.length ≤ K) {gl : Loc → List τ → Nat → Loc} {r : Result τ α}
    (h : Returns env p s (recovering K gl) r) (fmt : Loc → String) : ∃ v, r.unwrap fmt true = .ok v := by
  obtain ⟨n, h⟩ := returns_recovering h
  obtain ⟨T, hT, first, rest, hk, hp⟩ := hp
  have hf := mends_denote (k := K) hT n p _ _ hp
  have h1 := hk s.length
  have h2 : (rest (s.length - 0) : Int) ≤ K := by rw [Nat.sub_zero]; omega
  cases r with
  | ok o => exact ⟨_, rfl⟩
  | error e => exact absurd h (hf.never _ rfl s 0 _ K e (Nat.zero_le _) h2 (by omega))
  | recovered rr =>
    obtain ⟨x, hx, _⟩ := hf.within _ _ rfl s 0 _ K rr (Nat.zero_le _) h2 (by omega) h
    simp only [Result.unwrap]
    cases hr : rr.repairs with
    | nil => rw [hr] at hx; cases hx
    | cons y ys => exact ⟨_, rfl⟩

/-- C90, C23. Without left recursion such a parser, called with recovery, gives a value, unless a callback or a repetition
of an empty parser raises. -/
theorem C90_total {env : Env τ ρ Γ} (hwf : WellFounded fun j i => LeftCalls env i j) {p : P τ ρ Γ α}
    {k : Nat → Nat} (hp : AlwaysMendable env k p) {s : List τ} {K : Int} (hK : k s.length ≤ K)
    (gl : Loc → List τ → Nat → Loc) (fmt : Loc → String) :
    (∃ r v, Returns env p s (recovering K gl) r ∧ r.unwrap fmt true = .ok v) ∨
      ∃ e, Raises env p s (recovering K gl) e := by
  rcases C23_terminates env hwf p s (recovering K gl) (show 0 ≤ K by omega) with ⟨r, h⟩ | h
  · obtain ⟨v, hv⟩ := C90_always_repaired hp hK h fmt
    exact .inl ⟨r, v, h, hv⟩
  · exact .inr h

/-! ### C56 is a special case -/

theorem P.Mendable.weaken {env : Env τ ρ Γ} {T : MendTable ρ} : ∀ {α : Type} (p : P τ ρ Γ α) {st rest},
    p.Mendable env T st rest → p.Mendable env T none rest := by
  intro α p
  induction p with
  | pure | pureFn | eof => intros; trivial
  | unexpected | satisfy | regexp | sym | literal => intro st rest _ n a h; cases h
  | fmap _ _ ih | label _ _ ih | recover _ ih | block _ ih => intro st rest h; exact ih h
  | attempt _ _ => intros; trivial
  | maybe | many => intro st rest h; exact h
  | ref => intro st rest h; exact ⟨trivial, h.2⟩
  | aligned _ ih | indented _ _ ih =>
    rintro (_ | ⟨b, a⟩) rest h
    · exact h
    · obtain ⟨_, _, h⟩ := h; exact ih h
  | recoverWith _ _ _ ih | recoverWithFn _ _ _ ih =>
    rintro (_ | ⟨b, a⟩) rest h
    · exact h
    · obtain ⟨_, h, _⟩ := h; exact ih h
  | alt p q ihp ihq =>
    rintro (_ | ⟨b, a⟩) rest h
    · exact h
    · rcases h with ⟨h1, h2⟩ | ⟨⟨_, h1⟩, h2⟩
      · exact ⟨ihp h1, h2⟩
      · exact ⟨ihp h1, ihq h2⟩
  | bind p c ihp ihk =>
    rintro (_ | ⟨b, a⟩) rest h
    · exact h
    · obtain ⟨f1, f2, r1, -, h2, h3, h4⟩ := h
      refine ⟨f2, r1, fun m => ⟨by have := h2 m; omega, fun _ => h2 m⟩, ihp h3, fun v => ?_⟩
      obtain ⟨r2, h5, h6⟩ := h4 v
      exact ⟨⟨r2, fun m' m h => h5 m' m (Nat.le_of_lt h), h6⟩,
        fun _ => ⟨r2, fun m => h5 m m (Nat.le_refl m), ihk v h6⟩⟩
  | seqWith p q _ ihp ihq =>
    rintro (_ | ⟨b, a⟩) rest h
    · exact h
    · obtain ⟨f1, f2, r1, r2, -, h2, h3, h4, h5⟩ := h
      exact ⟨f2, r1, r2, fun m => ⟨by have := h2 m; omega, fun _ => h2 m⟩, fun m' m h => h3 m' m (Nat.le_of_lt h), ihp h4, h5,
        fun _ => ⟨r2, fun m => h3 m m (Nat.le_refl m), ihq h5⟩⟩

/-- The same bounds, as functions that do not depend on the length. -/
def FixTable.mend (T : FixTable ρ) : MendTable ρ := ⟨fun x => some (T.sure x, T.first x), fun x _ => T.rest x⟩

theorem mendable_of_fixable {env : Env τ ρ Γ} {T : FixTable ρ} : ∀ {α : Type} (p : P τ ρ Γ α) {n h t},
    p.Fixable T n h t → p.Mendable env T.mend (some (n, h)) (fun _ => t) := by
  intro α p
  induction p with
  | pure | pureFn | eof => intros; trivial
  | unexpected | satisfy => rintro n h t hx _ _ ⟨⟩; exact hx
  | regexp => rintro n h t hx _ _ ⟨⟩; exact .inl hx
  | sym | literal => rintro n h t hx _ _ ⟨⟩; exact hx
  | fmap _ _ ih | label _ _ ih | recover _ ih | block _ ih | attempt _ ih => intro n h t hx; exact ih hx
  | maybe p ih => rintro n h t ⟨n', h', hx⟩; exact P.Mendable.weaken p (ih hx)
  | many p ih => rintro n h t ⟨n', h', hx⟩; exact ⟨_, fun _ _ _ => Nat.le_refl _, P.Mendable.weaken p (ih hx)⟩
  | ref => rintro n h t ⟨h1, h2, h3⟩; exact ⟨⟨_, _, rfl, h1, h2⟩, fun _ => h3⟩
  | aligned _ ih | indented _ _ ih => rintro n h t ⟨h1, n', h2⟩; exact ⟨h1, n', ih h2⟩
  | recoverWith _ _ _ ih | recoverWithFn _ _ _ ih => rintro n h t ⟨n', h1, h2⟩; exact ⟨n', ih h1, h2⟩
  | alt p q ihp ihq =>
    rintro n h t (⟨h1, n', h', h2⟩ | ⟨⟨n', h1⟩, h2⟩)
    · exact .inl ⟨ihp h1, P.Mendable.weaken q (ihq h2)⟩
    · exact .inr ⟨⟨n', ihp h1⟩, ihq h2⟩
  | bind p c ihp ihk =>
    rintro n h t ⟨f1, f2, r1, h1, h2, h3, h4⟩
    refine ⟨f1, f2, _, h1, fun _ => h2, ihp h3, fun v => ?_⟩
    obtain ⟨r2, h5, h6⟩ := h4 v
    exact ⟨_, fun _ _ _ => h5, ihk v h6⟩
  | seqWith p q _ ihp ihq =>
    rintro n h t ⟨f1, f2, r1, r2, h1, h2, h3, h4, h5⟩
    exact ⟨f1, f2, _, _, h1, fun _ => h2, fun _ _ _ => h3, ihp h4, ihq h5⟩

/-- C90: every grammar that C56 covers is covered, with the same bound for all inputs. -/
theorem C90_fixable {env : Env τ ρ Γ} {p : P τ ρ Γ α} {k : Nat} (hp : AlwaysFixable env k p) :
    AlwaysMendable env (fun _ => k) p := by
  obtain ⟨T, hT, hp⟩ := hp
  exact ⟨T.mend, fun x q hq => mendable_of_fixable q (hT x q hq), k, fun _ => k, fun _ => ⟨Nat.le_refl k, Nat.le_refl k⟩,
    mendable_of_fixable p hp⟩

/-! ### Nested brackets -/

namespace Samples

/-- C90: `e = Delay(); e.define(sym("x") | sym("(") >> e << sym(")"))`, for which C56 has no bound: one insertion more than
the input has elements is enough. -/
theorem nestX_mendable : AlwaysMendable nestXEnv (fun m => m + 1) (.seql (.ref ()) .eof) := by
  refine ⟨⟨fun _ => some (true, 1), fun _ m => m + 1⟩, ?_, 1, fun m => m + 1, fun m => ⟨Nat.le_add_left 1 m, Nat.le_refl _⟩,
    1, 0, fun m => m + 1, fun _ => 0, by omega, fun m => Nat.le_refl _, fun _ m _ => Nat.zero_le _,
    ⟨⟨_, _, rfl, id, Nat.le_refl 1⟩, fun m => Nat.le_refl _⟩, trivial⟩
  rintro x q ⟨⟩
  refine .inl ⟨fun n first h => by cases h; exact Nat.le_refl 1, 2, fun _ => 0, fun m => m + 2,
    fun m => ⟨Nat.zero_le _, fun _ => ?_⟩, ?_, (fun n first h => by cases h), ?_, ?_⟩
  · show 0 + 2 ≤ m + 1; omega
  · intro m' m h; show m' + 2 ≤ m + 1; omega
  · exact ⟨1, 1, fun m => m + 1, fun _ => 1, by omega, fun m => Nat.le_refl _, (fun m' m _ => by show 1 ≤ m + 2; omega),
      ⟨⟨_, _, rfl, id, Nat.le_refl 1⟩, fun m => Nat.le_refl _⟩, fun n first h => by cases h; exact Nat.le_refl 1⟩
  · rintro ⟨a, ha⟩; exact absurd ha (P.Consumes.not_empty (by simp only [P.Consumes]) a)

end Samples

/-! ### The JSON parsers -/

namespace Json

section

variable {τ : Type} [BEq τ] {ρ : Type} {Γ : ρ → Type} {α β γ : Type} {env : Env τ ρ Γ} {T : MendTable ρ}

theorem sepBy_mends {p : P τ ρ Γ α} {sep : P τ ρ Γ β} {a : Nat} {r r' : Nat → Nat} {st : Option (Bool × Nat)}
    (h1 : p.Mendable env T none fun m => m + 1) (h2 : p.Mendable env T (some (true, a)) r')
    (hs : sep.Mendable env T none fun _ => 0) (hse : ∀ b, ¬ CanBeEmpty env sep b)
    (ha : ∀ m, 0 < m → a ≤ r m) (hr' : Later r' r) (hr : Later r fun m => m + 1) (hm : Below r r)
    (he : (∃ b, CanBeEmpty env p b) → ∀ m, r m ≤ m + 1) :
    (P.sepBy p sep).Mendable env T st fun m => m + 1 := by
  have hi : (P.seqr sep p).Mendable env T none r := by
    refine ⟨a, fun _ => 0, r', fun m => ⟨Nat.zero_le _, fun hm => ?_⟩, hr', hs, h2, fun ⟨b, hb⟩ => absurd hb (hse b)⟩
    show 0 + a ≤ r m
    have := ha m hm
    omega
  have hm : ∀ st, (P.many (P.seqr sep p)).Mendable env T st r := fun st => ⟨r, hm, hi⟩
  show (P.seq p (.many (.seqr sep p))).Mendable env T none fun m => m + 1
  exact ⟨0, fun m => m + 1, r, fun m => ⟨Nat.le_refl _, fun _ => Nat.le_refl _⟩, hr, h1, hm _, fun hb => ⟨r, he hb, hm _⟩⟩

theorem between_mends {op : P τ ρ Γ β} {close : P τ ρ Γ γ} {p : P τ ρ Γ α}
    (h1 : op.Mendable env T none fun _ => 0) (he : ∀ b, ¬ CanBeEmpty env op b)
    (h2 : close.Mendable env T (some (true, 1)) fun _ => 0)
    (h3 : p.Mendable env T (some (true, 0)) fun m => m + 1) :
    (P.between op close p).Mendable env T none fun m => m + 1 := by
  refine ⟨1, fun _ => 0, fun m => m + 2, fun m => ⟨Nat.zero_le _, fun _ => by show 0 + 1 ≤ m + 1; omega⟩,
    fun m' m h => by show m' + 2 ≤ m + 1; omega, h1, ?_, fun ⟨b, hb⟩ => absurd hb (he b)⟩
  exact ⟨0, 1, fun m => m + 1, fun _ => 0, Nat.le_refl 1, fun m => Nat.le_refl _, fun _ m _ => Nat.zero_le (m + 2), h3, h2⟩

theorem member_mends {s : P τ ρ Γ α} {colon : P τ ρ Γ β} {v : P τ ρ Γ γ}
    (h1 : s.Mendable env T (some (true, 1)) fun _ => 0) (h2 : colon.Mendable env T (some (true, 1)) fun _ => 0)
    (h3 : v.Mendable env T (some (true, 1)) fun m => m + 1) :
    (P.seq (.seql s colon) v).Mendable env T (some (true, 3)) fun m => m + 2 := by
  refine ⟨2, 1, fun _ => 1, fun m => m + 1, Nat.le_refl 3, fun m => by show 1 + 1 ≤ m + 2; omega,
    fun m' m h => by show m' + 1 ≤ m + 2; omega, ?_, h3⟩
  exact ⟨1, 1, fun _ => 0, fun _ => 0, Nat.le_refl 2, fun m => Nat.le_refl 1, fun m' m _ => Nat.zero_le _, h1, h2⟩

theorem member_mendsNone {s : P τ ρ Γ α} {colon : P τ ρ Γ β} {v : P τ ρ Γ γ}
    (h1 : s.Mendable env T none fun _ => 0) (h2 : colon.Mendable env T (some (true, 1)) fun _ => 0)
    (h3 : v.Mendable env T (some (true, 1)) fun m => m + 1) (he : ∀ b, ¬ CanBeEmpty env (.seql s colon) b) :
    (P.seq (.seql s colon) v).Mendable env T none fun m => m + 1 := by
  refine ⟨1, fun m => m, fun m => m + 1, fun m => ⟨Nat.le_succ m, fun _ => Nat.le_refl _⟩,
    fun m' m h => by show m' + 1 ≤ m + 1; omega, ?_, h3, fun ⟨b, hb⟩ => absurd hb (he b)⟩
  refine ⟨1, fun _ => 0, fun _ => 0, fun m => ⟨Nat.zero_le _, fun hm => hm⟩, fun _ _ _ => Nat.zero_le _, h1, h2, fun _ =>
    ⟨fun _ => 0, fun _ => Nat.zero_le _, P.Mendable.weaken _ h2⟩⟩

/-- The shape of both parsers: a scalar, an object or a list. -/
theorem value_mends {x y z : P τ ρ Γ α} {w : α} {l l' : String}
    (h1 : x.Mendable env T (some (false, 1)) fun m => m + 1) (h2 : y.Mendable env T none fun m => m + 1)
    (h3 : z.Mendable env T none fun m => m + 1) :
    (P.label (.alt (.alt (.recoverWith x w l) (.recover y)) (.recover z)) l').Mendable env T (some (true, 1))
      fun m => m + 1 :=
  .inl ⟨.inl ⟨⟨false, h1, .inr (Nat.le_refl 1)⟩, h2⟩, h3⟩

end

variable {F : Type} {J : Fns F}

/-- Where a value begins, one insertion; later, one more than elements are left. -/
def mends : MendTable Unit := ⟨fun _ => some (true, 1), fun _ m => m + 1⟩

theorem punct_mends {x : String} {n : Bool} {r : Nat → Nat} :
    (punct x : E F Token).Mendable (env J) mends (some (n, 1)) r := by
  rintro _ _ ⟨⟩; exact Nat.le_refl 1

theorem string_mends {a : Nat} {r : Nat → Nat} : (string J).Mendable (env J) mends (some (false, a)) r := by
  rintro _ _ ⟨⟩; rfl

theorem value_self : (value : E F (V F)).Mendable (env J) mends (some (true, 1)) fun m => m + 1 :=
  ⟨⟨true, 1, rfl, fun _ => rfl, Nat.le_refl 1⟩, fun m => Nat.le_refl _⟩

theorem key_mends : (P.recoverWith (string J) "a" "'\"a\"'").Mendable (env J) mends (some (true, 1)) fun _ => 0 :=
  ⟨false, string_mends, .inr (Nat.le_refl 1)⟩

theorem mendable (J : Fns F) : AlwaysMendable (env J) (fun m => m + 1) parser := by
  refine ⟨mends, ?_, 1, fun m => m + 1, fun m => ⟨Nat.le_add_left 1 m, Nat.le_refl _⟩,
    1, 0, fun m => m + 1, fun _ => 0, Nat.le_refl 1, fun m => Nat.le_refl _, fun _ m _ => Nat.zero_le _, value_self, trivial⟩
  rintro i q ⟨⟩
  have hne : ∀ b, ¬ CanBeEmpty (env J) (.seql (.recoverWith (string J) "a" "'\"a\"'") (punct ":")) b := fun b =>
    P.Consumes.not_empty (by simp [P.seql, P.Consumes, punct]) b
  have hme : ∀ b, ¬ CanBeEmpty (env J) (member J) b := fun b =>
    P.Consumes.not_empty (by simp [member, P.seq, P.seql, P.Consumes, punct]) b
  refine value_mends ?_ ?_ ?_
  · refine .inr ⟨⟨false, .inr ⟨⟨false, .inr ⟨⟨false, .inr ⟨⟨false, ?_⟩, ?_⟩⟩, ?_⟩⟩, ?_⟩⟩, ?_⟩ <;>
      (rintro _ _ ⟨⟩; rfl)
  · exact between_mends (P.Mendable.weaken _ (punct_mends (n := true))) (fun _ => punct_reads) punct_mends
      (sepBy_mends (r := fun m => m + 2) (member_mendsNone (P.Mendable.weaken _ key_mends) punct_mends value_self hne)
        (member_mends key_mends punct_mends value_self) (P.Mendable.weaken _ (punct_mends (n := true)))
        (fun _ => punct_reads) (fun m hm => by show 3 ≤ m + 2; omega) (fun m' m h => by show m' + 2 ≤ m + 2; omega)
        (fun m' m h => by show m' + 2 ≤ m + 1; omega)
        (fun m' m h => by show m' + 2 ≤ m + 2; omega) (fun ⟨b, hb⟩ => absurd hb (hme b)))
  · exact between_mends (P.Mendable.weaken _ (punct_mends (n := true))) (fun _ => punct_reads) punct_mends
      (sepBy_mends (r := fun m => m + 1) (P.Mendable.weaken _ value_self) value_self
        (P.Mendable.weaken _ (punct_mends (n := true)))
        (fun _ => punct_reads) (fun m hm => by show 1 ≤ m + 1; omega) (fun m' m h => by show m' + 1 ≤ m + 1; omega)
        (fun m' m h => by show m' + 1 ≤ m + 1; omega)
        (fun m' m h => by show m' + 1 ≤ m + 1; omega) (fun _ _ => Nat.le_refl _))

end Json

namespace JsonText

open Json

variable {F : Type} {J : Fns F}

theorem ows_mends {a : Nat} {r : Nat → Nat} : (ows : E F String).Mendable (env J) mends (some (true, a)) r := by
  rintro n first ⟨⟩
  refine .inr fun s pos _ h => ?_
  simp [Matcher.at, Yamlish.matcher] at h

theorem punct_mends {x : Char} {n : Bool} {r : Nat → Nat} :
    (punct x : E F (List Char)).Mendable (env J) mends (some (n, 1)) r :=
  ⟨1, 0, fun _ => 0, fun _ => 0, Nat.le_refl 1, fun _ => Nat.zero_le _, fun _ _ _ => Nat.zero_le _,
    fun _ _ h => by cases h; exact Nat.le_refl 1, ows_mends⟩

theorem string_mends {a : Nat} {r : Nat → Nat} : (string J).Mendable (env J) mends (some (false, a)) r := by
  rintro _ _ ⟨⟩; exact .inl rfl

theorem value_self : (value : E F (V F)).Mendable (env J) mends (some (true, 1)) fun m => m + 1 :=
  ⟨⟨true, 1, rfl, fun _ => rfl, Nat.le_refl 1⟩, fun m => Nat.le_refl _⟩

theorem key_mends : (P.recoverWith (string J) "a" "'\"a\"'").Mendable (env J) mends (some (true, 1)) fun _ => 0 :=
  ⟨false, string_mends, .inr (Nat.le_refl 1)⟩

theorem mendable (J : Fns F) : AlwaysMendable (env J) (fun m => m + 1) parser := by
  refine ⟨mends, ?_, 1, fun m => m + 1, fun m => ⟨Nat.le_add_left 1 m, Nat.le_refl _⟩,
    1, 0, fun m => m + 1, fun _ => 0, Nat.le_refl 1, fun m => Nat.le_refl _, fun _ m _ => Nat.zero_le _,
    ⟨0, 1, fun _ => 0, fun m => m + 1, Nat.le_refl 1, fun m => by show 0 + 1 ≤ m + 1; omega,
      fun m' m h => by show m' + 1 ≤ m + 1; omega, ows_mends, value_self⟩, trivial⟩
  rintro i q ⟨⟩
  have hne : ∀ b, ¬ CanBeEmpty (env J) (.seql (.recoverWith (string J) "a" "'\"a\"'") (punct ':')) b := fun b =>
    P.Consumes.not_empty (by simp [P.seql, P.Consumes, punct]) b
  have hme : ∀ b, ¬ CanBeEmpty (env J) (member J) b := fun b =>
    P.Consumes.not_empty (by simp [member, P.seq, P.seql, P.Consumes, punct]) b
  refine value_mends ?_ ?_ ?_
  · refine .inr ⟨⟨false, .inr ⟨⟨false, .inr ⟨⟨false, .inr ⟨⟨false, ?_⟩, ?_⟩⟩, ?_⟩⟩, ?_⟩⟩, ?_⟩ <;>
      (rintro _ _ ⟨⟩; exact .inl rfl)
  · exact between_mends (P.Mendable.weaken _ (punct_mends (n := true))) (fun _ => punct_reads) punct_mends
      (sepBy_mends (r := fun m => m + 2) (member_mendsNone (P.Mendable.weaken _ key_mends) punct_mends value_self hne)
        (member_mends key_mends punct_mends value_self) (P.Mendable.weaken _ (punct_mends (n := true)))
        (fun _ => punct_reads) (fun m hm => by show 3 ≤ m + 2; omega) (fun m' m h => by show m' + 2 ≤ m + 2; omega)
        (fun m' m h => by show m' + 2 ≤ m + 1; omega)
        (fun m' m h => by show m' + 2 ≤ m + 2; omega) (fun ⟨b, hb⟩ => absurd hb (hme b)))
  · exact between_mends (P.Mendable.weaken _ (punct_mends (n := true))) (fun _ => punct_reads) punct_mends
      (sepBy_mends (r := fun m => m + 1) (P.Mendable.weaken _ value_self) value_self
        (P.Mendable.weaken _ (punct_mends (n := true)))
        (fun _ => punct_reads) (fun m hm => by show 1 ≤ m + 1; omega) (fun m' m h => by show m' + 1 ≤ m + 1; omega)
        (fun m' m h => by show m' + 1 ≤ m + 1; omega)
        (fun m' m h => by show m' + 1 ≤ m + 1; omega) (fun _ _ => Nat.le_refl _))

end JsonText

/-- C90: with `max_insertions` greater than the number of tokens, `parser.parse(tokens, recover=True)` of
`tests/parsers/json.py` gives a value whatever the tokens are, if `unescape`, `int` and `float` do not raise on them:
`unwrap(recover=True)` does not raise. -/
theorem C90_json {F : Type} {J : Json.Fns F} {s : List Token} (hs : ∀ e, ¬ Json.BadToken J s e) {K : Int}
    (hK : s.length + 1 ≤ K) (gl : Loc → List Token → Nat → Loc) (fmt : Loc → String) :
    ∃ r v, Returns (Json.env J) Json.parser s (recovering K gl) r ∧ r.unwrap fmt true = .ok v := by
  rcases C90_total (Json.wf J) (Json.mendable J) (s := s) (K := K) (by omega) gl fmt with h | ⟨e, he⟩
  · exact h
  · exact absurd (C75_exceptions _ he) (hs e)

/-- C90: and it is the value of the JSON text that results from the tokens by the reported edits, in that order. (If no
error is reported, the tokens are themselves the text of that value.) -/
theorem C90_json_repaired {F : Type} {J : Json.Fns F} (h1 : J.int "1" = .ok 1) (h2 : J.unescape "a" = .ok "a")
    {s : List Token} (hs : ∀ e, ¬ Json.BadToken J s e) {K : Int} (hK : s.length + 1 ≤ K) (fmt : Loc → String) :
    ∃ r v, Returns (Json.env J) Json.parser s (recovering K lexerGetLoc) r ∧ r.unwrap fmt true = .ok v ∧
      (r.unwrap fmt false = .ok v ∧ Json.Denotes J s v ∨
        ∃ pe es, r.unwrap fmt false = .error pe ∧ ReportsEdits s es pe.errors ∧ InOrder 0 es s.length ∧
          Json.Denotes J (edited Json.tokens s 0 es s.length) v) := by
  obtain ⟨r, v, hr, hv⟩ := C90_json hs hK lexerGetLoc fmt
  refine ⟨r, v, hr, hv, ?_⟩
  cases hu : r.unwrap fmt false with
  | error pe =>
    obtain ⟨es, h3, h4, h5⟩ := C75_repaired h1 h2 hr hv hu
    exact .inr ⟨pe, es, rfl, h3, h4, h5⟩
  | ok v' =>
    obtain ⟨r', h3, h4⟩ := C02_no_false_success _ _ _ _ _ fmt hr hu
    have hd := (C75_exact lexerGetLoc fmt v').1 ⟨r', h3, h4 fmt false⟩
    obtain ⟨r'', h5, h6⟩ := C01_recovery_keeps_success _ _ _ _ K fmt h3 (h4 fmt false)
    cases returns_unique hr h5
    cases hv.symm.trans (h6 fmt true)
    exact .inl ⟨rfl, hd⟩

/-- C90, with the lexer: every text has tokens, and if `max_insertions` is greater than their number,
`lexer.parse(.., recover=True)` gives a value. -/
theorem C90_json_lexer {F : Type} {J : Json.Fns F} {src : List Char} (hs : ∀ e, ¬ JsonText.BadPart J src e)
    (fmt : Loc → String) : ∃ toks, LexReturns src JsonText.jsonSpec toks ∧ ∀ K : Int, toks.length + 1 ≤ K →
      ∃ r v, Returns (Json.env J) Json.parser toks (recovering K lexerGetLoc) r ∧ r.unwrap fmt true = .ok v := by
  obtain ⟨toks, h⟩ := C81_lexes src
  exact ⟨toks, h, fun K hK => C90_json (fun e he => hs e (JsonText.badPart_of_badToken ((C37_returns_iff ..).1 h) he)) hK
    lexerGetLoc fmt⟩

/-- C90: with `max_insertions` greater than the length of the text, `parser.parse(text, recover=True)` of
`tests/parsers/json_scannerless.py` gives a value whatever the text is, if `unescape`, `int` and `float` do not raise on
parts of it. -/
theorem C90_json_text {F : Type} {J : Json.Fns F} {s : List Char} (hs : ∀ e, ¬ JsonText.BadPart J s e) {K : Int}
    (hK : s.length + 1 ≤ K) (fmt : Loc → String) :
    ∃ r v, Returns (JsonText.env J) JsonText.parser s (recovering K scannerlessGetLoc) r ∧
      r.unwrap fmt true = .ok v := by
  rcases C90_total (JsonText.wf J) (JsonText.mendable J) (s := s) (K := K) (by omega) scannerlessGetLoc fmt with h | ⟨e, he⟩
  · exact h
  · exact absurd (C80_exceptions _ he) (hs e)

/-! ### Cases that meet the hypotheses, and sharpness -/

namespace Samples

/-- No token of these kinds. -/
theorem marks_good {s : List Token} (h : ∀ t ∈ s, t.kind = "punct") (e : Exn) : ¬ Json.BadToken json s e := by
  rintro ⟨t, ht, ⟨hk, _⟩ | ⟨hk, _⟩ | ⟨hk, _⟩⟩ <;> exact absurd ((h t ht).symm.trans hk) (by decide)

/-- A thousand brackets are closed, if `max_insertions` is large enough. -/
example : ∃ r v, Returns (Json.env json) Json.parser (List.replicate 1000 (mark "[")) (recovering 1001 lexerGetLoc) r ∧
    r.unwrap defaultFmtLoc true = .ok v :=
  C90_json (marks_good fun t ht => by rw [List.eq_of_mem_replicate ht]; rfl)
    (by rw [List.length_replicate]; decide) _ _

end Samples

/-- C90, the bound is needed. `sym("x") | sym("(") >> e << sym(")")` needs two insertions for "(": one more than the input has
elements. -/
theorem C90_needs_one_more : ∃ pe,
    Samples.run Samples.nestXEnv (.seql (.ref ()) .eof) "(" true true 1 = .ret (.error pe) ∧
    Samples.run Samples.nestXEnv (.seql (.ref ()) .eof) "(" true true 2 = .ret (.ok 1) :=
  ⟨_, rfl, rfl⟩

/-- C90: so does the JSON parser, for `{"a"`, which needs `:`, a value and `}`. -/
theorem C90_json_needs_one_more : ∃ r r' pe v,
    Returns (Json.env Samples.json) Json.parser [Samples.mark "{", Samples.word "string" "a"] (recovering 2 lexerGetLoc) r ∧
    r.unwrap defaultFmtLoc true = .error pe ∧
    Returns (Json.env Samples.json) Json.parser [Samples.mark "{", Samples.word "string" "a"] (recovering 3 lexerGetLoc) r' ∧
    r'.unwrap defaultFmtLoc true = .ok v ∧ v = .dict [("a", .int 1)] :=
  ⟨_, _, _, _, ⟨20, rfl⟩, rfl, ⟨20, rfl⟩, rfl, rfl⟩

/-- C90: with the default `max_insertions=5` the JSON parser does not close six brackets. -/
theorem C90_json_default_not_enough : ∃ r pe,
    Returns (Json.env Samples.json) Json.parser (List.replicate 6 (Samples.mark "[")) (recovering 5 lexerGetLoc) r ∧
    r.unwrap defaultFmtLoc true = .error pe :=
  ⟨_, _, ⟨40, rfl⟩, rfl⟩

end Reparsec
