import Verif.Lemmas.StackAccept
import Verif.Lemmas.StackEnds
import Verif.Props.Run

/-!
# C67: the stack limit
-/

namespace Reparsec

variable {τ ρ : Type} {Γ : ρ → Type} {α : Type} [BEq τ]
  {env : Env τ ρ Γ} {p : P τ ρ Γ α} {s : List τ} {o : Opts τ} {d d' : Nat}

/-- Runs with a limit: more fuel changes nothing. -/
theorem parseIn_mono {n n' : Nat} (h : n ≤ n') {x : Out (Result τ α)} (hx : x ≠ .diverge)
    (hp : Stk.parse env n (some d) p s o.recover o.maxInsertions o.getLoc = x) :
    Stk.parse env n' (some d) p s o.recover o.maxInsertions o.getLoc = x := by
  have hr := Stk.parse_rel (k := ⟨true, false, false, none⟩) env (n := n) (n' := n')
    (.inr (.inl ⟨rfl, h⟩)) (d := some d) (d' := some d) ⟨.inl rfl, by intro m hm; cases hm⟩ p s
    o.recover o.maxInsertions o.getLoc
  rw [hp] at hr
  rcases hr with ⟨_, h⟩ | ⟨h, _⟩ | ⟨h, _⟩ | h
  · exact absurd h hx
  · cases h
  · cases h
  · exact h.symm

/-- Against a run with more frames. -/
theorem parseIn_rel (n : Nat) {d' : Stk.Frames} (h : ∀ e, d' = some e → d ≤ e) :
    let x := Stk.parse env n (some d) p s o.recover o.maxInsertions o.getLoc
    x = .raise Stk.recursionError ∨
      x = Stk.parse env n d' p s o.recover o.maxInsertions o.getLoc := by
  have hr := Stk.parse_rel (k := ⟨false, true, false, none⟩) env (n := n) (n' := n)
    (.inl rfl) (d := some d) (d' := d')
    ⟨.inr ⟨rfl, by
      cases d' with
      | none => exact .inl rfl
      | some e => exact .inr ⟨d, e, rfl, rfl, h e rfl⟩⟩, by intro m hm; cases hm⟩ p s
    o.recover o.maxInsertions o.getLoc
  rcases hr with ⟨h, _⟩ | ⟨_, h⟩ | ⟨h, _⟩ | h
  · cases h
  · exact .inl h
  · cases h
  · exact .inr h

/-- C67, with a limited stack every call ends: also with a left-recursive grammar, and on any input. -/
theorem C67_ends (d : Nat) (env : Env τ ρ Γ) (p : P τ ρ Γ α) (s : List τ) (o : Opts τ) :
    (∃ r, ReturnsIn d env p s o r) ∨ ∃ e, RaisesIn d env p s o e := by
  obtain ⟨n, hn⟩ := Stk.parse_ends env d p s o
  cases hx : Stk.parse env n (some d) p s o.recover o.maxInsertions o.getLoc with
  | diverge => exact absurd hx hn
  | raise e => exact .inr ⟨e, n, hx⟩
  | ret r => exact .inl ⟨r, n, hx⟩

/-- C67, what the call does is determined by the limit. -/
theorem C67_unique :
    (∀ r r', ReturnsIn d env p s o r → ReturnsIn d env p s o r' → r = r') ∧
    (∀ e e', RaisesIn d env p s o e → RaisesIn d env p s o e' → e = e') ∧
    ∀ r e, ¬ (ReturnsIn d env p s o r ∧ RaisesIn d env p s o e) := by
  refine ⟨?_, ?_, ?_⟩
  · rintro r r' ⟨n, h⟩ ⟨n', h'⟩
    have h1 := parseIn_mono (Nat.le_max_left n n') (by simp) h
    have h2 := parseIn_mono (Nat.le_max_right n n') (by simp) h'
    rw [h1] at h2; cases h2; rfl
  · rintro r r' ⟨n, h⟩ ⟨n', h'⟩
    have h1 := parseIn_mono (Nat.le_max_left n n') (by simp) h
    have h2 := parseIn_mono (Nat.le_max_right n n') (by simp) h'
    rw [h1] at h2; cases h2; rfl
  · rintro r e ⟨⟨n, h⟩, ⟨n', h'⟩⟩
    have h1 := parseIn_mono (Nat.le_max_left n n') (by simp) h
    have h2 := parseIn_mono (Nat.le_max_right n n') (by simp) h'
    rw [h1] at h2; cases h2

/-- C67, a limit changes an outcome only to `RecursionError`: whatever else happens happens without a
limit, too. -/
theorem C67_same :
    (∀ r, ReturnsIn d env p s o r → Returns env p s o r) ∧
    ∀ e, RaisesIn d env p s o e → e = Stk.recursionError ∨ Raises env p s o e := by
  constructor
  · rintro r ⟨n, h⟩
    rcases parseIn_rel (env := env) (p := p) (s := s) (o := o) (d := d) n (d' := none) (by simp)
      with h' | h'
    · rw [h] at h'; cases h'
    · rw [h, Stk.parse_none] at h'
      exact ⟨n, h'.symm⟩
  · rintro e ⟨n, h⟩
    rcases parseIn_rel (env := env) (p := p) (s := s) (o := o) (d := d) n (d' := none) (by simp)
      with h' | h'
    · rw [h] at h'; cases h'; exact .inl rfl
    · rw [h, Stk.parse_none] at h'
      exact .inr ⟨n, h'.symm⟩

/-- C67, more frames do not change an outcome other than `RecursionError`. -/
theorem C67_more (h : d ≤ d') :
    (∀ r, ReturnsIn d env p s o r → ReturnsIn d' env p s o r) ∧
    ∀ e, e ≠ Stk.recursionError → RaisesIn d env p s o e → RaisesIn d' env p s o e := by
  constructor
  · rintro r ⟨n, hr⟩
    rcases parseIn_rel (env := env) (p := p) (s := s) (o := o) (d := d) n (d' := some d')
      (by rintro e ⟨⟩; exact h) with h' | h'
    · rw [hr] at h'; cases h'
    · rw [hr] at h'
      exact ⟨n, h'.symm⟩
  · rintro e he ⟨n, hr⟩
    rcases parseIn_rel (env := env) (p := p) (s := s) (o := o) (d := d) n (d' := some d')
      (by rintro e ⟨⟩; exact h) with h' | h'
    · rw [hr] at h'; cases h'; exact absurd rfl he
    · rw [hr] at h'
      exact ⟨n, h'.symm⟩

/-- It is enough that the two runs agree for large amounts of fuel. -/
theorem suffices_of (h : ∃ n, ∀ n', n ≤ n' →
      Stk.parse env n' (some d) p s o.recover o.maxInsertions o.getLoc =
        parse env n' p s o.recover o.maxInsertions o.getLoc) : Suffices d env p s o := by
  obtain ⟨n, h⟩ := h
  refine ⟨fun r => ⟨?_, ?_⟩, fun e => ⟨?_, ?_⟩⟩
  · exact C67_same.1 r
  · intro hr
    obtain ⟨m, hm⟩ := hr.le
    exact ⟨max n m, by rw [h _ (by omega), hm _ (by omega)]⟩
  · rintro ⟨m, hm⟩
    have := parseIn_mono (Nat.le_max_right n m) (by simp) hm
    rw [h _ (by omega)] at this
    exact ⟨_, this⟩
  · intro hr
    obtain ⟨m, hm⟩ := hr.le
    exact ⟨max n m, by rw [h _ (by omega), hm _ (by omega)]⟩

/-- C67, a call that ends without a limit needs only finitely many frames: with so many or more it does
the same. -/
theorem C67_enough (h : ¬ Hangs env p s o) : ∃ l, ∀ d, l ≤ d → Suffices d env p s o := by
  have hx : ∃ x n, x ≠ .diverge ∧ ∀ n', n ≤ n' →
      parse env n' p s o.recover o.maxInsertions o.getLoc = x := by
    rcases run_cases env p s o with ⟨r, hr⟩ | ⟨e, hr⟩ | hr
    · obtain ⟨n, hn⟩ := hr.le; exact ⟨_, n, by simp, hn⟩
    · obtain ⟨n, hn⟩ := hr.le; exact ⟨_, n, by simp, hn⟩
    · exact absurd hr h
  obtain ⟨x, n, hx, hn⟩ := hx
  obtain ⟨l, hl⟩ := Stk.parse_conv env n p s o.recover o.maxInsertions o.getLoc
    (by rw [hn n (Nat.le_refl _)]; exact hx)
  refine ⟨l, fun d hd => suffices_of ⟨n, fun n' hn' => ?_⟩⟩
  rw [hn n' hn']
  exact parseIn_mono hn' hx ((hl d hd).trans (hn n (Nat.le_refl _)))

/-- C67, a call that does not end without a limit raises `RecursionError` with any. -/
theorem C67_hangs (h : Hangs env p s o) (d : Nat) : RaisesIn d env p s o Stk.recursionError := by
  rcases C67_ends d env p s o with ⟨r, hr⟩ | ⟨e, hr⟩
  · exact absurd h (returns_not_hangs (C67_same.1 r hr))
  · rcases C67_same.2 e hr with rfl | h'
    · exact hr
    · exact absurd h (raises_not_hangs h')

/-- C67, without recovery: the number of frames needed is the height of the parser (and two for
`parse`), however long the input is. -/
theorem C67_plain {h : Nat} (hp : Height p h) (ho : o.recover = false) (hd : h + 2 ≤ d) (s : List τ) :
    Suffices d env p s o := by
  refine suffices_of ⟨0, fun n _ => ?_⟩
  obtain ⟨d, rfl⟩ : ∃ k, d = k + 2 := ⟨d - 2, by omega⟩
  have := Stk.fast_enough n (Stk.table env n) (table env n) hp (m := d) (by omega)
  have e : (Stk.framed (Stk.denote env n p) (some (d + 1))).fast s 0 (initCtx o.getLoc) =
      (denote env n p).fast s 0 (initCtx o.getLoc) :=
    congrFun (congrFun (congrFun this s) 0) (initCtx o.getLoc)
  simp only [Stk.parse, Stk.call, parse, ho, e, Bool.false_eq_true, if_false]

/-- C67, in both modes: a number of frames linear in the length of the input is enough. -/
theorem C67_linear {h : Nat} (hp : Height p h) (hd : 3 * h * (s.length + 1) + 2 ≤ d) :
    Suffices d env p s o := by
  cases hb : o.recover with
  | false =>
    have := Stk.le_need h s.length
    unfold Stk.need at this
    exact C67_plain hp hb (by omega) s
  | true =>
    refine suffices_of ⟨0, fun n _ => ?_⟩
    obtain ⟨d, rfl⟩ : ∃ k, d = k + 2 := ⟨d - 2, by omega⟩
    have := (Stk.fn_enough env n hp (s := s) (pos := 0) o.maxInsertions (m := d) (Nat.zero_le _)
      (by simp only [Stk.need]; simpa using hd)).2 (initCtx o.getLoc) (some o.maxInsertions)
    have e : (Stk.framed (Stk.denote env n p) (some (d + 1))).fn s 0 (initCtx o.getLoc)
        o.maxInsertions (some o.maxInsertions) =
        (denote env n p).fn s 0 (initCtx o.getLoc) o.maxInsertions (some o.maxInsertions) := this
    simp only [Stk.parse, Stk.call, parse, hb, e, if_true]

/-- C67, also with recovery the height is enough on input that is accepted: asking for recovery costs no
stack as long as there is nothing to repair. -/
theorem C67_accepted {h : Nat} (hp : Height p h) (hd : h + 2 ≤ d) {r : Ok τ α} {k : Int}
    {gl : Loc → List τ → Nat → Loc} (hr : Returns env p s (plain gl) (.ok r)) :
    ReturnsIn d env p s (recovering k gl) (.ok r) := by
  obtain ⟨n, hn⟩ := hr
  obtain ⟨d, rfl⟩ : ∃ k, d = k + 2 := ⟨d - 2, by omega⟩
  refine ⟨n, ?_⟩
  have hx : (denote env n p).fast s 0 (initCtx gl) = .ret (.ok r) := by
    simp only [parse, plain, Bool.false_eq_true, if_false, Out.bind_def, Out.pure_def] at hn
    cases hx : (denote env n p).fast s 0 (initCtx gl) with
    | diverge => rw [hx] at hn; cases hn
    | raise e => rw [hx] at hn; cases hn
    | ret z =>
      rw [hx] at hn
      cases z with
      | ok r' => cases hn; rfl
      | error e => cases hn
  exact Stk.accepts env n hp (m := d) (by omega) s 0 (initCtx gl) k (some k) _ hx trivial

/-- Not a `bind` and not a `Delay` object. -/
def P.fixedShape : {α : Type} → P τ ρ Γ α → Prop
  | _, .ref _ => False
  | _, .bind _ _ => False
  | _, _ => True

omit [BEq τ] in
theorem Height.mono {h h' : Nat} (hp : Height p h) (hh : h ≤ h') : Height p h' := by
  induction hp generalizing h' with
  | pure | pureFn | unexpected | eof | satisfy | sym | literal | regexp =>
    obtain ⟨h', rfl⟩ : ∃ k, h' = k + 1 := ⟨h' - 1, by omega⟩
    constructor
  | bind _ _ ihp ihk =>
    obtain ⟨h', rfl⟩ : ∃ k, h' = k + 2 := ⟨h' - 2, by omega⟩
    exact .bind (ihp (by omega)) fun a => ihk a (by omega)
  | alt _ _ ihp ihq =>
    obtain ⟨h', rfl⟩ : ∃ k, h' = k + 1 := ⟨h' - 1, by omega⟩
    exact .alt (ihp (by omega)) (ihq (by omega))
  | seqWith m _ _ ihp ihq =>
    obtain ⟨h', rfl⟩ : ∃ k, h' = k + 1 := ⟨h' - 1, by omega⟩
    exact .seqWith m (ihp (by omega)) (ihq (by omega))
  | _ =>
    obtain ⟨h', rfl⟩ : ∃ k, h' = k + 1 := ⟨h' - 1, by omega⟩
    constructor
    rename_i ih
    exact ih (by omega)

omit [BEq τ] in
/-- C67, every parser built without `bind` and without `Delay` has a height. -/
theorem C67_height (p : P τ ρ Γ α) (h : p.All P.fixedShape) : ∃ n, Height p n := by
  induction p with
  | pure | pureFn | unexpected | eof | satisfy | sym | literal | regexp => exact ⟨1, by constructor⟩
  | bind => exact absurd h.1 id
  | ref => exact absurd h id
  | alt p q ihp ihq =>
    obtain ⟨a, ha⟩ := ihp h.2.1
    obtain ⟨b, hb⟩ := ihq h.2.2
    exact ⟨_, .alt (ha.mono (Nat.le_max_left a b)) (hb.mono (Nat.le_max_right a b))⟩
  | seqWith p q m ihp ihq =>
    obtain ⟨a, ha⟩ := ihp h.2.1
    obtain ⟨b, hb⟩ := ihq h.2.2
    exact ⟨_, .seqWith m (ha.mono (Nat.le_max_left a b)) (hb.mono (Nat.le_max_right a b))⟩
  | _ =>
    rename_i ih
    obtain ⟨a, ha⟩ := ih h.2
    exact ⟨a + 1, by constructor; exact ha⟩

end Reparsec
