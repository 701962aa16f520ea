import Verif.Spec.Prefix
import Verif.Spec.Eval
import Verif.Lemmas.LangLemmas

/-!
# What an evaluation depends on
-/

namespace Reparsec

variable {τ ρ : Type} {Γ : ρ → Type} {α β : Type} [BEq τ]

omit [BEq τ] in
theorem SameUpTo.mono {n m : Nat} {s s' : List τ} (h : SameUpTo n s s') (hm : m ≤ n) : SameUpTo m s s' := by
  have := congrArg (List.take (m + 1)) h
  rwa [List.take_take, List.take_take, Nat.min_eq_left (by omega)] at this

omit [BEq τ] in
theorem SameUpTo.symm {n : Nat} {s s' : List τ} (h : SameUpTo n s s') : SameUpTo n s' s := Eq.symm h

omit [BEq τ] in
theorem SameUpTo.get {n i : Nat} {s s' : List τ} (h : SameUpTo n s s') (hi : i ≤ n) : s'[i]? = s[i]? := by
  have := congrArg (·[i]?) h
  simpa [List.getElem?_take, show i < n + 1 by omega] using this

omit [BEq τ] in
theorem SameUpTo.length {n : Nat} {s s' : List τ} (h : SameUpTo n s s') (hi : s.length ≤ n) :
    s'.length = s.length := by
  have := congrArg List.length h
  simp only [List.length_take] at this
  omega

/-- The outcome lies between position `i` and the end `n`; a failure that is not final is at `i`. -/
def Outcome.fits (n i : Nat) : Outcome α → Prop
  | .accepts _ j _ => i ≤ j ∧ j ≤ n
  | .fails (.rejects q _ b) => i ≤ q ∧ q ≤ n ∧ (b = false → q = i)
  | .fails (.raises _) => True

/-- The outcome is reached at `k` or before, and is not an exception. -/
def Outcome.within (k : Nat) : Outcome α → Prop
  | .accepts _ j _ => j ≤ k
  | .fails (.rejects q _ _) => q ≤ k
  | .fails (.raises _) => False

theorem Outcome.fits.le {n i k : Nat} {o : Outcome α} (h : o.fits n i) (hk : o.within k) : i ≤ k := by
  rcases o with ⟨_, _, _⟩ | (⟨_, _, _⟩ | _)
  · exact Nat.le_trans h.1 hk
  · exact Nat.le_trans h.1 hk
  · exact hk.elim

theorem Outcome.fits_map {n i : Nat} {o : Outcome α} (f : α → β) (h : o.fits n i) : (o.map f).fits n i := by
  rcases o with ⟨_, _, _⟩ | (⟨_, _, _⟩ | _) <;> exact h

theorem Outcome.within_map {k : Nat} {o : Outcome α} {f : α → β} (h : (o.map f).within k) : o.within k := by
  rcases o with ⟨_, _, _⟩ | (⟨_, _, _⟩ | _) <;> exact h

theorem Outcome.within_after {k i j : Nat} {w : List String} {o : Outcome α} (h : (o.after i j w).within k) :
    o.within k := by
  rcases o with ⟨_, _, _⟩ | (⟨_, _, _ | _⟩ | _) <;> exact h

theorem Outcome.within_labelled {k i : Nat} {x : String} {o : Outcome α} (h : (o.labelled i x).within k) :
    o.within k := by
  rcases o with ⟨_, _, _⟩ | (⟨_, _, _ | _⟩ | _) <;> exact h

theorem Outcome.within_otherwise {n k i q : Nat} {w : List String} {o : Outcome α} (hf : o.fits n i) (hi : i ≤ k)
    (h : (o.otherwise i q w).within k) : o.within k := by
  rcases o with ⟨_, _, _⟩ | (⟨q', _, _ | _⟩ | _)
  · exact h
  · show q' ≤ k; rw [hf.2.2 rfl]; exact hi
  · exact h
  · exact h

theorem Outcome.fits_after {n i j : Nat} {w : List String} {o : Outcome α} (hij : i ≤ j) (h : o.fits n j) :
    (o.after i j w).fits n i := by
  rcases o with ⟨_, _, _⟩ | (⟨_, _, _ | _⟩ | _)
  · exact ⟨Nat.le_trans hij h.1, h.2⟩
  · refine ⟨Nat.le_trans hij h.1, h.2.1, fun hd => ?_⟩
    have := of_decide_eq_false hd
    have := h.2.2 rfl
    omega
  · exact ⟨Nat.le_trans hij h.1, h.2.1, fun hd => by cases hd⟩
  · trivial

theorem Outcome.fits_otherwise {n i q : Nat} {w : List String} {o : Outcome α}
    (hq : i ≤ q ∧ q ≤ n ∧ q = i) (h : o.fits n i) : (o.otherwise i q w).fits n i := by
  rcases o with ⟨_, _, _⟩ | (⟨_, _, _ | _⟩ | _)
  · exact h
  · exact ⟨hq.1, hq.2.1, fun _ => hq.2.2⟩
  · exact h
  · trivial

theorem Outcome.fits_labelled {n i : Nat} {x : String} {o : Outcome α} (h : o.fits n i) :
    (o.labelled i x).fits n i := by
  rcases o with ⟨_, _, _⟩ | (⟨_, _, _ | _⟩ | _) <;> exact h

theorem isPrefixOf_length : ∀ {x y : List τ}, x.isPrefixOf y = true → x.length ≤ y.length := by
  intro x
  induction x with
  | nil => intro y _; exact Nat.zero_le _
  | cons a x ih =>
    intro y h
    cases y with
    | nil => simp at h
    | cons b y =>
      rw [List.isPrefixOf_cons_cons, Bool.and_eq_true] at h
      have := ih h.2
      simp only [List.length_cons]
      omega

theorem Outcome.fits_fails {n i : Nat} {x : Failure} (h : (.fails x : Outcome α).fits n i) :
    (.fails x : Outcome β).fits n i := by
  cases x <;> exact h

theorem Outcome.within_fails {k : Nat} {x : Failure} (h : (.fails x : Outcome α).within k) :
    (.fails x : Outcome β).within k := by
  cases x <;> exact h

/-- The failures of `many` are final. -/
def ManyFinal : {α : Type} → P τ ρ Γ α → Outcome α → Prop
  | _, .many _, .fails x => x.final
  | _, _, _ => True

theorem Eval.manyFinal {env : Env τ ρ Γ} {s : List τ} {col : Nat → Nat → Prop} {p : P τ ρ Γ α} {m i : Nat}
    {o : Outcome α} (h : Eval env s col p m i o) : ManyFinal p o := by
  induction h with
  | @manyItem _ _ _ _ _ _ _ o _ _ _ _ ih =>
    cases o with
    | accepts _ _ _ => trivial
    | fails x => exact ih
  | manyEnd _ _ => trivial
  | manyFails _ hx _ => exact hx
  | manyEmpty _ _ => trivial
  | _ => trivial

/-- Without `attempt`, a failure that is not final is where the parser began. -/
theorem Eval.fits {env : Env τ ρ Γ} {s : List τ} {col : Nat → Nat → Prop} {p : P τ ρ Γ α} {m i : Nat}
    {o : Outcome α} (h : Eval env s col p m i o) (henv : ∀ x q, env x = some q → q.All P.oneAhead)
    (hp : p.All P.oneAhead) (hi : i ≤ s.length) : o.fits s.length i := by
  have here : ∀ {i : Nat} {b : Bool}, i ≤ s.length → i ≤ i ∧ i ≤ s.length ∧ (b = false → i = i) :=
    fun h => ⟨Nat.le_refl _, h, fun _ => rfl⟩
  have got : ∀ {i : Nat} {t : τ}, s[i]? = some t → i ≤ i + 1 ∧ i + 1 ≤ s.length := fun h =>
    ⟨Nat.le_succ _, (List.getElem?_eq_some_iff.1 h).1⟩
  induction h with
  | pure => exact ⟨Nat.le_refl _, hi⟩
  | pureFn => exact ⟨Nat.le_refl _, hi⟩
  | pureFnRaises => trivial
  | unexpected => exact here hi
  | eof => exact ⟨Nat.le_refl _, hi⟩
  | eofNot _ => exact here hi
  | satisfy h _ => exact got h
  | satisfyNot _ => exact here hi
  | satisfyRaises _ _ => trivial
  | sym h _ => exact got h
  | symNot _ => exact here hi
  | literal h =>
    have := isPrefixOf_length h
    rw [List.length_drop] at this
    exact ⟨Nat.le_add_right _ _, by omega⟩
  | literalNot _ => exact here hi
  | @regexp _ mt v m i j h => exact mt.bounds _ _ _ _ hi h
  | regexpNot _ => exact here hi
  | regexpRaises _ => trivial
  | fmap _ _ ih => exact ih hp.2 hi
  | fmapRaises _ _ _ => trivial
  | fmapFails _ ih => exact Outcome.fits_fails (ih hp.2 hi)
  | altFirst _ ih => exact ih hp.2.1 hi
  | altFails _ _ ih => exact ih hp.2.1 hi
  | altSecond _ _ ih1 ih2 =>
    have h1 := ih1 hp.2.1 hi
    exact Outcome.fits_otherwise ⟨h1.1, h1.2.1, h1.2.2 rfl⟩ (ih2 hp.2.2 hi)
  | bindFails _ ih => exact Outcome.fits_fails (ih hp.2.1 hi)
  | bind _ _ ih1 ih2 =>
    have h1 := ih1 hp.2.1 hi
    exact Outcome.fits_after h1.1 (ih2 (hp.2.2 _) h1.2)
  | seqFails _ ih => exact Outcome.fits_fails (ih hp.2.1 hi)
  | seq _ _ ih1 ih2 =>
    have h1 := ih1 hp.2.1 hi
    exact Outcome.fits_after h1.1 (Outcome.fits_map _ (ih2 hp.2.2 h1.2))
  | maybe _ ih => exact ih hp.2 hi
  | maybeNone _ _ => exact ⟨Nat.le_refl _, hi⟩
  | maybeFails _ _ ih => exact Outcome.fits_fails (ih hp.2 hi)
  | @manyItem _ _ _ _ _ _ _ o _ _ h ih1 ih2 =>
    have h1 := ih1 hp.2 hi
    have h2 := ih2 hp h1.2
    have h3 := h.manyFinal
    refine Outcome.fits_map _ ?_
    rcases o with ⟨_, _, _⟩ | (⟨_, _, _⟩ | _)
    · exact ⟨Nat.le_trans h1.1 h2.1, h2.2⟩
    · have h3 : _ = true := h3
      exact ⟨Nat.le_trans h1.1 h2.1, h2.2.1, fun h => by rw [h3] at h; cases h⟩
    · trivial
  | manyEnd _ _ => exact ⟨Nat.le_refl _, hi⟩
  | manyFails _ _ ih => exact Outcome.fits_fails (ih hp.2 hi)
  | manyEmpty _ _ => trivial
  | attempt _ _ => exact hp.1.elim
  | label _ ih => exact Outcome.fits_labelled (ih hp.2 hi)
  | recover _ ih => exact ih hp.2 hi
  | recoverWith _ ih => exact ih hp.2 hi
  | recoverWithFn _ ih => exact ih hp.2 hi
  | block _ _ ih => exact ih hp.2 hi
  | aligned _ _ ih => exact ih hp.2 hi
  | alignedNot _ _ => exact here hi
  | indented _ _ _ ih => exact ih hp.2 hi
  | indentedNot _ _ => exact here hi
  | ref h _ ih => exact ih (henv _ _ h) hi
  | refUndefined _ => trivial

theorem isPrefixOf_one {x : List τ} (hx : x.length = 1) {s s' : List τ} {i : Nat} (h : s'[i]? = s[i]?) :
    x.isPrefixOf (s'.drop i) = x.isPrefixOf (s.drop i) := by
  obtain ⟨a, rfl⟩ := List.length_eq_one_iff.1 hx
  have hd : ∀ l : List τ, [a].isPrefixOf l = (l.head?.map (a == ·)).getD false := by
    intro l; cases l <;> simp [List.isPrefixOf]
  rw [hd, hd, List.head?_drop, List.head?_drop, h]

/-- What a parser that looks at one element ahead comes to at `k` depends on nothing after the element at `k`. -/
theorem Eval.local {env : Env τ ρ Γ} {s : List τ} {col : Nat → Nat → Prop} {p : P τ ρ Γ α} {m i : Nat}
    {o : Outcome α} (h : Eval env s col p m i o) (henv : ∀ x q, env x = some q → q.All P.oneAhead)
    (hp : p.All P.oneAhead) (hi : i ≤ s.length) {k : Nat} (hk : o.within k) {s' : List τ}
    (hs : SameUpTo k s s') {col' : Nat → Nat → Prop} (hc : ∀ j, j ≤ k → ∀ c, col j c → col' j c) :
    Eval env s' col' p m i o := by
  induction h with
  | pure => exact .pure
  | pureFn => exact .pureFn
  | pureFnRaises => exact hk.elim
  | unexpected => exact .unexpected
  | eof =>
    rw [← hs.length hk]
    exact .eof
  | @eofNot m i h =>
    refine .eofNot fun e => ?_
    have h1 := hs.get hk
    rw [List.getElem?_eq_none (by omega)] at h1
    have := List.getElem?_eq_none_iff.1 h1.symm
    omega
  | satisfy h1 h2 => exact .satisfy (by rw [hs.get (Nat.le_of_succ_le hk)]; exact h1) h2
  | satisfyNot h => exact .satisfyNot fun t ht => h t (by rw [← hs.get hk]; exact ht)
  | satisfyRaises _ _ => exact hk.elim
  | sym h1 h2 => exact .sym (by rw [hs.get (Nat.le_of_succ_le hk)]; exact h1) h2
  | symNot h => exact .symNot fun t ht => h t (by rw [← hs.get hk]; exact ht)
  | literal h =>
    exact .literal (by rw [isPrefixOf_one hp (hs.get (Nat.le_trans (Nat.le_add_right _ _) hk))]; exact h)
  | literalNot h => exact .literalNot (by rw [isPrefixOf_one hp (hs.get hk)]; exact h)
  | regexp h => exact .regexp (hp.hit _ _ _ _ _ h (hs.mono hk))
  | regexpNot h => exact .regexpNot (hp.miss _ _ _ h (hs.mono hk))
  | regexpRaises _ => exact hk.elim
  | fmap _ h ih => exact .fmap (ih hp.2 hi hk) h
  | fmapRaises _ _ _ => exact hk.elim
  | fmapFails _ ih => exact .fmapFails (ih hp.2 hi (Outcome.within_fails hk))
  | altFirst _ ih => exact .altFirst (ih hp.2.1 hi hk)
  | altFails _ hx ih => exact .altFails (ih hp.2.1 hi hk) hx
  | altSecond h1 h2 ih1 ih2 =>
    have f1 := h1.fits henv hp.2.1 hi
    have f2 := h2.fits henv hp.2.2 hi
    have hik := (Outcome.fits_otherwise ⟨f1.1, f1.2.1, f1.2.2 rfl⟩ f2).le hk
    refine .altSecond (ih1 hp.2.1 hi ?_) (ih2 hp.2.2 hi (Outcome.within_otherwise f2 hik hk))
    show _ ≤ k
    rw [f1.2.2 rfl]; exact hik
  | bindFails _ ih => exact .bindFails (ih hp.2.1 hi (Outcome.within_fails hk))
  | bind h1 h2 ih1 ih2 =>
    have f1 := h1.fits henv hp.2.1 hi
    have f2 := h2.fits henv (hp.2.2 _) f1.2
    have hk := Outcome.within_after hk
    exact .bind (ih1 hp.2.1 hi (f2.le hk)) (ih2 (hp.2.2 _) f1.2 hk)
  | seqFails _ ih => exact .seqFails (ih hp.2.1 hi (Outcome.within_fails hk))
  | seq h1 h2 ih1 ih2 =>
    have f1 := h1.fits henv hp.2.1 hi
    have f2 := h2.fits henv hp.2.2 f1.2
    have hk := Outcome.within_map (Outcome.within_after hk)
    exact .seq (ih1 hp.2.1 hi (f2.le hk)) (ih2 hp.2.2 f1.2 hk)
  | maybe _ ih => exact .maybe (ih hp.2 hi hk)
  | maybeNone h ih =>
    refine .maybeNone (ih hp.2 hi ?_)
    show _ ≤ k
    rw [(h.fits henv hp.2 hi).2.2 rfl]; exact hk
  | maybeFails _ hx ih => exact .maybeFails (ih hp.2 hi (Outcome.within_fails hk)) hx
  | manyItem h1 hij h2 ih1 ih2 =>
    have f1 := h1.fits henv hp.2 hi
    have f2 := h2.fits henv hp f1.2
    have hk := Outcome.within_map hk
    exact .manyItem (ih1 hp.2 hi (f2.le hk)) hij (ih2 hp f1.2 hk)
  | manyEnd h ih =>
    refine .manyEnd (ih hp.2 hi ?_)
    show _ ≤ k
    rw [(h.fits henv hp.2 hi).2.2 rfl]; exact hk
  | manyFails _ hx ih => exact .manyFails (ih hp.2 hi (Outcome.within_fails hk)) hx
  | manyEmpty _ _ => exact hk.elim
  | attempt _ _ => exact hp.1.elim
  | label _ ih => exact .label (ih hp.2 hi (Outcome.within_labelled hk))
  | recover _ ih => exact .recover (ih hp.2 hi hk)
  | recoverWith _ ih => exact .recoverWith (ih hp.2 hi hk)
  | recoverWithFn _ ih => exact .recoverWithFn (ih hp.2 hi hk)
  | block h h' ih => exact .block (hc _ ((h'.fits henv hp.2 hi).le hk) _ h) (ih hp.2 hi hk)
  | aligned h h' ih => exact .aligned (hc _ ((h'.fits henv hp.2 hi).le hk) _ h) (ih hp.2 hi hk)
  | alignedNot h hne => exact .alignedNot (hc _ hk _ h) hne
  | indented h he h' ih => exact .indented (hc _ ((h'.fits henv hp.2 hi).le hk) _ h) he (ih hp.2 hi hk)
  | indentedNot h hne => exact .indentedNot (hc _ hk _ h) hne
  | ref h _ ih => exact .ref h (ih (henv _ _ h) hi hk)
  | refUndefined _ => exact hk.elim

/-- What an outcome at `i` says about the words of the grammar. -/
def Outcome.viable (env : Env τ ρ Γ) (s : List τ) (p : P τ ρ Γ α) (i : Nat) : Outcome α → Prop
  | .accepts v j _ => i ≤ j ∧ j ≤ s.length ∧ Lang env p (slice s i j) v
  | .fails (.rejects q _ _) => i ≤ q ∧ q ≤ s.length ∧ ∃ rest v, Lang env p (slice s i q ++ rest) v
  | .fails (.raises _) => True

omit [BEq τ] in
theorem P.All.here {C : {α : Type} → P τ ρ Γ α → Prop} {p : P τ ρ Γ α} (h : p.All C) : C p := by
  cases p <;> first | exact h | exact h.1

theorem Outcome.viable_fails {env : Env τ ρ Γ} {s : List τ} {p : P τ ρ Γ α} {p' : P τ ρ Γ β} {i : Nat}
    {x : Failure} (h : (.fails x : Outcome α).viable env s p i)
    (hL : ∀ w v, Lang env p w v → ∃ w' v', Lang env p' (w ++ w') v') :
    (.fails x : Outcome β).viable env s p' i := by
  cases x with
  | raises e => trivial
  | rejects q w b =>
    obtain ⟨h1, h2, rest, v, h3⟩ := h
    obtain ⟨w', v', h4⟩ := hL _ _ h3
    exact ⟨h1, h2, rest ++ w', v', by rw [← List.append_assoc]; exact h4⟩

theorem Outcome.viable_mono {env : Env τ ρ Γ} {s : List τ} {p p' : P τ ρ Γ α} {i : Nat}
    {o : Outcome α} (h : o.viable env s p i)
    (hL : ∀ w v, Lang env p w v → Lang env p' w v) : o.viable env s p' i := by
  cases o with
  | accepts v j w => exact ⟨h.1, h.2.1, hL _ _ h.2.2⟩
  | fails x => exact Outcome.viable_fails h fun w v hw => ⟨[], v, by rw [List.append_nil]; exact hL _ _ hw⟩

/-- What was read before a failure can be continued to a word of the grammar. -/
theorem Eval.viable {env : Env τ ρ Γ} {s : List τ} {col : Nat → Nat → Prop} {p : P τ ρ Γ α} {m i : Nat}
    {o : Outcome α} (h : Eval env s col p m i o)
    (henv : ∀ x q, env x = some q → q.All fun p => p.totalMap env ∧ p.productive env)
    (hp : p.All fun p => p.totalMap env ∧ p.productive env) (hi : i ≤ s.length) : o.viable env s p i := by
  have stuck : ∀ {α : Type} {p : P τ ρ Γ α} {i : Nat} {w : List String} {b : Bool}, i ≤ s.length →
      (p.All fun p => p.totalMap env ∧ p.productive env) →
      (.fails (.rejects i w b) : Outcome α).viable env s p i := by
    intro α p i w b hi hp
    obtain ⟨w, v, h⟩ := hp.here.2
    exact ⟨Nat.le_refl _, hi, w, v, by rw [slice_self]; exact h⟩
  have got : ∀ {i : Nat} {t : τ}, s[i]? = some t → i + 1 ≤ s.length := fun h =>
    (List.getElem?_eq_some_iff.1 h).1
  induction h with
  | pure => exact ⟨Nat.le_refl _, hi, by rw [slice_self]; exact .pure⟩
  | pureFn => exact ⟨Nat.le_refl _, hi, by rw [slice_self]; exact .pureFn rfl⟩
  | pureFnRaises => trivial
  | unexpected => exact stuck hi hp
  | eof => exact ⟨Nat.le_refl _, hi, by rw [slice_self]; exact .eof⟩
  | eofNot _ => exact stuck hi hp
  | satisfy h h' => exact ⟨Nat.le_succ _, got h, by rw [slice_one h]; exact .satisfy h'⟩
  | satisfyNot _ => exact stuck hi hp
  | satisfyRaises _ _ => trivial
  | sym h h' => exact ⟨Nat.le_succ _, got h, by rw [slice_one h]; exact .sym h'⟩
  | symNot _ => exact stuck hi hp
  | literal h =>
    have := isPrefixOf_length h
    rw [List.length_drop] at this
    exact ⟨Nat.le_add_right _ _, by omega, .literal (slice_prefix h)⟩
  | literalNot _ => exact stuck hi hp
  | @regexp _ mt v m i j h =>
    have := mt.bounds _ _ _ _ hi h
    exact ⟨this.1, this.2, .regexp this.1 this.2 h⟩
  | regexpNot _ => exact stuck hi hp
  | regexpRaises _ => trivial
  | fmap _ h ih => have h1 := ih hp.2 hi; exact ⟨h1.1, h1.2.1, .fmap h1.2.2 h⟩
  | fmapRaises _ _ _ => trivial
  | fmapFails _ ih =>
    refine Outcome.viable_fails (ih hp.2 hi) fun w v hw => ?_
    obtain ⟨b, hb⟩ := hp.1.1 w v hw
    exact ⟨[], b, by rw [List.append_nil]; exact .fmap hw hb⟩
  | altFirst _ ih => exact Outcome.viable_mono (ih hp.2.1 hi) fun _ _ => .altL
  | altFails _ _ ih => exact Outcome.viable_mono (ih hp.2.1 hi) fun _ _ => .altL
  | @altSecond _ p1 p2 _ _ _ _ o _ _ ih1 ih2 =>
    have h1 := Outcome.viable_mono (ih1 hp.2.1 hi) fun _ _ => Lang.altL (q := p2)
    have h2 := Outcome.viable_mono (ih2 hp.2.2 hi) fun _ _ => Lang.altR (p := p1)
    rcases o with ⟨_, _, _⟩ | (⟨_, _, _ | _⟩ | _)
    · exact h2
    · exact h1
    · exact h2
    · trivial
  | @bindFails _ _ p k _ _ _ _ ih =>
    refine Outcome.viable_fails (ih hp.2.1 hi) fun w v hw => ?_
    obtain ⟨w', v', h'⟩ := (hp.2.2 v).here.2
    exact ⟨w', v', .bind hw h'⟩
  | @bind _ _ _ _ _ _ _ _ _ o _ _ ih1 ih2 =>
    have h1 := ih1 hp.2.1 hi
    have h2 := ih2 (hp.2.2 _) h1.2.1
    rcases o with ⟨_, _, _⟩ | (⟨_, _, _ | _⟩ | _)
    · exact ⟨Nat.le_trans h1.1 h2.1, h2.2.1, by rw [← slice_append s h1.1 h2.1]; exact .bind h1.2.2 h2.2.2⟩
    · obtain ⟨h3, h4, rest, v, h5⟩ := h2
      exact ⟨Nat.le_trans h1.1 h3, h4, rest, v, by
        rw [← slice_append s h1.1 h3, List.append_assoc]; exact .bind h1.2.2 h5⟩
    · obtain ⟨h3, h4, rest, v, h5⟩ := h2
      exact ⟨Nat.le_trans h1.1 h3, h4, rest, v, by
        rw [← slice_append s h1.1 h3, List.append_assoc]; exact .bind h1.2.2 h5⟩
    · trivial
  | seqFails _ ih =>
    refine Outcome.viable_fails (ih hp.2.1 hi) fun w v hw => ?_
    obtain ⟨w', v', h'⟩ := hp.2.2.here.2
    exact ⟨w', _, .seqWith hw h'⟩
  | @seq _ _ _ _ _ _ _ _ _ _ _ o _ _ ih1 ih2 =>
    have h1 := ih1 hp.2.1 hi
    have h2 := ih2 hp.2.2 h1.2.1
    rcases o with ⟨_, _, _⟩ | (⟨_, _, _ | _⟩ | _)
    · exact ⟨Nat.le_trans h1.1 h2.1, h2.2.1, by rw [← slice_append s h1.1 h2.1]; exact .seqWith h1.2.2 h2.2.2⟩
    · obtain ⟨h3, h4, rest, v, h5⟩ := h2
      exact ⟨Nat.le_trans h1.1 h3, h4, rest, _, by
        rw [← slice_append s h1.1 h3, List.append_assoc]; exact .seqWith h1.2.2 h5⟩
    · obtain ⟨h3, h4, rest, v, h5⟩ := h2
      exact ⟨Nat.le_trans h1.1 h3, h4, rest, _, by
        rw [← slice_append s h1.1 h3, List.append_assoc]; exact .seqWith h1.2.2 h5⟩
    · trivial
  | maybe _ ih => have h1 := ih hp.2 hi; exact ⟨h1.1, h1.2.1, .maybeSome h1.2.2⟩
  | maybeNone _ _ => exact ⟨Nat.le_refl _, hi, by rw [slice_self]; exact .maybeNone⟩
  | maybeFails _ _ ih =>
    exact Outcome.viable_fails (ih hp.2 hi) fun w v hw => ⟨[], _, by rw [List.append_nil]; exact .maybeSome hw⟩
  | @manyItem _ _ _ _ _ _ _ o _ _ _ ih1 ih2 =>
    have h1 := ih1 hp.2 hi
    have h2 := ih2 hp h1.2.1
    rcases o with ⟨_, _, _⟩ | (⟨_, _, _⟩ | _)
    · exact ⟨Nat.le_trans h1.1 h2.1, h2.2.1, by rw [← slice_append s h1.1 h2.1]; exact .manyCons h1.2.2 h2.2.2⟩
    · obtain ⟨h3, h4, rest, v, h5⟩ := h2
      exact ⟨Nat.le_trans h1.1 h3, h4, rest, _, by
        rw [← slice_append s h1.1 h3, List.append_assoc]; exact .manyCons h1.2.2 h5⟩
    · trivial
  | manyEnd _ _ => exact ⟨Nat.le_refl _, hi, by rw [slice_self]; exact .manyNil⟩
  | manyFails _ _ ih =>
    exact Outcome.viable_fails (ih hp.2 hi) fun w v hw => ⟨[], _, .manyCons hw .manyNil⟩
  | manyEmpty _ _ => trivial
  | @attempt _ _ _ _ o _ ih =>
    have h1 := Outcome.viable_mono (ih hp.2 hi) fun _ _ => Lang.attempt
    rcases o with ⟨_, _, _⟩ | (⟨_, _, _⟩ | _) <;> exact h1
  | @label _ _ x _ _ o _ ih =>
    have h1 := Outcome.viable_mono (ih hp.2 hi) fun _ _ => Lang.label (x := x)
    rcases o with ⟨_, _, _⟩ | (⟨_, _, _ | _⟩ | _) <;> exact h1
  | recover _ ih => exact Outcome.viable_mono (ih hp.2 hi) fun _ _ => .recover
  | recoverWith _ ih => exact Outcome.viable_mono (ih hp.2 hi) fun _ _ => .recoverWith
  | recoverWithFn _ ih => exact Outcome.viable_mono (ih hp.2 hi) fun _ _ => .recoverWithFn
  | block _ _ ih => exact Outcome.viable_mono (ih hp.2 hi) fun _ _ => .block
  | aligned _ _ ih => exact Outcome.viable_mono (ih hp.2 hi) fun _ _ => .aligned
  | alignedNot _ _ => exact stuck hi hp
  | indented _ _ _ ih => exact Outcome.viable_mono (ih hp.2 hi) fun _ _ => .indented
  | indentedNot _ _ => exact stuck hi hp
  | ref h _ ih => exact Outcome.viable_mono (ih (henv _ _ h) hi) fun _ _ => .ref h
  | refUndefined _ => trivial

end Reparsec
