import Verif.Lemmas.EffectsEval
import Verif.Spec.EffectsCost
import Verif.Lemmas.Locs
import Verif.Lemmas.Halts

/-!
# How many calls of callbacks a run makes
-/

namespace Reparsec.Eff

variable {σ τ ρ : Type} {Γ : ρ → Type} {α β : Type}

theorem Calls.length {c : Callback σ α β} {a : α} {w w' : World σ} {r : Except Exn β}
    (h : Calls c a w r w') : w'.calls.length = w.calls.length + 1 := by
  cases h; simp

/-- A bound on the calls of a `Short` parser. -/
def P.total : {α : Type} → P σ τ ρ Γ α → Nat
  | _, .pureFn _ => 1
  | _, .satisfy _ => 1
  | _, .fmap p _ => p.total + 1
  | _, .alt p q => p.total + q.total
  | _, .seqWith p q _ => p.total + q.total
  | _, .maybe p => p.total
  | _, .attempt p => p.total
  | _, .label p _ => p.total
  | _, .recover p => p.total
  | _, .recoverWith p _ _ => p.total
  | _, .recoverWithFn p _ _ => p.total
  | _, .block p => p.total
  | _, .aligned p => p.total
  | _, .indented _ p => p.total
  | _, _ => 0

variable [BEq τ] {env : Env σ τ ρ Γ} {s : List τ} {col : Nat → Nat → Prop}

theorem short_cost {p : P σ τ ρ Γ α} {m i : Nat} {w w' : World σ} {o : Outcome α}
    (h : Eval env s col p m i w o w') (hp : p.Short) :
    w'.calls.length ≤ w.calls.length + p.total := by
  induction h with
  | pure | unexpected | eof | eofNot | satisfyEnd | sym | symNot | literal | literalNot | regexp
  | regexpNot | regexpRaises | alignedNot | indentedNot => exact Nat.le_add_right _ _
  | pureFn h | pureFnRaises h => simp [P.total, Calls.length h]
  | satisfy _ h | satisfyNot _ h | satisfyRaises _ h => simp [P.total, Calls.length h]
  | fmap _ h ih | fmapRaises _ h ih =>
    have := ih hp; have := Calls.length h; simp only [P.total]; omega
  | fmapFails _ ih => have := ih hp; simp only [P.total]; omega
  | altFirst _ ih | altFails _ _ ih => have := ih hp.1; simp only [P.total]; omega
  | altSecond _ _ ih1 ih2 => have := ih1 hp.1; have := ih2 hp.2; simp only [P.total]; omega
  | bindFails | bindRaises | bind | manyItem | manyEnd | manyFails | manyEmpty | ref
  | refUndefined => exact hp.elim
  | seqFails _ ih => have := ih hp.1; simp only [P.total]; omega
  | seq _ _ ih1 ih2 => have := ih1 hp.1; have := ih2 hp.2; simp only [P.total]; omega
  | maybe _ ih | maybeNone _ ih | maybeFails _ _ ih | attempt _ ih | label _ ih | recover _ ih
  | recoverWith _ ih | recoverWithFn _ ih | block _ _ ih | aligned _ _ ih | indented _ _ _ ih =>
    exact ih hp

/-- Positions move forward, within the input. -/
theorem eval_pos {p : P σ τ ρ Γ α} {m i : Nat} {w w' : World σ} {v : α} {j : Nat} {x : List String}
    (h : Eval env s col p m i w (.accepts v j x) w') (hi : i ≤ s.length) :
    i ≤ j ∧ j ≤ s.length := by
  generalize ho : Outcome.accepts v j x = o at h
  induction h generalizing j x with
  | pure | pureFn | eof => cases ho; exact ⟨Nat.le_refl _, hi⟩
  | pureFnRaises | unexpected | eofNot | satisfyNot | satisfyEnd | satisfyRaises | symNot
  | literalNot | regexpNot | regexpRaises | fmapRaises | fmapFails | altFails | bindFails
  | bindRaises | seqFails | maybeFails | manyFails | manyEmpty | alignedNot | indentedNot
  | refUndefined => cases ho
  | satisfy ht | sym ht =>
    cases ho
    obtain ⟨h, -⟩ := List.getElem?_eq_some_iff.1 ht
    omega
  | literal h =>
    cases ho
    have := isPrefixOf_length_le h
    rw [List.length_drop] at this
    omega
  | @regexp β mt v m i j w h => cases ho; exact mt.bounds _ _ _ _ hi h
  | fmap _ _ ih => cases ho; exact ih hi rfl
  | altFirst _ ih => cases ho; exact ih hi rfl
  | @altSecond α p q m i k x o w w1 w2 _ _ _ ih =>
    cases o with
    | accepts v j x => cases ho; exact ih hi rfl
    | fails f =>
      cases f with
      | rejects q x d => cases d <;> cases ho
      | raises e => cases ho
  | @bind α ι β p c k m i a j x b o w w1 w2 w3 _ _ _ ih1 ih2 =>
    obtain ⟨h1, h2⟩ := ih1 hi rfl
    cases o with
    | accepts v j x => cases ho; have := ih2 h2 rfl; omega
    | fails f =>
      cases f with
      | rejects q x d => cases d <;> cases ho
      | raises e => cases ho
  | @seq α β γ p q mg m i a j x o w w1 w2 _ _ ih1 ih2 =>
    obtain ⟨h1, h2⟩ := ih1 hi rfl
    cases o with
    | accepts v j x => cases ho; have := ih2 h2 rfl; omega
    | fails f =>
      cases f with
      | rejects q x d => cases d <;> cases ho
      | raises e => cases ho
  | maybe _ ih => cases ho; exact ih hi rfl
  | maybeNone _ ih => cases ho; exact ⟨Nat.le_refl _, hi⟩
  | manyEnd _ ih => cases ho; exact ⟨Nat.le_refl _, hi⟩
  | @manyItem α p m i v j x o w w1 w2 _ _ _ ih1 ih2 =>
    obtain ⟨h1, h2⟩ := ih1 hi rfl
    cases o with
    | accepts v j x => cases ho; have := ih2 h2 rfl; omega
    | fails f => cases ho
  | @attempt α p m i o w w' _ ih =>
    cases o with
    | accepts v j x => cases ho; exact ih hi rfl
    | fails f => cases f <;> cases ho
  | @label α p x m i o w w' _ ih =>
    cases o with
    | accepts v j x => cases ho; exact ih hi rfl
    | fails f =>
      cases f with
      | rejects q x d => cases d <;> cases ho
      | raises e => cases ho
  | recover _ ih | recoverWith _ ih | recoverWithFn _ ih | block _ _ ih | aligned _ _ ih
  | indented _ _ _ ih | ref _ _ ih => exact ih hi ho

/-- `many` fails only for good. -/
theorem many_final {p : P σ τ ρ Γ α} {m i : Nat} {w w' : World σ} {o : Outcome α}
    (h : Eval env s col p m i w o w') :
    match p with
    | .many _ => ∀ q x, o ≠ .fails (.rejects q x false)
    | _ => True := by
  induction h with
  | @manyItem α p m i v j x o w w1 w2 _ _ _ _ ih =>
    intro q y h
    cases o with
    | accepts v j x => cases h
    | fails f => exact ih q y (by cases h; rfl)
  | manyEnd | manyEmpty => intro q x h; cases h
  | @manyFails α p m i w w' x _ hx =>
    intro q y h; cases h; cases hx
  | _ => trivial

section bounds
open Classical

/-- A bound on the calls made before any input is consumed; `a x` is the one for the `Delay` object
`x`. -/
noncomputable def P.before (env : Env σ τ ρ Γ) (a : ρ → Nat) : {α : Type} → P σ τ ρ Γ α → Nat
  | _, .pureFn _ => 1
  | _, .satisfy _ => 1
  | _, .fmap p _ => p.before env a + 1
  | _, .alt p q => p.before env a + q.before env a
  | _, .seqWith p q _ => p.before env a + if ∃ v, CanBeEmpty env p v then q.before env a else 0
  | _, .maybe p => p.before env a
  | _, .many p => p.before env a
  | _, .attempt p => p.total
  | _, .label p _ => p.before env a
  | _, .recover p => p.before env a
  | _, .recoverWith p _ _ => p.before env a
  | _, .recoverWithFn p _ _ => p.before env a
  | _, .block p => p.before env a
  | _, .aligned p => p.before env a
  | _, .indented _ p => p.before env a
  | _, .ref x => a x
  | _, _ => 0

/-- A bound on the calls that the first element consumed has to pay for. -/
noncomputable def P.first (env : Env σ τ ρ Γ) (a b : ρ → Nat) : {α : Type} → P σ τ ρ Γ α → Nat
  | _, .pureFn _ => 1
  | _, .satisfy _ => 1
  | _, .fmap p _ => p.first env a b + p.before env a + 1
  | _, .alt p q => p.first env a b + p.before env a + q.first env a b
  | _, .seqWith p q _ => p.first env a b + p.before env a + q.before env a +
      if ∃ v, CanBeEmpty env p v then q.first env a b else 0
  | _, .maybe p => p.first env a b
  | _, .many p => p.first env a b + p.before env a
  | _, .attempt p => p.total
  | _, .label p _ => p.first env a b
  | _, .recover p => p.first env a b
  | _, .recoverWith p _ _ => p.first env a b
  | _, .recoverWithFn p _ _ => p.first env a b
  | _, .block p => p.first env a b
  | _, .aligned p => p.first env a b
  | _, .indented _ p => p.first env a b
  | _, .ref x => b x
  | _, _ => 0

/-- A bound on `first` of all parts. -/
noncomputable def P.rate (env : Env σ τ ρ Γ) (a b : ρ → Nat) : {α : Type} → P σ τ ρ Γ α → Nat
  | _, .fmap p fn => (P.fmap p fn).first env a b + p.rate env a b
  | _, .alt p q => (P.alt p q).first env a b + p.rate env a b + q.rate env a b
  | _, .seqWith p q m => (P.seqWith p q m).first env a b + p.rate env a b + q.rate env a b
  | _, .maybe p => p.rate env a b
  | _, .many p => (P.many p).first env a b + p.rate env a b
  | _, .attempt p => (P.attempt p).first env a b
  | _, .label p _ => p.rate env a b
  | _, .recover p => p.rate env a b
  | _, .recoverWith p _ _ => p.rate env a b
  | _, .recoverWithFn p _ _ => p.rate env a b
  | _, .block p => p.rate env a b
  | _, .aligned p => p.rate env a b
  | _, .indented _ p => p.rate env a b
  | _, p => p.first env a b

theorem first_le_rate (a b : ρ → Nat) (p : P σ τ ρ Γ α) : p.first env a b ≤ p.rate env a b := by
  induction p with
  | maybe p ih | label p _ ih | recover p ih | recoverWith p _ _ ih | recoverWithFn p _ _ ih
  | block p ih | aligned p ih | indented _ p ih => exact ih
  | alt | seqWith | fmap | many => simp only [P.rate]; omega
  | _ => exact Nat.le_refl _

/-- The claim about an outcome: `a` bounds the calls before anything is consumed, `b` what the first
element pays for, and every further one pays for `K`. -/
def Within (n i K a b c c' : Nat) : Outcome α → Prop
  | .accepts _ j _ => i ≤ j ∧ j ≤ n ∧ (j = i → c' ≤ c + a) ∧ (i < j → c' + K ≤ c + b + K * (j - i))
  | .fails (.rejects _ _ false) => c' ≤ c + a
  | .fails _ => c' ≤ c + b + K * (n - i)

omit [BEq τ] in
theorem Within.accepts_of {n i K a b c c' : Nat} {v : α} {j x} (h1 : i ≤ j) (h2 : j ≤ n)
    (h3 : j = i → c' ≤ c + a) (h4 : i < j → c' ≤ c + b) :
    Within n i K a b c c' (.accepts v j x : Outcome α) := by
  refine ⟨h1, h2, h3, fun h => ?_⟩
  have := h4 h
  have : K * 1 ≤ K * (j - i) := Nat.mul_le_mul_left _ (by omega)
  omega

theorem Within.mono {n i K a b a' b' c c' : Nat} {o : Outcome α} (h : Within n i K a b c c' o)
    (ha : a ≤ a') (hb : b ≤ b') : Within n i K a' b' c c' o := by
  cases o with
  | accepts v j x =>
    obtain ⟨h1, h2, h3, h4⟩ := h
    exact ⟨h1, h2, fun h => by have := h3 h; omega, fun h => by have := h4 h; omega⟩
  | fails f =>
    cases f with
    | rejects q x d => cases d <;> simp only [Within] at * <;> omega
    | raises e => simp only [Within] at *; omega

/-- Something that was done before at the same place. -/
theorem Within.plus {n i K a b c c0 c' d : Nat} {o : Outcome α} (h : Within n i K a b c0 c' o)
    (hd : c0 ≤ c + d) : Within n i K (d + a) (d + b) c c' o := by
  cases o with
  | accepts v j x =>
    obtain ⟨h1, h2, h3, h4⟩ := h
    exact ⟨h1, h2, fun h => by have := h3 h; omega, fun h => by have := h4 h; omega⟩
  | fails f =>
    cases f with
    | rejects q x d => cases d <;> simp only [Within] at * <;> omega
    | raises e => simp only [Within] at *; omega

theorem Within.final {n i K a b c c' : Nat} {f : Failure} (hf : f.final)
    (h : c' ≤ c + b + K * (n - i)) : Within n i K a b c c' (.fails f : Outcome α) := by
  cases f with
  | rejects q x d => cases hf; exact h
  | raises e => exact h

theorem Within.of_final {n i K a b c c' : Nat} {f : Failure} (hf : f.final)
    (h : Within n i K a b c c' (.fails f : Outcome α)) : c' ≤ c + b + K * (n - i) := by
  cases f with
  | rejects q x d => cases hf; exact h
  | raises e => exact h

theorem Within.map {n i K a b c c' : Nat} {o : Outcome α} (f : α → β) (h : Within n i K a b c c' o) :
    Within n i K a b c c' (o.map f) := by
  cases o with
  | accepts v j x => exact h
  | fails f =>
    cases f with
    | rejects q x d => cases d <;> exact h
    | raises e => exact h

theorem Within.fails {n i K a b c c' : Nat} {f : Failure}
    (h : Within n i K a b c c' (.fails f : Outcome α)) :
    Within n i K a b c c' (.fails f : Outcome β) := by
  cases f with
  | rejects q x d => cases d <;> exact h
  | raises e => exact h

/-- The second part of a sequence. -/
theorem Within.after {n i j K a b a1 b1 a2 b2 c c1 c' : Nat} {x : List String} {o : Outcome α}
    (hij : i ≤ j) (hj : j ≤ n)
    (h0 : j = i → c1 ≤ c + a1) (h1 : i < j → c1 + K ≤ c + b1 + K * (j - i))
    (h : Within n j K a2 b2 c1 c' o) (hb2 : b2 ≤ K)
    (ha : j = i → a1 + a2 ≤ a) (hb : j = i → a1 + b2 ≤ b) (hb' : b1 + a2 ≤ b) :
    Within n i K a b c c' (o.after i j x) := by
  have hK : ∀ k, j ≤ k → K * (k - i) = K * (j - i) + K * (k - j) := fun k hk => by
    rw [← Nat.mul_add]; congr 1; omega
  have hn := hK n hj
  rcases Nat.lt_or_ge i j with hlt | hge
  · have h1 := h1 hlt
    have hK1 : K * 1 ≤ K * (j - i) := Nat.mul_le_mul_left _ (by omega)
    cases o with
    | accepts v k y =>
      obtain ⟨h2, h3, h4, h5⟩ := h
      have hk := hK k h2
      refine ⟨by omega, h3, fun h => by omega, fun _ => ?_⟩
      rcases Nat.lt_or_ge j k with hlt' | hge'
      · have := h5 hlt'; omega
      · have hkj : k = j := by omega
        have := h4 hkj; subst hkj; omega
    | fails f =>
      cases f with
      | rejects q y d =>
        cases d
        · have h : c' ≤ c1 + a2 := h
          simp only [Outcome.after, decide_eq_true hlt]
          show c' ≤ c + b + K * (n - i)
          omega
        · have h : c' ≤ c1 + b2 + K * (n - j) := h
          show c' ≤ c + b + K * (n - i)
          omega
      | raises e =>
        have h : c' ≤ c1 + b2 + K * (n - j) := h
        show c' ≤ c + b + K * (n - i)
        omega
  · have hji : j = i := by omega
    have h0' := h0 hji; have ha' := ha hji; have hb2' := hb hji
    subst hji
    have h := (h.plus h0').mono ha' hb2'
    cases o with
    | accepts v k y => exact h
    | fails f =>
      cases f with
      | rejects q y d =>
        cases d
        · simp only [Outcome.after, Nat.lt_irrefl, decide_false]; exact h
        · exact h
      | raises e => exact h

/-- The main bound. -/
theorem eval_within {a b : ρ → Nat} {K : Nat}
    (ha : ∀ x q, env x = some q → q.before env a ≤ a x)
    (hb : ∀ x q, env x = some q → q.first env a b ≤ b x)
    (hK : ∀ x q, env x = some q → q.rate env a b ≤ K)
    (hq : ∀ x q, env x = some q → q.Predictive)
    {p : P σ τ ρ Γ α} {m i : Nat} {w w' : World σ} {o : Outcome α}
    (h : Eval env s col p m i w o w') (hi : i ≤ s.length) (hp : p.Predictive)
    (hr : p.rate env a b ≤ K) :
    Within s.length i K (p.before env a) (p.first env a b) w.calls.length w'.calls.length o := by
  induction h with
  | pure => exact .accepts_of (Nat.le_refl _) hi (fun _ => Nat.le_add_right _ _) (fun _ => Nat.le_add_right _ _)
  | unexpected | eofNot | symNot | literalNot | regexpNot | alignedNot | indentedNot | satisfyEnd =>
    exact Nat.le_add_right _ _
  | eof => exact .accepts_of (Nat.le_refl _) hi (fun _ => Nat.le_add_right _ _) (fun _ => Nat.le_add_right _ _)
  | pureFn h =>
    have := Calls.length h
    exact .accepts_of (Nat.le_refl _) hi (fun _ => by simp only [P.before]; omega)
      (fun _ => by simp only [P.first]; omega)
  | pureFnRaises h =>
    have := Calls.length h
    show _ ≤ _ + 1 + _
    omega
  | @satisfy c t m i w w' ht h =>
    have := Calls.length h
    have := List.getElem?_eq_some_iff.1 ht
    exact .accepts_of (by omega) (by obtain ⟨h, -⟩ := this; omega) (fun _ => by omega)
      (fun _ => by simp only [P.first]; omega)
  | satisfyNot _ h =>
    have := Calls.length h
    show _ ≤ _ + 1
    omega
  | satisfyRaises _ h =>
    have := Calls.length h
    show _ ≤ _ + 1 + _
    omega
  | @sym x t l m i w ht h =>
    have := List.getElem?_eq_some_iff.1 ht
    exact .accepts_of (by omega) (by obtain ⟨h, -⟩ := this; omega) (fun _ => by omega)
      (fun _ => by omega)
  | @literal x ss hx m i w h =>
    have : x.length ≤ s.length - i := by
      have := isPrefixOf_length_le h
      rwa [List.length_drop] at this
    exact .accepts_of (by omega) (by omega) (fun _ => by omega) (fun _ => by omega)
  | @regexp β mt v m i j w h =>
    obtain ⟨h1, h2⟩ := mt.bounds _ _ _ _ hi h
    exact .accepts_of h1 h2 (fun _ => by omega) (fun _ => by omega)
  | regexpRaises => show _ ≤ _ + _ + _; omega
  | fmap _ h ih =>
    have := Calls.length h
    have hr' : _ ≤ K := Nat.le_trans (Nat.le_add_left _ _) hr
    obtain ⟨h1, h2, h3, h4⟩ := ih hi hp hr'
    refine ⟨h1, h2, fun h => ?_, fun h => ?_⟩
    · have := h3 h; simp only [P.before]; omega
    · have := h4 h; simp only [P.first]; omega
  | @fmapRaises α β p c m i a' e j x w w1 w2 _ h ih =>
    have := Calls.length h
    have hr' : _ ≤ K := Nat.le_trans (Nat.le_add_left _ _) hr
    obtain ⟨h1, h2, h3, h4⟩ := ih hi hp hr'
    show _ ≤ _ + (_ + _ + 1) + _
    rcases Nat.lt_or_ge i j with hlt | hge
    · have := h4 hlt
      have : K * (j - i) ≤ K * (s.length - i) := Nat.mul_le_mul_left _ (by omega)
      omega
    · have := h3 (by omega); omega
  | fmapFails _ ih =>
    have hr' : _ ≤ K := Nat.le_trans (Nat.le_add_left _ _) hr
    exact ((ih hi hp hr').mono (Nat.le_succ _) (by simp only [P.first]; omega)).fails
  | altFirst _ ih =>
    simp only [P.rate] at hr
    exact (ih hi hp.1 (by omega)).mono (Nat.le_add_right _ _) (by simp only [P.first]; omega)
  | altFails _ hx ih =>
    simp only [P.rate] at hr
    exact (ih hi hp.1 (by omega)).mono (Nat.le_add_right _ _) (by simp only [P.first]; omega)
  | @altSecond α p q m i k x o w w1 w2 _ _ ih1 ih2 =>
    simp only [P.rate] at hr
    have h1 : w1.calls.length ≤ _ := ih1 hi hp.1 (by omega)
    have h2 := ((ih2 hi hp.2 (by omega)).plus h1).mono (Nat.le_refl _)
      (show _ ≤ (P.alt p q).first env a b by simp only [P.first]; omega)
    cases o with
    | accepts v j x => exact h2
    | fails f =>
      cases f with
      | rejects q x d => cases d <;> exact h2
      | raises e => exact h2
  | bindFails | bindRaises | bind => exact hp.elim
  | seqFails _ ih =>
    simp only [P.rate] at hr
    exact ((ih hi hp.1 (by omega)).mono (Nat.le_add_right _ _) (by simp only [P.first]; omega)).fails
  | @seq α β γ p q mg m i v j x o w w1 w2 h _ ih1 ih2 =>
    simp only [P.rate] at hr
    obtain ⟨h1, h2, h3, h4⟩ := ih1 hi hp.1 (by omega)
    have hf := first_le_rate (env := env) a b q
    have hemp : j = i → ∃ v, CanBeEmpty env p v := fun e => by
      subst e; exact ⟨v, s, col, m, j, w, x, w1, hi, h⟩
    refine Within.after h1 h2 h3 h4 ((ih2 h2 hp.2 (by omega)).map (mg v)) (by omega)
      (fun e => ?_) (fun e => ?_) ?_
    · simp only [P.before, if_pos (hemp e)]; exact Nat.le_refl _
    · simp only [P.first, if_pos (hemp e)]; omega
    · simp only [P.first]; omega
  | maybe _ ih =>
    obtain ⟨h1, h2, h3, h4⟩ := ih hi hp hr
    exact ⟨h1, h2, h3, h4⟩
  | maybeNone _ ih =>
    exact .accepts_of (Nat.le_refl _) hi (fun _ => ih hi hp hr) (fun h => by omega)
  | maybeFails _ hx ih => exact (ih hi hp hr).fails
  | @manyItem α p m i v j x o w w1 w2 _ hij h2 ih1 ih2 =>
    have hr' := hr
    simp only [P.rate] at hr'
    have hfin := many_final h2
    obtain ⟨g1, g2, -, g4⟩ := ih1 hi hp (by omega)
    have g4 := g4 hij
    have g5 := ih2 g2 hp hr
    have hf := first_le_rate (env := env) a b (P.many p)
    have e1 : (P.many p).first env a b = p.first env a b + p.before env a := rfl
    have e2 : (P.many p).before env a = p.before env a := rfl
    have := Within.after (x := x) (a1 := 0) (a := (P.many p).before env a) (b := (P.many p).first env a b)
      g1 g2 (fun h => by omega) (fun _ => g4) (g5.map (v :: ·)) (by omega)
      (fun h => by omega) (fun h => by omega) (by omega)
    cases o with
    | accepts v k y => exact this
    | fails f =>
      cases f with
      | rejects q y d =>
        cases d
        · exact absurd rfl (hfin q y)
        · exact this
      | raises e => exact this
  | manyEnd _ ih =>
    simp only [P.rate] at hr
    exact .accepts_of (Nat.le_refl _) hi (fun _ => ih hi hp (by omega)) (fun h => by omega)
  | manyFails _ hx ih =>
    simp only [P.rate] at hr
    exact ((ih hi hp (by omega)).mono (Nat.le_refl _) (by simp only [P.first]; omega)).fails
  | manyEmpty _ ih =>
    simp only [P.rate] at hr
    obtain ⟨g1, g2, g3, -⟩ := ih hi hp (by omega)
    have := g3 rfl
    show _ ≤ _ + (_ + _) + _
    omega
  | @attempt α p m i o w w' h ih =>
    have hs := short_cost h hp
    cases o with
    | accepts v j x =>
      have := eval_pos h hi
      exact .accepts_of this.1 this.2 (fun _ => hs) (fun _ => hs)
    | fails f =>
      cases f with
      | rejects q x d => exact hs
      | raises e => show _ ≤ _ + p.total + _; omega
  | @label α p x m i o w w' h ih =>
    have := ih hi hp hr
    cases o with
    | accepts v k y => exact this
    | fails f =>
      cases f with
      | rejects q y d => cases d <;> exact this
      | raises e => exact this
  | recover _ ih | recoverWith _ ih | recoverWithFn _ ih | block _ _ ih | aligned _ _ ih
  | indented _ _ _ ih => exact ih hi hp hr
  | @ref x p m i o w w' he h ih =>
    exact (ih hi (hq x p he) (hK x p he)).mono (ha x p he) (hb x p he)
  | refUndefined => show _ ≤ _ + _ + _; omega

/-- `before` depends only on the `Delay` objects that the parser starts with. -/
theorem before_congr {a a' : ρ → Nat} (p : P σ τ ρ Γ α)
    (h : ∀ x, p.StartsWith env x → a x = a' x) : p.before env a = p.before env a' := by
  induction p with
  | fmap p _ ih => simp only [P.before, ih h]
  | alt p q ihp ihq =>
    simp only [P.before, ihp fun x hx => h x (.inl hx), ihq fun x hx => h x (.inr hx)]
  | seqWith p q _ ihp ihq =>
    simp only [P.before, ihp fun x hx => h x (.inl hx)]
    split
    · rename_i he; rw [ihq fun x hx => h x (.inr ⟨he, hx⟩)]
    · rfl
  | maybe p ih | many p ih | label p _ ih | recover p ih | recoverWith p _ _ ih
  | recoverWithFn p _ _ ih | block p ih | aligned p ih | indented _ p ih => exact ih h
  | ref x => exact h x rfl
  | _ => rfl

theorem first_congr {a b b' : ρ → Nat} (p : P σ τ ρ Γ α)
    (h : ∀ x, p.StartsWith env x → b x = b' x) : p.first env a b = p.first env a b' := by
  induction p with
  | fmap p _ ih => simp only [P.first, ih h]
  | alt p q ihp ihq =>
    simp only [P.first, ihp fun x hx => h x (.inl hx), ihq fun x hx => h x (.inr hx)]
  | seqWith p q _ ihp ihq =>
    simp only [P.first, ihp fun x hx => h x (.inl hx)]
    split
    · rename_i he; rw [ihq fun x hx => h x (.inr ⟨he, hx⟩)]
    · rfl
  | many p ih => simp only [P.first, ih h]
  | maybe p ih | label p _ ih | recover p ih | recoverWith p _ _ ih
  | recoverWithFn p _ _ ih | block p ih | aligned p ih | indented _ p ih => exact ih h
  | ref x => exact h x rfl
  | _ => rfl

/-- Without left recursion there are such bounds. -/
theorem exists_bounds (hwf : WellFounded fun j i => LeftCalls env i j)
    (F : {α : Type} → (ρ → Nat) → P σ τ ρ Γ α → Nat)
    (hF : ∀ {α : Type} (a a' : ρ → Nat) (p : P σ τ ρ Γ α), (∀ x, p.StartsWith env x → a x = a' x) →
      F a p = F a' p) :
    ∃ a : ρ → Nat, ∀ x q, env x = some q → F a q ≤ a x := by
  let G : (x : ρ) → ((y : ρ) → LeftCalls env x y → Nat) → Nat := fun x r =>
    match env x with
    | none => 0
    | some q => F (fun y => if h : LeftCalls env x y then r y h else 0) q
  refine ⟨hwf.fix G, fun x q hx => ?_⟩
  rw [hwf.fix_eq]
  simp only [G, hx]
  refine Nat.le_of_eq (hF _ _ q fun y hy => ?_)
  rw [dif_pos (show LeftCalls env x y from ⟨q, hx, hy⟩)]

end bounds

/-! ### Termination -/

/-- The run ends, given enough fuel. -/
def Ends (env : Env σ τ ρ Γ) (p : P σ τ ρ Γ α) (s : List τ) (i : Nat) (ctx : Ctx τ) (w : World σ) :
    Prop := ∃ n, (denote env n p).fast s i ctx w ≠ .diverge

variable {i : Nat} {ctx : Ctx τ} {w : World σ}

theorem ret_up {p : P σ τ ρ Γ α} {n n' : Nat} (hn : n ≤ n') {x : Run σ (Simple τ α)}
    (h : (denote env n p).fast s i ctx w = x) (hx : x ≠ .diverge) :
    (denote env n' p).fast s i ctx w = x := by
  rw [((denote_le env hn p).1 s i ctx w).eq (h ▸ hx), h]

theorem Ends.get {p : P σ τ ρ Γ α} (h : Ends env p s i ctx w) (hi : i ≤ s.length) :
    ∃ n x, x ≠ .diverge ∧ (∀ n', n ≤ n' → (denote env n' p).fast s i ctx w = x) ∧
      ∀ r w', x = .ret (.ok r) w' → i ≤ r.pos ∧ r.pos ≤ s.length ∧
        r.consumed = decide (i < r.pos) ∧ (r.pos = i → CanBeEmpty env p r.value) := by
  obtain ⟨n, h⟩ := h
  refine ⟨n, _, h, fun n' hn => ret_up hn rfl h, fun r w' hr => ?_⟩
  obtain ⟨o, w1, h1, h2⟩ := eval_denote env (anyDisc ctx.getLocFn s) p (.inl trivial) n i ctx w hi
    ⟨rfl, trivial⟩ h
  rw [hr] at h2
  cases h2 with
  | accepts hc hf =>
    exact ⟨hf.lo, hf.hi, hf.consumed, fun he => ⟨s, _, _, i, w, _, w', hi, he ▸ h1⟩⟩

/-- The run of a combination of two. -/
theorem ends_bind {p : P σ τ ρ Γ α} {q : P σ τ ρ Γ β} {F : Nat → Simple τ α → Act σ (Simple τ β)}
    (hi : i ≤ s.length) (h : Ends env p s i ctx w)
    (hq : ∀ n, (denote env n q).fast s i ctx w = ((denote env n p).fast s i ctx w).bind (F n))
    (he : ∀ e w', ∃ n, ∀ n', n ≤ n' → F n' (.error e) w' ≠ .diverge)
    (hr : ∀ r w', i ≤ r.pos → r.pos ≤ s.length → r.consumed = decide (i < r.pos) →
      (r.pos = i → CanBeEmpty env p r.value) → ∃ n, ∀ n', n ≤ n' → F n' (.ok r) w' ≠ .diverge) :
    Ends env q s i ctx w := by
  obtain ⟨n, x, hx, h1, h2⟩ := h.get hi
  cases x with
  | diverge => exact absurd rfl hx
  | raise e w' => exact ⟨n, by rw [hq, h1 n (Nat.le_refl _)]; simp [Run.bind]⟩
  | ret y w' =>
    cases y with
    | error e =>
      obtain ⟨n2, h3⟩ := he e w'
      exact ⟨max n n2, by rw [hq, h1 _ (by omega)]; exact h3 _ (by omega)⟩
    | ok r =>
      obtain ⟨g1, g2, g3, g4⟩ := h2 r w' rfl
      obtain ⟨n2, h3⟩ := hr r w' g1 g2 g3 g4
      exact ⟨max n n2, by rw [hq, h1 _ (by omega)]; exact h3 _ (by omega)⟩

theorem call_ne (c : Callback σ α β) (a : α) (w : World σ) : c.call a w ≠ .diverge := by
  rcases calls_cases c a w with ⟨b, w', h⟩ | ⟨e, w', h⟩
  · rw [h.ok]; simp
  · rw [h.error]; simp

theorem call_bind_ne (c : Callback σ α β) (a : α) (w : World σ) {γ : Type} {F : β → Act σ γ}
    (h : ∀ b w', F b w' ≠ .diverge) : (c.call a w).bind F ≠ .diverge := by
  rcases calls_cases c a w with ⟨b, w', h'⟩ | ⟨e, w', h'⟩
  · rw [h'.ok]; exact h b w'
  · rw [h'.error]; simp [Run.bind]

theorem run_bind_ne {γ : Type} {x : Run σ β} {F : β → Act σ γ} (hx : x ≠ .diverge)
    (h : ∀ b w', F b w' ≠ .diverge) : x.bind F ≠ .diverge := by
  cases x with
  | diverge => exact absurd rfl hx
  | raise e w => simp [Run.bind]
  | ret a w => exact h a w

theorem ends_lift {g : Reparsec.ParseFns τ α} {q : P σ τ ρ Γ α}
    (hq : ∀ n, denote env n q = lift g) (hg : g.fast s i ctx ≠ .diverge) : Ends env q s i ctx w := by
  refine ⟨0, ?_⟩
  rw [hq]
  simp only [lift, liftOut]
  cases h : g.fast s i ctx with
  | diverge => exact absurd h hg
  | raise e => simp
  | ret a => simp

theorem ends_many {p : P σ τ ρ Γ α} (hi : i ≤ s.length)
    (h : ∀ j ctx w, i ≤ j → j ≤ s.length → Ends env p s j ctx w) :
    Ends env (.many p) s i ctx w := by
  have key : ∀ d j ctx w c (v : List α), i ≤ j → j ≤ s.length → s.length - j ≤ d →
      ∃ n, manyFastLoop (denote env n p).fast s n j ctx c v w ≠ .diverge := by
    intro d
    induction d with
    | zero =>
      intro j ctx w c v h1 h2 h3
      obtain ⟨n, x, hx, g1, g2⟩ := (h j ctx w h1 h2).get h2
      refine ⟨n + 1, ?_⟩
      simp only [manyFastLoop, Act.bind_apply, g1 (n + 1) (by omega)]
      cases x with
      | diverge => exact absurd rfl hx
      | raise e w' => simp [Run.bind]
      | ret y w' =>
        cases y with
        | error e =>
          simp only [Run.bind_ret]
          by_cases hc : e.consumed <;> simp [hc, Act.pure_apply]
        | ok r =>
          obtain ⟨k1, k2, k3, -⟩ := g2 r w' rfl
          have : r.consumed = false := by rw [k3]; simp; omega
          simp [Run.bind_ret, this, Act.raise]
    | succ d ih =>
      intro j ctx w c v h1 h2 h3
      obtain ⟨n, x, hx, g1, g2⟩ := (h j ctx w h1 h2).get h2
      cases x with
      | diverge => exact absurd rfl hx
      | raise e w' =>
        exact ⟨n + 1, by
          simp only [manyFastLoop, Act.bind_apply, g1 (n + 1) (by omega)]; simp [Run.bind]⟩
      | ret y w' =>
        cases y with
        | error e =>
          refine ⟨n + 1, ?_⟩
          simp only [manyFastLoop, Act.bind_apply, g1 (n + 1) (by omega), Run.bind_ret]
          by_cases hc : e.consumed <;> simp [hc, Act.pure_apply]
        | ok r =>
          obtain ⟨k1, k2, k3, -⟩ := g2 r w' rfl
          by_cases hlt : j < r.pos
          · obtain ⟨n2, hn2⟩ := ih r.pos r.ctx w' true (v ++ [r.value]) (by omega) k2 (by omega)
            refine ⟨max n n2 + 1, ?_⟩
            have hc : r.consumed = true := by rw [k3]; simp [hlt]
            simp only [manyFastLoop, Act.bind_apply, g1 (max n n2 + 1) (by omega), Run.bind_ret, hc,
              if_true]
            have := manyFastLoop_le (p := (denote env n2 p).fast)
              (p' := (denote env (max n n2 + 1) p).fast)
              (fun s pos ctx => (denote_le env (by omega) p).1 s pos ctx) s
              (show n2 ≤ max n n2 by omega) r.pos r.ctx true (v ++ [r.value]) w'
            rw [this.eq hn2]; exact hn2
          · refine ⟨n + 1, ?_⟩
            have hc : r.consumed = false := by rw [k3]; simp [hlt]
            simp only [manyFastLoop, Act.bind_apply, g1 (n + 1) (by omega), Run.bind_ret, hc]
            simp [Act.raise]
  exact key (s.length - i) i ctx w false [] (Nat.le_refl _) hi (Nat.le_refl _)

/-- At a position: if it ends everywhere further on, and the `Delay` objects it starts with end here. -/
theorem ends_struct (hi : i ≤ s.length)
    (hfar : ∀ {β : Type} (q : P σ τ ρ Γ β) j ctx w, i < j → j ≤ s.length → Ends env q s j ctx w)
    (p : P σ τ ρ Γ α)
    (href : ∀ x, p.StartsWith env x → ∀ ctx w, Ends env (.ref x : P σ τ ρ Γ (Γ x)) s i ctx w) :
    ∀ ctx w, Ends env p s i ctx w := by
  have prim : ∀ {β : Type} {g : Reparsec.P τ Empty (fun _ => Unit) β} {f : Reparsec.ParseFns τ β}
      {ctx : Ctx τ}, (∀ n, Reparsec.denote env0 n g = f) →
      Reparsec.Ends env0 g s i ctx 0 none → f.fast s i ctx ≠ .diverge := by
    intro β g f ctx hf h
    obtain ⟨n, h⟩ := h.fast
    rw [← hf n]; exact h n (Nat.le_refl _)
  induction p with
  | pure x => exact fun ctx w => ends_lift (fun _ => rfl) (by simp [Reparsec.pureFns])
  | pureFn c =>
    exact fun ctx w => ⟨0, call_bind_ne c () w fun b w' => by simp [Act.pure_apply]⟩
  | unexpected x => exact fun ctx w => ends_lift (fun _ => rfl) (by simp [Reparsec.unexpectedFns])
  | eof => exact fun ctx w => ends_lift (fun _ => rfl) (prim (fun _ => rfl) Reparsec.Ends.eof)
  | satisfy c =>
    intro ctx w
    refine ⟨0, run_bind_ne ?_ fun a w' => ?_⟩
    · simp only [testAt]
      cases s[i]? with
      | none => simp [Act.pure_apply]
      | some t => exact call_bind_ne _ _ _ fun b w' => by simp [Act.pure_apply]
    · cases a <;> simp [Act.pure_apply]
  | sym x l =>
    exact fun ctx w => ends_lift (fun _ => rfl) (prim (g := .sym x l) (fun _ => rfl) Reparsec.Ends.sym)
  | literal x l h =>
    exact fun ctx w => ends_lift (fun _ => rfl)
      (prim (g := .literal x l h) (fun _ => rfl) Reparsec.Ends.literal)
  | regexp m =>
    exact fun ctx w => ends_lift (fun _ => rfl) (prim (g := .regexp m) (fun _ => rfl) Reparsec.Ends.regexp)
  | fmap p c ih =>
    intro ctx w
    refine ends_bind hi (ih href ctx w) (fun n => rfl) (fun e w' => ⟨0, fun _ _ => ?_⟩)
      (fun r w' _ _ _ _ => ⟨0, fun _ _ => ?_⟩)
    · simp [Act.pure_apply]
    · exact call_bind_ne _ _ _ fun b w' => by simp [Act.pure_apply]
  | alt p q ihp ihq =>
    intro ctx w
    refine ends_bind hi (ihp (fun x hx => href x (.inl hx)) ctx w) (fun n => rfl) (fun e w' => ?_)
      (fun r w' _ _ _ _ => ⟨0, fun _ _ => ?_⟩)
    · obtain ⟨n, x, hx, h1, -⟩ := (ihq (fun x hx => href x (.inr hx)) ctx w').get hi
      refine ⟨n, fun n' hn => ?_⟩
      simp only [Act.ite_apply, Act.bind_apply]
      split
      · simp [Act.pure_apply]
      · have := h1 n' hn
        refine run_bind_ne (x := (denote env n' q).fast s i ctx w') (by rw [this]; exact hx)
          fun a w' => ?_
        cases a <;> simp only [Act.ite_apply] <;> split <;> simp [Act.pure_apply]
    · simp [Act.pure_apply]
  | bind p c k ihp ihk =>
    intro ctx w
    refine ends_bind hi (ihp (fun x hx => href x (.inl hx)) ctx w) (fun n => rfl)
      (fun e w' => ⟨0, fun _ _ => ?_⟩) (fun r w' g1 g2 g3 g4 => ?_)
    · simp [Act.pure_apply]
    · rcases calls_cases c r.value w' with ⟨b, w1, hc⟩ | ⟨e, w1, hc⟩
      · have hk : Ends env (k b) s r.pos r.ctx w1 := by
          rcases Nat.lt_or_ge i r.pos with hlt | hge
          · exact hfar _ _ _ _ hlt g2
          · have he : r.pos = i := by omega
            rw [he]
            refine ihk b (fun x hx => href x (.inr ⟨r.value, w'.state, b, g4 he, ?_, hx⟩)) _ _
            cases hc with
            | mk hc => rw [hc]
        obtain ⟨n, x, hx, h1, -⟩ := hk.get g2
        refine ⟨n, fun n' hn => ?_⟩
        have := h1 n' hn
        show (((c.call r.value w').bind fun i w => .ret (denote env n' (k i)) w).bind _) ≠ _
        rw [hc.ok]
        exact run_bind_ne (x := (denote env n' (k b)).fast s r.pos r.ctx w1)
          (by rw [this]; exact hx) fun a w' => by simp [Act.pure_apply]
      · refine ⟨0, fun n' _ => ?_⟩
        show (((c.call r.value w').bind fun i w => .ret (denote env n' (k i)) w).bind _) ≠ _
        rw [hc.error]; simp [Run.bind]
  | seqWith p q mg ihp ihq =>
    intro ctx w
    refine ends_bind hi (ihp (fun x hx => href x (.inl hx)) ctx w) (fun n => rfl)
      (fun e w' => ⟨0, fun _ _ => ?_⟩) (fun r w' g1 g2 g3 g4 => ?_)
    · simp [Act.pure_apply]
    · have hk : Ends env q s r.pos r.ctx w' := by
        rcases Nat.lt_or_ge i r.pos with hlt | hge
        · exact hfar _ _ _ _ hlt g2
        · have he : r.pos = i := by omega
          rw [he]
          exact ihq (fun x hx => href x (.inr ⟨⟨_, g4 he⟩, hx⟩)) _ _
      obtain ⟨n, x, hx, h1, -⟩ := hk.get g2
      refine ⟨n, fun n' hn => ?_⟩
      have := h1 n' hn
      exact run_bind_ne (x := (denote env n' q).fast s r.pos r.ctx w')
        (by rw [this]; exact hx) fun a w' => by simp [Act.pure_apply]
  | maybe p ih =>
    intro ctx w
    refine ends_bind hi (ih href ctx w) (fun n => rfl) (fun e w' => ⟨0, fun _ _ => ?_⟩)
      (fun r w' _ _ _ _ => ⟨0, fun _ _ => ?_⟩)
    · simp only []; by_cases hc : e.consumed <;> simp [hc, Act.pure_apply]
    · simp [Act.pure_apply]
  | many p ih =>
    intro ctx w
    refine ends_many hi fun j ctx w h1 h2 => ?_
    rcases Nat.lt_or_ge i j with hlt | hge
    · exact hfar p j ctx w hlt h2
    · have : j = i := by omega
      subst this; exact ih href ctx w
  | attempt p ih =>
    intro ctx w
    refine ends_bind hi (ih href ctx w) (fun n => rfl) (fun e w' => ⟨0, fun _ _ => ?_⟩)
      (fun r w' _ _ _ _ => ⟨0, fun _ _ => ?_⟩) <;> simp [Act.pure_apply]
  | label p x ih =>
    intro ctx w
    refine ends_bind hi (ih href ctx w) (fun n => rfl) (fun e w' => ⟨0, fun _ _ => ?_⟩)
      (fun r w' _ _ _ _ => ⟨0, fun _ _ => ?_⟩) <;> simp [Act.pure_apply]
  | recover p ih | recoverWith p _ _ ih | recoverWithFn p _ _ ih => exact ih href
  | block p ih =>
    intro ctx w
    obtain ⟨n, hn⟩ := ih href ((ctx.updateLoc s i).setMark (ctx.updateLoc s i).loc.col) w
    exact ⟨n, run_bind_ne hn fun a w' => by simp [Act.pure_apply]⟩
  | aligned p ih =>
    intro ctx w
    obtain ⟨n, hn⟩ := ih href (ctx.updateLoc s i) w
    refine ⟨n, ?_⟩
    simp only [denote, denoteWith, alignedFns, Act.ite_apply]
    split
    · exact hn
    · simp [Act.pure_apply]
  | indented d p ih =>
    intro ctx w
    obtain ⟨n, hn⟩ := ih href ((ctx.updateLoc s i).setMark (ctx.updateLoc s i).loc.col) w
    refine ⟨n, ?_⟩
    simp only [denote, denoteWith, indentedFns, Act.ite_apply]
    split
    · exact run_bind_ne hn fun a w' => by simp [Act.pure_apply]
    · simp [Act.pure_apply]
  | ref x => exact href x rfl

theorem ends_ref {x : ρ} (h : ∀ q, env x = some q → Ends env q s i ctx w) :
    Ends env (.ref x) s i ctx w := by
  cases he : env x with
  | none =>
    refine ⟨1, ?_⟩
    simp [denote, denoteWith, table, he, undefinedFns, Act.raise]
  | some q =>
    obtain ⟨n, hn⟩ := h q he
    refine ⟨n + 1, ?_⟩
    show (table env (n + 1) x).fast s i ctx w ≠ _
    simp only [table, he]
    exact hn

/-- Without left recursion everything ends. -/
theorem ends_all (hwf : WellFounded fun j i => LeftCalls env i j) :
    ∀ (d i : Nat), s.length - i ≤ d → i ≤ s.length → ∀ {α : Type} (p : P σ τ ρ Γ α) ctx w,
      Ends env p s i ctx w := by
  intro d
  induction d with
  | zero =>
    intro i hd hi α p
    have hfar : ∀ {β : Type} (q : P σ τ ρ Γ β) j ctx w, i < j → j ≤ s.length →
        Ends env q s j ctx w := fun q j ctx w h1 h2 => by omega
    refine ends_struct hi hfar p fun x hx => ?_
    clear hx
    induction x using hwf.induction with
    | _ x ih =>
      exact fun ctx w => ends_ref fun q hq =>
        ends_struct hi hfar q (fun y hy => ih y ⟨q, hq, hy⟩) ctx w
  | succ d ihd =>
    intro i hd hi α p
    have hfar : ∀ {β : Type} (q : P σ τ ρ Γ β) j ctx w, i < j → j ≤ s.length →
        Ends env q s j ctx w := fun q j ctx w h1 h2 => ihd j (by omega) h2 q ctx w
    refine ends_struct hi hfar p fun x hx => ?_
    clear hx
    induction x using hwf.induction with
    | _ x ih =>
      exact fun ctx w => ends_ref fun q hq =>
        ends_struct hi hfar q (fun y hy => ih y ⟨q, hq, hy⟩) ctx w

end Reparsec.Eff
