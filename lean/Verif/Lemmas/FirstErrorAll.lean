import Verif.Lemmas.FirstError
import Verif.Spec.Insertions

/-!
# The first error: the induction over parsers
-/

namespace Reparsec

variable {τ ρ : Type} {Γ : ρ → Type} {α β γ : Type} {s : List τ}

theorem FE.mono {D : LocDisc s} {S S' U : Prop} {f : ParseFns τ α} (h : FE D S U f)
    (hs : S' → S) : FE D S' U f :=
  ⟨h.loc, fun pos ctx e hp hc he ins rem r hr => (h.same pos ctx e hp hc he ins rem r hr).mono (by
    cases e.consumed
    · simpa using hs
    · simp)⟩

variable [BEq τ]

omit [BEq τ] in
theorem P.All.here {C : {α : Type} → P τ ρ Γ α → Prop} {p : P τ ρ Γ α} (h : p.All C) : C p := by
  cases p <;> simp only [P.All] at h <;> first | exact h | exact h.1

theorem not_startsWithInsert {env : Env τ ρ Γ} {p : P τ ρ Γ α} (h : Everywhere env P.notInsert p) :
    ¬ StartsWithInsert env p := by
  intro hs
  obtain ⟨h, he⟩ := h
  induction hs with
  | recoverWith => exact h.here
  | recoverWithFn => exact h.here
  | fmap p fn _ ih => exact ih h.2
  | bindFirst p k _ ih => exact ih h.2.1
  | bindSecond p k a _ _ ih => exact ih (h.2.2 a)
  | seqFirst p q m _ ih => exact ih h.2.1
  | seqSecond p q m a _ _ ih => exact ih h.2.2
  | recover p _ ih => exact ih h.2
  | block p _ ih => exact ih h.2
  | aligned p _ ih => exact ih h.2
  | indented d p _ ih => exact ih h.2
  | ref i q hi _ ih => exact ih (he i q hi)

theorem canBeEmpty_of_fast {env : Env τ ρ Γ} {p : P τ ρ Γ α} {n : Nat} {pos : Nat} {ctx : Ctx τ}
    {r : Ok τ α} (hp : pos ≤ s.length) (h : (denote env n p).fast s pos ctx = .ret (.ok r))
    (hc : r.consumed = false) : CanBeEmpty env p r.value := by
  have ho := frame_fast env n p hp h
  have hpos : r.pos = pos := by
    have := ho.consumed; rw [hc] at this
    have := ho.lo; simp at *; omega
  refine ⟨s, pos, ctx, r.ctx, hp, r.expected, r.consumed, n, ?_⟩
  rw [← hpos] at h ⊢
  exact h

/-- What the induction needs of the location discipline. -/
theorem fe_denote (env : Env τ ρ Γ) (D : LocDisc s) {U : Prop}
    (hD : ∀ q l l', D.rel q l → D.rel q l' → l = l')
    (hel : D.layout ∨ ∀ i q, env i = some q → q.All P.notLayout)
    (hea : ∀ i q, env i = some q → q.All (P.plainError env))
    (heu : U → ∀ i q, env i = some q → q.All P.notInsert) (n : Nat) :
    ∀ {α : Type} (p : P τ ρ Γ α), (D.layout ∨ p.All P.notLayout) → p.All (P.plainError env) →
      (U → p.All P.notInsert) → FE D (¬ StartsWithInsert env p) U (denote env n p) := by
  have hctx : ∀ (n : Nat) {α : Type} (p : P τ ρ Γ α), (D.layout ∨ p.All P.notLayout) →
      ∀ pos ctx r, pos ≤ s.length → CtxOK D ctx pos →
      (denote env n p).fast s pos ctx = .ret (.ok r) → CtxOK D r.ctx r.pos := by
    intro n α p hl pos ctx r hp hc h
    have hl' : D.layout ∨ Everywhere env P.notLayout p := by
      rcases hl with hl | hl
      · exact .inl hl
      · exact hel.imp id fun h => ⟨hl, h⟩
    have hs : OkSound .. := (sound_denote env D p hl' n).fn pos ctx 0 none _ hp hc
      ((sim_denote env n p).ok h _ _)
    exact hs.ctx
  have step : ∀ n, (∀ i, FE D (¬ StartsWithInsert env (.ref i)) U (denote env n (.ref i))) →
      ∀ {α : Type} (p : P τ ρ Γ α), (D.layout ∨ p.All P.notLayout) → p.All (P.plainError env) →
      (U → p.All P.notInsert) → FE D (¬ StartsWithInsert env p) U (denote env n p) := by
    intro n href α p
    induction p with
    | pure x => intro _ _ _; exact fe_pureFn (.ok x)
    | pureFn x => intro _ _ _; exact fe_pureFn x
    | unexpected x => intro _ _ _; exact fe_unexpected x
    | eof => intro _ _ _; exact fe_eof
    | satisfy test => intro _ _ _; exact fe_satisfy test
    | sym x l => intro _ _ _; exact fe_sym x l
    | literal x ss h => intro _ _ _; exact fe_literal x ss
    | regexp m => intro _ _ _; exact fe_regexp m
    | ref i => intro _ _ _; exact href i
    | fmap p fn ih =>
      intro hl ha hu
      have h := ih (hl.imp id (·.2)) ha.2 fun u => (hu u).2
      exact (fe_fmap fn h).mono fun hs h => hs (.fmap _ _ h)
    | alt p q ihp ihq =>
      intro hl ha hu
      have hp := ihp (hl.imp id (·.2.1)) ha.2.1 fun u => (hu u).2.1
      have hq := ihq (hl.imp id (·.2.2)) ha.2.2 fun u => (hu u).2.2
      exact (fe_alt (sim_denote env n p) (sim_denote env n q) hD hp hq).mono fun _ => trivial
    | bind p k ihp ihk =>
      intro hl ha hu
      have hp := ihp (hl.imp id (·.2.1)) ha.2.1 fun u => (hu u).2.1
      have hk := fun a => ihk a (hl.imp id (·.2.2 a)) (ha.2.2 a) fun u => (hu u).2.2 a
      refine fe_bind (sim_denote env n p) (frame_denote env n p) (hctx n p (hl.imp id (·.2.1)))
        (fun u a => not_startsWithInsert ⟨(hu u).2.2 a, heu u⟩)
        (fun hs h => hs (.bindFirst _ _ h)) ?_ hp hk
      intro hs pos ctx r hp hr hc h
      exact hs (.bindSecond _ _ _ (canBeEmpty_of_fast hp hr hc) h)
    | seqWith p q m ihp ihq =>
      intro hl ha hu
      have hp := ihp (hl.imp id (·.2.1)) ha.2.1 fun u => (hu u).2.1
      have hq := ihq (hl.imp id (·.2.2)) ha.2.2 fun u => (hu u).2.2
      show FE D _ U (seqFns (denote env n p) (denote env n q) m)
      rw [seqFns_eq]
      refine fe_bind (sim_denote env n p) (frame_denote env n p) (hctx n p (hl.imp id (·.2.1)))
        (fun u a => not_startsWithInsert ⟨(hu u).2.2, heu u⟩)
        (fun hs h => hs (.seqFirst _ _ _ h)) ?_ hp (fun a => fe_fmap _ hq)
      intro hs pos ctx r hp hr hc h
      exact hs (.seqSecond _ _ _ _ (canBeEmpty_of_fast hp hr hc) h)
    | maybe p ih =>
      intro hl ha hu
      have h := ih (hl.imp id (·.2)) ha.2 fun u => (hu u).2
      show FE D _ U (maybeFns (denote env n p))
      rw [maybeFns_eq]
      exact (fe_alt (sim_closed.fmap _ _ (sim_denote env n p)) (sim_closed.pureFn (.ok none)) hD
        (fe_fmap _ h) (fe_pureFn (S := True) (.ok none))).mono fun _ => trivial
    | many p ih =>
      intro hl ha hu
      have h := ih (hl.imp id (·.2)) ha.2 fun u => (hu u).2
      exact (fe_many (sim_denote env n p) (frame_denote env n p) (hctx n p (hl.imp id (·.2)))
        h n).mono fun _ => trivial
    | attempt p ih => intro _ ha _; exact ha.1.elim
    | label p x ih =>
      intro hl ha hu
      have h := ih (hl.imp id (·.2)) ha.2 fun u => (hu u).2
      exact (fe_label x h).mono fun _ => trivial
    | recover p ih =>
      intro hl ha hu
      have h := ih (hl.imp id (·.2)) ha.2 fun u => (hu u).2
      exact (fe_recover h).mono fun hs h => hs (.recover _ h)
    | recoverWith p x vs ih =>
      intro hl ha hu
      have h := ih (hl.imp id (·.2)) ha.2 fun u => (hu u).2
      show FE D _ U (recoverWithFns (denote env n p) x vs)
      rw [recoverWithFns_eq]
      exact (fe_recoverWithFn _ _ hD ha.1 h).mono fun hs => hs (.recoverWith _ _ _)
    | recoverWithFn p fn lbl ih =>
      intro hl ha hu
      have h := ih (hl.imp id (·.2)) ha.2 fun u => (hu u).2
      exact (fe_recoverWithFn _ _ hD ha.1 h).mono fun hs => hs (.recoverWithFn _ _ _)
    | block p ih =>
      intro hl ha hu
      have h := ih (hl.imp id (·.2)) ha.2 fun u => (hu u).2
      exact (fe_block h).mono fun hs h => hs (.block _ h)
    | aligned p ih =>
      intro hl ha hu
      have h := ih (hl.imp id (·.2)) ha.2 fun u => (hu u).2
      have hl' : D.layout := hl.elim id fun h => h.1.elim
      exact (fe_aligned hl' h).mono fun hs h => hs (.aligned _ h)
    | indented d p ih =>
      intro hl ha hu
      have h := ih (hl.imp id (·.2)) ha.2 fun u => (hu u).2
      have hl' : D.layout := hl.elim id fun h => h.1.elim
      exact (fe_indented d hl' h).mono fun hs h => hs (.indented _ _ h)
  have refs : ∀ n i, FE D (¬ StartsWithInsert env (.ref i)) U (denote env n (.ref i)) := by
    intro n
    induction n with
    | zero => intro i; exact .of_no_error fun _ _ _ h => by cases h
    | succ n ih =>
      intro i
      cases hi : env i with
      | none =>
        have : denote env (n + 1) (.ref i) = undefinedFns := by
          show table env (n + 1) i = _
          simp only [table, hi]
        rw [this]
        exact .of_no_error fun _ _ _ h => by cases h
      | some q =>
        have : denote env (n + 1) (.ref i) = denote env n q := by
          show table env (n + 1) i = _
          simp only [table, hi, denote]
        rw [this]
        exact (step n ih q (hel.imp id fun h => h i q hi) (hea i q hi) fun u => heu u i q hi).mono
          fun hs h => hs (.ref i q hi h)
  intro α p; exact step n (refs n) p

end Reparsec
