import Verif.Spec.Run
import Verif.Lemmas.Mono

/-!
# `Returns`, `Raises`, `Hangs`: exactly one of them holds

The fuel of the model does not matter: whatever is found with some fuel is found with any larger
one.
-/

namespace Reparsec

variable {τ ρ : Type} {Γ : ρ → Type} {α : Type} [BEq τ]
  {env : Env τ ρ Γ} {p : P τ ρ Γ α} {s : List τ} {o : Opts τ}

theorem parse_mono (env : Env τ ρ Γ) (p : P τ ρ Γ α) (s : List τ) (b : Bool) (k : Int)
    (gl : Loc → List τ → Nat → Loc) {n n' : Nat} (h : n ≤ n') :
    (parse env n p s b k gl).Le (parse env n' p s b k gl) := by
  unfold parse
  split
  · exact (denote_le env h p).2 ..
  · exact Out.Le.bind ((denote_le env h p).1 ..) fun a => .refl _

theorem Returns.le {r : Result τ α} (h : Returns env p s o r) : ∃ n, ∀ n', n ≤ n' →
    parse env n' p s o.recover o.maxInsertions o.getLoc = .ret r := by
  obtain ⟨n, h⟩ := h
  exact ⟨n, fun n' hn => (parse_mono env p s _ _ _ hn).ret h⟩

theorem Raises.le {e : Exn} (h : Raises env p s o e) : ∃ n, ∀ n', n ≤ n' →
    parse env n' p s o.recover o.maxInsertions o.getLoc = .raise e := by
  obtain ⟨n, h⟩ := h
  refine ⟨n, fun n' hn => ?_⟩
  rw [(parse_mono env p s _ _ _ hn).eq (by simp [h]), h]

/-- A call does exactly one of the three. -/
theorem run_cases (env : Env τ ρ Γ) (p : P τ ρ Γ α) (s : List τ) (o : Opts τ) :
    (∃ r, Returns env p s o r) ∨ (∃ e, Raises env p s o e) ∨ Hangs env p s o := by
  by_cases h : ∃ n, parse env n p s o.recover o.maxInsertions o.getLoc ≠ .diverge
  · obtain ⟨n, h⟩ := h
    cases hx : parse env n p s o.recover o.maxInsertions o.getLoc with
    | diverge => exact absurd hx h
    | raise e => exact .inr (.inl ⟨e, n, hx⟩)
    | ret r => exact .inl ⟨r, n, hx⟩
  · refine .inr (.inr fun n => ?_)
    by_cases h' : parse env n p s o.recover o.maxInsertions o.getLoc = .diverge
    · exact h'
    · exact absurd ⟨n, h'⟩ h

/-- What a call returns is determined. -/
theorem returns_unique {r r' : Result τ α} (h : Returns env p s o r) (h' : Returns env p s o r') :
    r = r' := by
  obtain ⟨n, h⟩ := h.le
  obtain ⟨n', h'⟩ := h'.le
  have h1 := h (max n n') (by omega)
  have h2 := h' (max n n') (by omega)
  rw [h1] at h2
  cases h2; rfl

theorem raises_unique {e e' : Exn} (h : Raises env p s o e) (h' : Raises env p s o e') :
    e = e' := by
  obtain ⟨n, h⟩ := h.le
  obtain ⟨n', h'⟩ := h'.le
  have h1 := h (max n n') (by omega)
  have h2 := h' (max n n') (by omega)
  rw [h1] at h2
  cases h2; rfl

theorem returns_not_raises {r : Result τ α} {e : Exn} (h : Returns env p s o r)
    (h' : Raises env p s o e) : False := by
  obtain ⟨n, h⟩ := h.le
  obtain ⟨n', h'⟩ := h'.le
  have h1 := h (max n n') (by omega)
  have h2 := h' (max n n') (by omega)
  rw [h1] at h2
  cases h2

theorem returns_not_hangs {r : Result τ α} (h : Returns env p s o r) : ¬ Hangs env p s o := by
  obtain ⟨n, h⟩ := h
  intro h'
  rw [h' n] at h; cases h

theorem raises_not_hangs {e : Exn} (h : Raises env p s o e) : ¬ Hangs env p s o := by
  obtain ⟨n, h⟩ := h
  intro h'
  rw [h' n] at h; cases h

end Reparsec
