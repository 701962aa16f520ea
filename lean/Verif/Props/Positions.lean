import Verif.Lemmas.Yields
import Verif.Lemmas.Frame
import Verif.Props.Samples

/-!
# C05, C06, C39: positions, consumption, the layout mark
-/

namespace Reparsec

variable {τ ρ : Type} {Γ : ρ → Type} {α : Type} [BEq τ]
  {env : Env τ ρ Γ} {p : P τ ρ Γ α} {s : List τ} {i : Nat} {ctx : Ctx τ} {ins : Int}
  {rem : Option Int}

/-- C05, without recovery. -/
theorem C05_plain {r : Ok τ α} (hi : i ≤ s.length) (h : RunPlain env p s i ctx (.ret (.ok r))) :
    i ≤ r.pos ∧ r.pos ≤ s.length := by
  obtain ⟨n, h⟩ := h
  exact ⟨(frame_fast env n p hi h).lo, (frame_fast env n p hi h).hi⟩

/-- C05, with recovery: successes. -/
theorem C05_success {r : Ok τ α} (hi : i ≤ s.length)
    (h : RunRec env p s i ctx ins rem (.ret (.ok r))) : i ≤ r.pos ∧ r.pos ≤ s.length := by
  obtain ⟨n, h⟩ := h
  have hf : OkFrame .. := frame_denote env n p s i ctx ins rem _ hi h
  exact ⟨hf.lo, hf.hi⟩

/-- C05, with recovery: candidate repairs. -/
theorem C05_repairs {r : Recovered τ α} (hi : i ≤ s.length)
    (h : RunRec env p s i ctx ins rem (.ret (.recovered r))) :
    ∀ x ∈ r.repairs, i ≤ x.pos ∧ x.pos ≤ s.length := by
  obtain ⟨n, h⟩ := h
  have hf : RecFrame .. := frame_denote env n p s i ctx ins rem _ hi h
  exact fun x hx => ⟨(hf.reps x hx).lo, (hf.reps x hx).hi⟩

/-- C05 as seen by a caller of `parse`. -/
theorem C05_parse {o : Opts τ} {r : Result τ α} (h : Returns env p s o r) :
    match r with
    | .ok r => r.pos ≤ s.length
    | .error _ => True
    | .recovered r => ∀ x ∈ r.repairs, x.pos ≤ s.length := by
  obtain ⟨n, h⟩ := h
  unfold parse at h
  split at h
  · cases r with
    | ok r => exact (C05_success (Nat.zero_le _) ⟨n, h⟩).2
    | error _ => trivial
    | recovered r => exact fun x hx => (C05_repairs (Nat.zero_le _) ⟨n, h⟩ x hx).2
  · simp only [Out.bind_def, Out.bind_eq_ret, Out.pure_def, Out.ret.injEq] at h
    obtain ⟨x, h1, rfl⟩ := h
    cases x with
    | ok r => exact (C05_plain (Nat.zero_le _) ⟨n, h1⟩).2
    | error e => trivial

/-- C06, without recovery. -/
theorem C06_plain {r : Ok τ α} (hi : i ≤ s.length) (h : RunPlain env p s i ctx (.ret (.ok r))) :
    r.consumed = true ↔ i < r.pos := by
  obtain ⟨n, h⟩ := h
  rw [(frame_fast env n p hi h).consumed, decide_eq_true_iff]

/-- C06, with recovery. -/
theorem C06_recovering {r : Ok τ α} (hi : i ≤ s.length)
    (h : RunRec env p s i ctx ins rem (.ret (.ok r))) : r.consumed = true ↔ i < r.pos := by
  obtain ⟨n, h⟩ := h
  have hf : OkFrame .. := frame_denote env n p s i ctx ins rem _ hi h
  rw [hf.consumed, decide_eq_true_iff]

/-- C39, without recovery. -/
theorem C39_plain {r : Ok τ α} (hi : i ≤ s.length) (h : RunPlain env p s i ctx (.ret (.ok r))) :
    r.ctx.mark = ctx.mark := by
  obtain ⟨n, h⟩ := h
  exact (frame_fast env n p hi h).ctx.mark

/-- C39, with recovery: successes. -/
theorem C39_success {r : Ok τ α} (hi : i ≤ s.length)
    (h : RunRec env p s i ctx ins rem (.ret (.ok r))) : r.ctx.mark = ctx.mark := by
  obtain ⟨n, h⟩ := h
  have hf : OkFrame .. := frame_denote env n p s i ctx ins rem _ hi h
  exact hf.ctx.mark

/-- C39, with recovery: candidate repairs. -/
theorem C39_repairs {r : Recovered τ α} (hi : i ≤ s.length)
    (h : RunRec env p s i ctx ins rem (.ret (.recovered r))) :
    ∀ x ∈ r.repairs, x.ctx.mark = ctx.mark := by
  obtain ⟨n, h⟩ := h
  have hf : RecFrame .. := frame_denote env n p s i ctx ins rem _ hi h
  exact fun x hx => (hf.reps x hx).ctx.mark

/-! Concrete cases. -/

example : RunPlain Samples.nestEnv Samples.nest "y((x))".toList 1 (initCtx defaultGetLoc)
    (.ret (.ok ⟨2, 6, initCtx defaultGetLoc, [], true⟩)) := ⟨30, rfl⟩

/-- A recovering run that starts in the middle and has candidate repairs. -/
example : ∃ r : Recovered Char Nat, r.repairs.length = 1 ∧
    RunRec Samples.nestEnv Samples.nest "y(x".toList 1 (initCtx defaultGetLoc) 5 (some 5)
      (.ret (.recovered r)) :=
  ⟨_, by rfl, ⟨30, rfl⟩⟩

/-- `block(aligned(sym "a"))` in the middle of a line: the mark inside is 2, outside 7. -/
example : ∃ r, RunPlain Samples.noEnv (.block (.aligned (.sym 'a' "'a'"))) "x a".toList 2
      ⟨7, ⟨0, 0, 0⟩, scannerlessGetLoc⟩ (.ret (.ok r)) ∧ r.ctx.mark = 7 ∧ r.consumed = true :=
  ⟨_, ⟨5, rfl⟩, rfl, rfl⟩

end Reparsec
