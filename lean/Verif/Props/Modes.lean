import Verif.Props.Samples
import Verif.Lemmas.Frame
import Verif.Props.Unwrap

/-!
# C01 - C04: recovery mode against plain mode
-/

namespace Reparsec

variable {τ ρ : Type} {Γ : ρ → Type} {α : Type} [BEq τ]

/-- C01. If plain parsing succeeds with `v`, recovering succeeds with the same `v`, whatever the
budget, and `unwrap()` reports no error. -/
theorem C01_recovery_keeps_success (env : Env τ ρ Γ) (p : P τ ρ Γ α) (s : List τ)
    (gl : Loc → List τ → Nat → Loc) (k : Int) (fmt : Loc → String) {r : Result τ α} {b : Bool}
    {v : α} (h : Returns env p s (plain gl) r) (hv : r.unwrap fmt b = .ok v) :
    ∃ r', Returns env p s (recovering k gl) r' ∧
      ∀ fmt' b', r'.unwrap fmt' b' = .ok v := by
  obtain ⟨n, h⟩ := h
  simp only [parse, plain, Bool.false_eq_true, if_false, Out.bind_def, Out.bind_eq_ret,
    Out.pure_def, Out.ret.injEq] at h
  obtain ⟨x, h1, rfl⟩ := h
  cases x with
  | error e => simp [Simple.toResult, Result.unwrap] at hv
  | ok o =>
    simp [Simple.toResult, Result.unwrap] at hv
    subst hv
    refine ⟨.ok o, ⟨n, ?_⟩, fun _ _ => rfl⟩
    simp only [parse, recovering, if_true]
    exact (sim_denote env n p).ok h1 _ _

example : ∃ r, Returns Samples.nestEnv Samples.nest "((x))".toList (plain defaultGetLoc) r ∧
    r.unwrap defaultFmtLoc false = .ok 2 := ⟨_, ⟨30, rfl⟩, rfl⟩

/-- C02. If recovering gives a value without reporting an error (`unwrap()`, not
`unwrap(recover=True)`), plain parsing gives that value. -/
theorem C02_no_false_success (env : Env τ ρ Γ) (p : P τ ρ Γ α) (s : List τ)
    (gl : Loc → List τ → Nat → Loc) (k : Int) (fmt : Loc → String) {r : Result τ α} {v : α}
    (h : Returns env p s (recovering k gl) r) (hv : r.unwrap fmt false = .ok v) :
    ∃ r', Returns env p s (plain gl) r' ∧ ∀ fmt' b, r'.unwrap fmt' b = .ok v := by
  obtain ⟨n, h⟩ := h
  simp only [parse, recovering, if_true] at h
  cases r with
  | error e => simp [Result.unwrap] at hv
  | recovered rr =>
    exfalso
    unfold Result.unwrap at hv
    split at hv <;> simp at *
    split at hv <;> simp at *
  | ok o =>
    simp [Result.unwrap] at hv
    subst hv
    refine ⟨.ok o, ⟨n, ?_⟩, fun _ _ => rfl⟩
    simp [parse, plain, (sim_denote env n p).fast_ok h, Simple.toResult]

example : ∃ r, Returns Samples.nestEnv Samples.nest "((x))".toList (recovering 5 defaultGetLoc) r ∧
    r.unwrap defaultFmtLoc false = .ok 2 := ⟨_, ⟨30, rfl⟩, rfl⟩

/-- C03, first part: if plain parsing fails, `unwrap()` of a recovering parse raises
`ParseError`. -/
theorem C03_failure_carries_over (env : Env τ ρ Γ) (p : P τ ρ Γ α) (s : List τ)
    (gl : Loc → List τ → Nat → Loc) (k : Int) (fmt : Loc → String) {r r' : Result τ α}
    {b : Bool} {pe : ParseError}
    (h : Returns env p s (plain gl) r) (he : r.unwrap fmt b = .error pe)
    (h' : Returns env p s (recovering k gl) r') :
    ∃ pe', r'.unwrap fmt false = .error pe' := by
  cases hu : r'.unwrap fmt false with
  | error pe' => exact ⟨pe', rfl⟩
  | ok v =>
    obtain ⟨r'', h1, h2⟩ := C02_no_false_success env p s gl k fmt h' hu
    rw [returns_unique h h1, h2] at he
    cases he

example : ∃ r r' : Result Char Nat,
    Returns Samples.nestEnv Samples.nest "((x)".toList (plain defaultGetLoc) r ∧
    (∃ pe, r.unwrap defaultFmtLoc false = .error pe) ∧
    Returns Samples.nestEnv Samples.nest "((x)".toList (recovering 5 defaultGetLoc) r' :=
  ⟨_, _, ⟨30, rfl⟩, ⟨_, rfl⟩, ⟨30, rfl⟩⟩

/-- C03, second part: an exception (other than `ParseError`) raised by plain parsing is raised by
recovering too. -/
theorem C03_exception_carries_over (env : Env τ ρ Γ) (p : P τ ρ Γ α) (s : List τ)
    (gl : Loc → List τ → Nat → Loc) (k : Int) {e : Exn}
    (h : Raises env p s (plain gl) e) : Raises env p s (recovering k gl) e := by
  obtain ⟨n, h⟩ := h
  refine ⟨n, ?_⟩
  simp only [parse, plain, Bool.false_eq_true, if_false, Out.bind_def] at h
  simp only [parse, recovering, if_true]
  cases hx : (denote env n p).fast s 0 (initCtx gl) with
  | diverge => simp [hx] at h
  | ret x => simp [hx] at h
  | raise e' =>
    simp [hx] at h; subst h
    exact (sim_denote env n p).raise hx _ _

example : Raises Samples.noEnv Samples.boom "a".toList (plain defaultGetLoc) (.user "boom") :=
  ⟨0, rfl⟩

/-- C03, third part: if plain parsing does not return, neither does recovering. -/
theorem C03_divergence_carries_over (env : Env τ ρ Γ) (p : P τ ρ Γ α) (s : List τ)
    (gl : Loc → List τ → Nat → Loc) (k : Int)
    (h : Hangs env p s (plain gl)) : Hangs env p s (recovering k gl) := by
  intro n
  have h := h n
  simp only [parse, plain, Bool.false_eq_true, if_false, Out.bind_def] at h
  simp only [parse, recovering, if_true]
  cases hx : (denote env n p).fast s 0 (initCtx gl) with
  | raise e => simp [hx] at h
  | ret x => simp [hx] at h
  | diverge => exact (sim_denote env n p).diverge hx _ _

example : Hangs Samples.loopEnv (.ref () : P Char Unit (fun _ => Unit) Unit) []
    (plain defaultGetLoc) := by
  have : ∀ n, (table Samples.loopEnv n () : ParseFns Char Unit) = divergeFns := by
    intro n
    induction n with
    | zero => rfl
    | succ n ih =>
      show labelFns (table Samples.loopEnv n ()) "e" = divergeFns
      rw [ih]; rfl
  intro n
  show ((table Samples.loopEnv n ()).fast [] 0 _).bind _ = _
  rw [this]; rfl

/-- C04. A `ParseError` is never empty; without recovery it is exactly one item without an
operation; with recovery, if there was a candidate repair, every item carries the operation that
was applied, and otherwise it is exactly one item without an operation. -/
theorem C04_errors_describe_something (env : Env τ ρ Γ) (p : P τ ρ Γ α) (s : List τ)
    (o : Opts τ) (fmt : Loc → String) {r : Result τ α} {b : Bool} {pe : ParseError}
    (h : Returns env p s o r) (he : r.unwrap fmt b = .error pe) :
    pe.errors ≠ [] ∧
    (o.recover = false → ∃ i, pe.errors = [i] ∧ i.op = none) ∧
    (∀ rr, r = .recovered rr → rr.repairs ≠ [] → ∀ i ∈ pe.errors, i.op ≠ none) ∧
    ((∀ rr, r = .recovered rr → rr.repairs = []) → ∃ i, pe.errors = [i] ∧ i.op = none) := by
  obtain ⟨n, h⟩ := h
  cases r with
  | ok x => simp [Result.unwrap] at he
  | error e =>
    simp [Result.unwrap] at he
    subst he
    simp
  | recovered rr =>
    have hrec : o.recover = true := by
      cases hb : o.recover with
      | true => rfl
      | false =>
        simp only [parse, hb, Bool.false_eq_true, if_false, Out.bind_def, Out.bind_eq_ret,
          Out.pure_def, Out.ret.injEq] at h
        obtain ⟨x, _, hx⟩ := h
        cases x <;> simp [Simple.toResult] at hx
    simp only [parse, hrec, if_true] at h
    have hf : RecFrame .. := frame_denote env n p s 0 _ _ _ _ (Nat.zero_le _) h
    simp only [Result.unwrap] at he
    cases hr : rr.repairs with
    | nil =>
      simp [hr] at he; subst he
      simp [hrec, hr]
    | cons x xs =>
      simp only [hr] at he
      have hm := minRepair_mem x xs
      rw [← hr] at hm
      have hops := (hf.reps _ hm).ops
      split at he
      · simp at he
      · simp at he; subst he
        refine ⟨?_, by simp [hrec], ?_, ?_⟩
        · simpa [errorItems] using hops
        · intro _ _ _ i hi
          simp only [errorItems, List.mem_map] at hi
          obtain ⟨_, _, rfl⟩ := hi
          simp
        · intro h; have := h rr rfl; simp [hr] at this

example : ∃ r, Returns Samples.nestEnv Samples.nest "((x)".toList (recovering 5 defaultGetLoc) r ∧
    (∃ pe, r.unwrap defaultFmtLoc false = .error pe) := ⟨_, ⟨30, rfl⟩, ⟨_, rfl⟩⟩

end Reparsec
