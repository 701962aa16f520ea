import Verif.Lemmas.ThreadsRun

/-!
# C66: parsers may be shared between threads, and parsing may be interrupted
-/

namespace Reparsec

open Thr (Store Job State Reachable Step Finished look)
open Heaped (HResult)

variable {τ ι α : Type} [BEq τ]

/-- **C66.** Whatever the order in which the steps of the threads come, and whatever was in memory before:
a thread that has returned holds a result that has, now, just the attributes it would have if the thread
had been alone; a thread that has raised would have raised the same exception alone. (So a finished thread
does not see its result changed by threads that are still running.) -/
theorem C66_threads (jobs : ι → Job τ) (S : Store τ) (st : State jobs) (hr : Reachable jobs S st)
    (t : ι) :
    (∀ r, st.thread t = .ret r → ∃ v, look st.store r = some v ∧ (jobs t).outcome = .ret v) ∧
    (∀ e, st.thread t = .raise e → (jobs t).outcome = .raise e) ∧
    (st.thread t = .diverge → (jobs t).outcome = .diverge) := by
  obtain ⟨own, hi⟩ := hr.inv
  have ht := hi.todo t
  have he := (jobs t).outcome_eq
  refine ⟨fun r e => ?_, fun x e => ?_, fun e => ?_⟩ <;> rw [e] at ht <;>
    obtain ⟨m, hM, ho⟩ := ht <;> rw [he] <;> generalize (jobs t).heaped = oh at hM ho ⊢ <;>
    obtain ⟨o, h⟩ := oh <;> cases o <;> try (exact ho.elim)
  · exact ⟨_, Thr.look_result hM (hi.sub t) ho, rfl⟩
  · exact congrArg Out.raise (Eq.symm ho)
  · rfl

/-- **C66.** What was in memory when the threads started (results of earlier parses, say) is not changed,
at any moment of any execution: not by threads that run, and not by threads that are interrupted in the
middle of anything. -/
theorem C66_existing_unchanged (jobs : ι → Job τ) (S : Store τ) (st : State jobs)
    (hr : Reachable jobs S st) :
    (∀ c a x, S c a = some x → st.store c a = some x) ∧
    (∀ (r : HResult α) v, look S r = some v → look st.store r = some v) := by
  obtain ⟨own, hi⟩ := hr.inv
  exact ⟨fun _ _ _ h => hi.old h, fun _ _ h => Thr.look_mono hi.old h⟩

/-- **C66.** No thread has to wait for another one: a thread that is not finished can take a step. (No
thread accesses an object that does not exist; there is always room for a new object.) -/
theorem C66_no_waiting (jobs : ι → Job τ) (S : Store τ) (hS : S.Room) (st : State jobs)
    (hr : Reachable jobs S st) (t : ι) (hf : ¬ Finished (st.thread t)) : ∃ st', Step t st st' :=
  hr.progress hS t hf

/-- **C66.** From every moment on, each thread can run to its end while all others stand still, be it
forever. -/
theorem C66_completes (jobs : ι → Job τ) (S : Store τ) (hS : S.Room) (st : State jobs)
    (hr : Reachable jobs S st) (t : ι) :
    ∃ st', Reachable jobs S st' ∧ Finished (st'.thread t) ∧
      ∀ u, u ≠ t → st'.thread u = st.thread u := by
  generalize hp : st.thread t = p
  induction p using Thr.opStep_induct generalizing st with
  | hC p ih =>
    by_cases hf : Finished (st.thread t)
    · exact ⟨st, hr, hf, fun _ _ => rfl⟩
    · obtain ⟨st1, hs⟩ := hr.progress hS t hf
      obtain ⟨st2, hr2, hf2, hu2⟩ := ih _ _ _ (hp ▸ hs.1) st1 (hr.step t hs) rfl
      exact ⟨st2, hr2, hf2, fun u hu => (hu2 u hu).trans (hs.2 u hu)⟩

/-- **C66.** In no execution does a thread take infinitely many steps. (For a grammar that recurses
forever the number of steps depends on `fuel`, which stands for the depth at which Python gives up.) -/
theorem C66_stops (jobs : ι → Job τ) (S : Store τ) (run : Nat → State jobs) (who : Nat → ι)
    (he : Thr.Endless jobs S run who) (t : ι) : ∃ N, ∀ n, N ≤ n → who n ≠ t := by
  suffices h : ∀ p k, (run k).thread t = p → ∃ N, ∀ n, N ≤ n → who n ≠ t from h _ 0 rfl
  intro p
  induction p using Thr.opStep_induct with
  | hC p ih =>
    intro k hk
    by_cases hex : ∃ d, who (k + d) = t
    · have stay : ∀ d, (∀ d', d' < d → who (k + d') ≠ t) → (run (k + d)).thread t = p := by
        intro d
        induction d with
        | zero => exact fun _ => hk
        | succ d ihd =>
          intro hd
          rw [← ihd fun d' hd' => hd d' (by omega)]
          exact (he.2 (k + d)).2 t (Ne.symm (hd d (by omega)))
      obtain ⟨d, hd, hmin⟩ : ∃ d, who (k + d) = t ∧ ∀ d', d' < d → who (k + d') ≠ t := by
        obtain ⟨d, hd⟩ := hex
        induction d using Nat.strongRecOn with
        | _ d ihd =>
          by_cases hd' : ∃ d', d' < d ∧ who (k + d') = t
          · obtain ⟨d', hlt, hd'⟩ := hd'
            exact ihd d' hlt hd'
          · exact ⟨d, hd, fun d' hlt e => hd' ⟨d', hlt, e⟩⟩
      have hs := (he.2 (k + d)).1
      rw [hd] at hs
      exact ih _ _ _ (stay d hmin ▸ hs) (k + d + 1) rfl
    · refine ⟨k, fun n hn e => hex ⟨n - k, ?_⟩⟩
      rwa [Nat.add_sub_cancel' hn]

/-- **C66.** If alone the call returns, then in every execution in which the thread comes to its end, it
returns that result. -/
theorem C66_returns (jobs : ι → Job τ) (S : Store τ) (st : State jobs) (hr : Reachable jobs S st)
    (t : ι) (hf : Finished (st.thread t)) (v : Result τ (jobs t).α)
    (hv : (jobs t).outcome = .ret v) :
    ∃ r, st.thread t = .ret r ∧ look st.store r = some v := by
  have h := C66_threads jobs S st hr t
  cases hp : st.thread t with
  | ret r =>
    obtain ⟨w, hw, ho⟩ := h.1 r hp
    rw [hv] at ho
    cases ho
    exact ⟨r, rfl, hw⟩
  | raise e => have := h.2.1 e hp; rw [hv] at this; cases this
  | diverge => have := h.2.2 hp; rw [hv] at this; cases this
  | new c x k => rw [hp] at hf; exact hf.elim
  | get c a k => rw [hp] at hf; exact hf.elim
  | set c a f k => rw [hp] at hf; exact hf.elim

/-! ### A concrete case -/

namespace Samples

/-- The same parser in two threads: one input that has to be repaired, one that is accepted. -/
def twoJobs : Bool → Job Char
  | true => { env := nestEnv, p := nest, stream := "((x)".toList,
              opts := { recover := true, getLoc := defaultGetLoc }, fuel := 30 }
  | false => { env := nestEnv, p := nest, stream := "(x)".toList,
               opts := { recover := true, getLoc := defaultGetLoc }, fuel := 30 }

/-- An empty memory. -/
def noObjects : Store Char := fun _ _ => none

theorem noObjects_room : noObjects.Room := ⟨0, fun _ _ _ => rfl⟩

/-- Neither thread is finished at the start, and the first takes several steps. -/
example : ¬ Finished ((Thr.start twoJobs noObjects).thread true) := id
example : ¬ Finished ((Thr.start twoJobs noObjects).thread false) := id

/-- A result that has been repaired. -/
def repaired {α : Type} : Out (Result Char α) → Bool
  | .ret (.recovered _) => true
  | _ => false

example : repaired (twoJobs true).outcome = true := rfl
example : repaired (twoJobs false).outcome = false := rfl

/-- There is an execution in which the first thread is interrupted right at the beginning, the other one
comes to its end, and then the first one goes on and comes to its end. -/
theorem two_finish : ∃ st, Reachable twoJobs noObjects st ∧
    Finished (st.thread true) ∧ Finished (st.thread false) := by
  obtain ⟨s1, h1⟩ := C66_no_waiting twoJobs noObjects noObjects_room _ .start true id
  have r1 : Reachable twoJobs noObjects s1 := .step true .start h1
  obtain ⟨s2, r2, f2, _⟩ := C66_completes twoJobs noObjects noObjects_room s1 r1 false
  obtain ⟨s3, r3, f3, u3⟩ := C66_completes twoJobs noObjects noObjects_room s2 r2 true
  exact ⟨s3, r3, f3, by rw [u3 false Bool.false_ne_true]; exact f2⟩

/-- And both have the right results. -/
example : ∃ st r r', Reachable twoJobs noObjects st ∧ st.thread true = .ret r ∧
    st.thread false = .ret r' ∧
    (look st.store r).map (fun x => x.unwrap defaultFmtLoc true) = some (.ok (2 : Nat)) ∧
    (look st.store r').map (fun x => x.unwrap defaultFmtLoc false) = some (.ok (1 : Nat)) := by
  obtain ⟨st, hr, f, f'⟩ := two_finish
  obtain ⟨r, e, h⟩ := C66_returns twoJobs noObjects st hr true f _ rfl
  obtain ⟨r', e', h'⟩ := C66_returns twoJobs noObjects st hr false f' _ rfl
  refine ⟨st, r, r', hr, e, e', ?_, ?_⟩
  · rw [h]; rfl
  · rw [h']; rfl

end Samples

end Reparsec
