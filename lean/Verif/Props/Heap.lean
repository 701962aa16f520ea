import Verif.Lemmas.HeapRefine
import Verif.Spec.Objects
import Verif.Props.Samples

/-!
# C45: parsing has no hidden state
-/

namespace Reparsec

open Heaped

variable {τ ρ : Type} {Γ : ρ → Type} {α β : Type}

theorem Heaped.OwnR.exists {h0 h : Heap τ} {r : HResult α} (o : OwnR h0 h r) : r.Exists h := by
  cases r with
  | ok r => exact o.2
  | error r => exact o.2
  | recovered r =>
    exact ⟨o.1.2, fun rep hrep => ⟨(o.2.reps rep hrep).2,
      fun x hx => (o.2.ops _ (mem_opAddrs hrep hx)).2⟩⟩

theorem Heaped.HResult.Exists.ext {h h' : Heap τ} {r : HResult α} (hr : r.Exists h)
    (e : Ext h h') : r.Exists h' := by
  cases r with
  | ok r => exact Nat.lt_of_lt_of_le hr e.nOks
  | error r => exact Nat.lt_of_lt_of_le hr e.nFails
  | recovered r =>
    exact ⟨Nat.lt_of_lt_of_le hr.1 e.nFails, fun rep hrep =>
      ⟨Nat.lt_of_lt_of_le (hr.2 rep hrep).1 e.nReps,
        fun x hx => Nat.lt_of_lt_of_le ((hr.2 rep hrep).2 x hx) e.nOps⟩⟩

theorem mem_opAddrs_iff {rs : List (HRepair α)} {a : Nat} :
    a ∈ opAddrs rs ↔ ∃ r ∈ rs, ∃ o ∈ r.ops, o.addr = a := by
  simp [opAddrs, List.mem_flatMap]

theorem Heaped.HResult.Exists.read {h h' : Heap τ} {r : HResult α} (hr : r.Exists h)
    (e : Ext h h') : r.read h' = r.read h := by
  cases r with
  | ok r => exact congrArg Result.ok (readOk_ext e r hr)
  | error r => exact congrArg Result.error (readErr_ext e r hr)
  | recovered r =>
    refine congrArg Result.recovered ?_
    unfold HRecovered.read
    rw [e.fails _ hr.1, readReps_ext e _ (fun x hx => (hr.2 x hx).1)]
    intro a ha
    obtain ⟨x, hx, o, ho, rfl⟩ := mem_opAddrs_iff.1 ha
    exact (hr.2 x hx).2 o ho

theorem runs_fmapM_exists {h : Heap τ} (fn : α → Except Exn β) {r : HResult α}
    (hr : r.Exists h) :
    Runs h h (r.fmapM fn) ((r.read h).fmapM fn) HResult.read
      (fun h' (x : HResult β) => x.Exists h') := by
  cases r with
  | ok r =>
    refine Runs.bind (runs_okFmapM (.refl h) fn r) (g := fun w => .ret (Result.ok w))
      fun a h' e w => ?_
    exact Runs.ret (Own := fun h' (x : HResult β) => x.Exists h') e rfl w.2
  | error r => exact Runs.ret (Own := fun h' (x : HResult β) => x.Exists h') (.refl h) rfl hr
  | recovered r =>
    have hops : ∀ a ∈ opAddrs r.repairs, a < h.nOps := by
      intro a ha
      obtain ⟨x, hx, o, ho, rfl⟩ := mem_opAddrs_iff.1 ha
      exact (hr.2 x hx).2 o ho
    refine Runs.bind (runs_repairsFmapM h fn r.repairs (fun x hx => (hr.2 x hx).1) hops)
      (g := fun reps => .ret (Result.recovered ⟨reps, r.minPrio, r.loc, (h.fails r.addr).expected,
        (h.fails r.addr).consumed⟩)) ?_
    intro qs h' e' w
    refine Runs.get ?_
    rw [w.ext.fails _ hr.1]
    have e2 := ext_newFail h' ⟨(h.fails r.addr).expected, (h.fails r.addr).consumed⟩
    have hq : ∀ x ∈ qs, x.addr < h'.nReps := fun x hx => (w.reps x hx).2
    have ho : ∀ a ∈ opAddrs qs, a < h'.nOps := fun a ha =>
      Nat.lt_of_lt_of_le (hops a (w.ops ▸ ha)) w.ext.nOps
    refine ⟨e'.trans e2, ?_, Nat.lt_succ_self _, fun rep hrep => ⟨hq rep hrep, fun x hx =>
      ho _ (mem_opAddrs hrep hx)⟩⟩
    congr 2
    change _ = HRecovered.read { h' with
        nFails := h'.nFails + 1,
        fails := upd h'.fails h'.nFails
          ⟨(h.fails r.addr).expected, (h.fails r.addr).consumed⟩ }
      ⟨h'.nFails, qs, r.minPrio, r.loc⟩
    simp only [HRecovered.read, upd_same]
    rw [readReps_ext e2 _ hq ho]

section

variable [BEq τ]

/-- **C45.** Whatever is on the heap already, a parse that assigns to attributes of result
objects returns an object whose attributes are those of the result computed without assigning
anything; or raises the same exception; or does not return either. -/
theorem C45_same_result (env : Env τ ρ Γ) (fuel : Nat) (p : P τ ρ Γ α) (s : List τ) (o : Opts τ)
    (h : Heap τ) :
    (Heaped.parse env fuel p s o.recover o.maxInsertions o.getLoc h).1.map
        (HResult.read (Heaped.parse env fuel p s o.recover o.maxInsertions o.getLoc h).2)
      = parse env fuel p s o.recover o.maxInsertions o.getLoc := by
  obtain ⟨-, hr⟩ := runs_parse env fuel p s o.recover o.maxInsertions o.getLoc h
  split at hr
  · next a ha => rw [ha, hr.1]; rfl
  · next e he => rw [he, hr]; rfl
  · next he => rw [he, hr]; rfl

/-- **C45.** A parse, also one that raises, leaves the attributes of every result that exists
before it (of its repairs and their operations as well) as they were. -/
theorem C45_old_results_unchanged (env : Env τ ρ Γ) (fuel : Nat) (p : P τ ρ Γ α) (s : List τ)
    (o : Opts τ) (h : Heap τ) (r : HResult β) (hr : r.Exists h) :
    r.read (Heaped.parse env fuel p s o.recover o.maxInsertions o.getLoc h).2 = r.read h :=
  hr.read (runs_parse env fuel p s o.recover o.maxInsertions o.getLoc h).1

/-- **C45.** The repairs and operations of a returned result are objects of its own: none of
them existed before the parse, and none occurs twice. -/
theorem C45_result_not_shared (env : Env τ ρ Γ) (fuel : Nat) (p : P τ ρ Γ α) (s : List τ)
    (o : Opts τ) (h h' : Heap τ) (r : HRecovered α)
    (hp : Heaped.parse env fuel p s o.recover o.maxInsertions o.getLoc h
      = (.ret (.recovered r), h')) :
    (∀ rep ∈ r.repairs, h.nReps ≤ rep.addr ∧ ∀ i ∈ rep.ops, h.nOps ≤ i.addr) ∧
    (r.repairs.map HRepair.addr).Nodup ∧
    (r.repairs.flatMap fun rep => rep.ops.map HOp.addr).Nodup := by
  have hr := runs_parse env fuel p s o.recover o.maxInsertions o.getLoc h
  unfold Runs at hr
  rw [hp] at hr
  have hw : OwnR h h' (.recovered r) := hr.2.2
  exact ⟨fun rep hrep => ⟨(hw.2.reps rep hrep).1, fun i hi =>
    (hw.2.ops _ (mem_opAddrs hrep hi)).1⟩, hw.2.repsNodup, hw.2.opsNodup⟩

/-- The session theorem, from any state. -/
theorem heapSession_eq (env : Env τ ρ Γ) (fuel : Nat) (fmtLoc : Loc → String)
    (cs : List (Call τ ρ Γ α)) (rs : List (HResult α)) (h : Heap τ)
    (hrs : ∀ r ∈ rs, r.Exists h) :
    heapSession env fuel fmtLoc cs rs h
      = pureSession env fuel fmtLoc cs (rs.map (HResult.read h)) := by
  induction cs generalizing rs h with
  | nil => rfl
  | cons c cs ih =>
    have old : ∀ {h'}, Ext h h' → rs.map (HResult.read h') = rs.map (HResult.read h) :=
      fun e => List.map_congr_left fun r hr => (hrs r hr).read e
    have keep : ∀ {h'}, Ext h h' → heapSession env fuel fmtLoc cs rs h'
        = pureSession env fuel fmtLoc cs (rs.map (HResult.read h)) := fun e => by
      rw [ih rs _ fun r hr => (hrs r hr).ext e, old e]
    have add : ∀ {h' r}, Ext h h' → r.Exists h' → heapSession env fuel fmtLoc cs (rs ++ [r]) h'
        = pureSession env fuel fmtLoc cs (rs.map (HResult.read h) ++ [r.read h']) := by
      intro h' r e hr
      rw [ih (rs ++ [r]) h' ?_, List.map_append, old e]
      · rfl
      · intro x hx
        rcases List.mem_append.1 hx with hx | hx
        · exact (hrs x hx).ext e
        · rw [List.mem_singleton.1 hx]
          exact hr
    cases c with
    | parse p s o =>
      have hr := runs_parse env fuel p s o.recover o.maxInsertions o.getLoc h
      simp only [heapSession, pureSession]
      rcases hp : Heaped.parse env fuel p s o.recover o.maxInsertions o.getLoc h with ⟨x, h'⟩
      unfold Runs at hr
      rw [hp] at hr
      obtain ⟨e, hr⟩ := hr
      cases x with
      | ret r =>
        rw [hr.1]
        exact congrArg _ (add e hr.2.exists)
      | raise ex =>
        change parse env fuel p s o.recover o.maxInsertions o.getLoc = .raise ex at hr
        rw [hr]
        exact congrArg _ (keep e)
      | diverge =>
        change parse env fuel p s o.recover o.maxInsertions o.getLoc = .diverge at hr
        rw [hr]
        exact congrArg _ (keep e)
    | unwrap k b =>
      simp only [heapSession, pureSession, List.getElem?_map]
      cases rs[k]? with
      | none => exact congrArg _ (keep (.refl h))
      | some r => exact congrArg _ (keep (.refl h))
    | fmap k fn =>
      simp only [heapSession, pureSession, List.getElem?_map]
      cases hk : rs[k]? with
      | none => exact congrArg _ (keep (.refl h))
      | some r =>
        have hr := runs_fmapM_exists fn (hrs r (List.mem_of_getElem? hk))
        simp only [Option.map_some]
        rcases hp : r.fmapM fn h with ⟨x, h'⟩
        unfold Runs at hr
        rw [hp] at hr
        obtain ⟨e, hr⟩ := hr
        cases x with
        | ret r' =>
          rw [hr.1]
          exact congrArg _ (add e hr.2)
        | raise ex =>
          change (r.read h).fmapM fn = .raise ex at hr
          rw [hr]
          exact congrArg _ (keep e)
        | diverge =>
          change (r.read h).fmapM fn = .diverge at hr
          rw [hr]
          exact congrArg _ (keep e)

/-- **C45.** Every program that parses (with any parsers, on any inputs, in any modes), unwraps
and maps results in any order sees exactly what it would see if results were values and no call
had an effect on anything but the result it returns. -/
theorem C45_session (env : Env τ ρ Γ) (fuel : Nat) (fmtLoc : Loc → String)
    (cs : List (Call τ ρ Γ α)) :
    heapSession env fuel fmtLoc cs [] Heap.empty = pureSession env fuel fmtLoc cs [] :=
  heapSession_eq env fuel fmtLoc cs [] Heap.empty (by simp)

end

/-! ### Concrete cases -/

namespace Samples

/-- Parse, parse something else, map, unwrap all three. -/
def session : List (Call Char Unit (fun _ => Nat) Nat) :=
  [.parse nest "((x)".toList (recovering 5 defaultGetLoc),
   .parse nest "(x))".toList (recovering 5 defaultGetLoc),
   .fmap 0 fun n => .ok (n + 10), .unwrap 0 false, .unwrap 1 true, .unwrap 2 true, .unwrap 0 true]

example : heapSession nestEnv 30 defaultFmtLoc session [] Heap.empty
    = [.result, .result, .result,
       .unwrapped (.error ⟨[⟨⟨4, 0, 0⟩, "4", ["')'"], some (.insert "')'")⟩]⟩),
       .unwrapped (.ok 1), .unwrapped (.ok 12), .unwrapped (.ok 2)] := by
  rw [C45_session]
  rfl

/-- In every heap the parse of `"((x)"` returns an object with repairs, which exists afterwards:
the hypotheses of `C45_result_not_shared` and `C45_old_results_unchanged` are met. -/
example (h : Heap Char) : ∃ r h', Heaped.parse nestEnv 30 nest "((x)".toList true 5 defaultGetLoc h
    = (.ret (.recovered r), h') ∧ (HResult.recovered r).Exists h' ∧
      (r.repairs.map fun rep => rep.ops.map HOp.op) = [[.insert "')'"]] := by
  have hr := runs_parse nestEnv 30 nest "((x)".toList true 5 defaultGetLoc h
  unfold Runs at hr
  rcases hx : Heaped.parse nestEnv 30 nest "((x)".toList true 5 defaultGetLoc h with ⟨x, h'⟩
  rw [hx] at hr
  have hp : ∃ w, parse nestEnv 30 nest "((x)".toList true 5 defaultGetLoc = .ret (.recovered w) ∧
      (w.repairs.map fun rep => rep.ops.map OpItem.op) = [[.insert "')'"]] := ⟨_, rfl, rfl⟩
  obtain ⟨w, hp, hw⟩ := hp
  rw [hp] at hr
  cases x with
  | raise e => exact absurd hr.2 (by simp)
  | diverge => exact absurd hr.2 (by simp)
  | ret r =>
    obtain ⟨-, h1, h2⟩ := hr
    cases r with
    | ok r => exact absurd h1 (by simp [HResult.read])
    | error r => exact absurd h1 (by simp [HResult.read])
    | recovered r =>
      refine ⟨r, h', rfl, h2.exists, ?_⟩
      have h1 : w = r.read h' := by simpa [HResult.read] using h1
      rw [h1] at hw
      simpa [HRecovered.read, HRepair.read, HOp.read, Function.comp_def] using hw

end Samples

end Reparsec
