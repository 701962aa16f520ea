import Verif.Model.Heap
import Verif.Lemmas.Basic

/-!
# The heap model computes the same results as the functional model

The invariant: a call of a parsing function that starts in heap `h` changes no cell that was
allocated in `h`, and all objects reachable from its result are new and pairwise different.
-/

namespace Reparsec.Heaped

variable {τ α β γ A B : Type}

/-! ### Extension of a heap -/

/-- `h` was obtained from `h0` by allocating, and by changing only cells that are not allocated
in `h0`. -/
structure Ext (h0 h : Heap τ) : Prop where
  nOps : h0.nOps ≤ h.nOps
  ops : ∀ a, a < h0.nOps → h.ops a = h0.ops a
  nReps : h0.nReps ≤ h.nReps
  reps : ∀ a, a < h0.nReps → h.reps a = h0.reps a
  nOks : h0.nOks ≤ h.nOks
  oks : ∀ a, a < h0.nOks → h.oks a = h0.oks a
  nFails : h0.nFails ≤ h.nFails
  fails : ∀ a, a < h0.nFails → h.fails a = h0.fails a

theorem Ext.refl (h : Heap τ) : Ext h h :=
  ⟨Nat.le_refl _, fun _ _ => rfl, Nat.le_refl _, fun _ _ => rfl, Nat.le_refl _, fun _ _ => rfl,
   Nat.le_refl _, fun _ _ => rfl⟩

theorem Ext.trans {h0 h1 h2 : Heap τ} (a : Ext h0 h1) (b : Ext h1 h2) : Ext h0 h2 where
  nOps := Nat.le_trans a.nOps b.nOps
  ops x hx := (b.ops x (Nat.lt_of_lt_of_le hx a.nOps)).trans (a.ops x hx)
  nReps := Nat.le_trans a.nReps b.nReps
  reps x hx := (b.reps x (Nat.lt_of_lt_of_le hx a.nReps)).trans (a.reps x hx)
  nOks := Nat.le_trans a.nOks b.nOks
  oks x hx := (b.oks x (Nat.lt_of_lt_of_le hx a.nOks)).trans (a.oks x hx)
  nFails := Nat.le_trans a.nFails b.nFails
  fails x hx := (b.fails x (Nat.lt_of_lt_of_le hx a.nFails)).trans (a.fails x hx)

@[simp] theorem upd_same {σ : Type} (f : Nat → σ) (a : Nat) (x : σ) : upd f a x a = x := by
  simp [upd]

theorem upd_of_ne {σ : Type} (f : Nat → σ) {a b : Nat} (x : σ) (h : b ≠ a) :
    upd f a x b = f b := by
  simp [upd, h]

theorem upd_of_lt {σ : Type} (f : Nat → σ) {a b : Nat} (x : σ) (h : b < a) :
    upd f a x b = f b := upd_of_ne f x (Nat.ne_of_lt h)

/-! ### Ownership -/

/-- The addresses of the operations of some repairs. -/
def opAddrs (rs : List (HRepair α)) : List Nat := rs.flatMap fun r => r.ops.map HOp.addr

@[simp] theorem opAddrs_nil : opAddrs ([] : List (HRepair α)) = [] := rfl
@[simp] theorem opAddrs_cons (r : HRepair α) (rs : List (HRepair α)) :
    opAddrs (r :: rs) = r.ops.map HOp.addr ++ opAddrs rs := rfl
@[simp] theorem opAddrs_append (rs qs : List (HRepair α)) :
    opAddrs (rs ++ qs) = opAddrs rs ++ opAddrs qs := by simp [opAddrs]

theorem mem_opAddrs {rs : List (HRepair α)} {r : HRepair α} (hr : r ∈ rs) {o : HOp}
    (ho : o ∈ r.ops) : o.addr ∈ opAddrs rs := by
  simp only [opAddrs, List.mem_flatMap, List.mem_map]
  exact ⟨r, hr, o, ho, rfl⟩

/-- The objects below some repairs are allocated in `h`, not in `h0`, and are pairwise
different. -/
structure OwnReps (h0 h : Heap τ) (rs : List (HRepair α)) : Prop where
  reps : ∀ r ∈ rs, h0.nReps ≤ r.addr ∧ r.addr < h.nReps
  ops : ∀ a ∈ opAddrs rs, h0.nOps ≤ a ∧ a < h.nOps
  repsNodup : (rs.map HRepair.addr).Nodup
  opsNodup : (opAddrs rs).Nodup

/-- The objects below a result are allocated in `h`, not in `h0`, and are pairwise different. -/
def OwnS (h0 h : Heap τ) : HSimple α → Prop
  | .ok r => h0.nOks ≤ r.addr ∧ r.addr < h.nOks
  | .error e => h0.nFails ≤ e.addr ∧ e.addr < h.nFails

/-- The same for the results of recovering parsers. -/
def OwnR (h0 h : Heap τ) : HResult α → Prop
  | .ok r => h0.nOks ≤ r.addr ∧ r.addr < h.nOks
  | .error e => h0.nFails ≤ e.addr ∧ e.addr < h.nFails
  | .recovered r => (h0.nFails ≤ r.addr ∧ r.addr < h.nFails) ∧ OwnReps h0 h r.repairs

theorem OwnReps.ext {h0 h h' : Heap τ} {rs : List (HRepair α)} (o : OwnReps h0 h rs)
    (e : Ext h h') : OwnReps h0 h' rs where
  reps r hr := ⟨(o.reps r hr).1, Nat.lt_of_lt_of_le (o.reps r hr).2 e.nReps⟩
  ops a ha := ⟨(o.ops a ha).1, Nat.lt_of_lt_of_le (o.ops a ha).2 e.nOps⟩
  repsNodup := o.repsNodup
  opsNodup := o.opsNodup

theorem OwnReps.base {h0 h1 h : Heap τ} {rs : List (HRepair α)} (o : OwnReps h1 h rs)
    (e : Ext h0 h1) : OwnReps h0 h rs where
  reps r hr := ⟨Nat.le_trans e.nReps (o.reps r hr).1, (o.reps r hr).2⟩
  ops a ha := ⟨Nat.le_trans e.nOps (o.ops a ha).1, (o.ops a ha).2⟩
  repsNodup := o.repsNodup
  opsNodup := o.opsNodup

theorem OwnR.base {h0 h1 h : Heap τ} {r : HResult α} (o : OwnR h1 h r) (e : Ext h0 h1) :
    OwnR h0 h r := by
  cases r with
  | ok r => exact ⟨Nat.le_trans e.nOks o.1, o.2⟩
  | error r => exact ⟨Nat.le_trans e.nFails o.1, o.2⟩
  | recovered r => exact ⟨⟨Nat.le_trans e.nFails o.1.1, o.1.2⟩, o.2.base e⟩

theorem OwnS.base {h0 h1 h : Heap τ} {r : HSimple α} (o : OwnS h1 h r) (e : Ext h0 h1) :
    OwnS h0 h r := by
  cases r with
  | ok r => exact ⟨Nat.le_trans e.nOks o.1, o.2⟩
  | error r => exact ⟨Nat.le_trans e.nFails o.1, o.2⟩

/-! ### Reading is stable under extension -/

theorem readRep_ext {h h' : Heap τ} (e : Ext h h') (r : HRepair α) (hr : r.addr < h.nReps)
    (ho : ∀ o ∈ r.ops, o.addr < h.nOps) : r.read h' = r.read h := by
  unfold HRepair.read
  rw [e.reps _ hr]
  congr 1
  refine List.map_congr_left fun o h1 => ?_
  unfold HOp.read
  rw [e.ops _ (ho o h1)]

theorem readReps_ext {h h' : Heap τ} (e : Ext h h') (rs : List (HRepair α))
    (hr : ∀ r ∈ rs, r.addr < h.nReps) (ho : ∀ a ∈ opAddrs rs, a < h.nOps) :
    rs.map (HRepair.read h') = rs.map (HRepair.read h) :=
  List.map_congr_left fun r h1 =>
    readRep_ext e r (hr r h1) fun _ h2 => ho _ (mem_opAddrs h1 h2)

theorem readOk_ext {h h' : Heap τ} (e : Ext h h') (r : HOk α) (hr : r.addr < h.nOks) :
    r.read h' = r.read h := by
  unfold HOk.read
  rw [e.oks _ hr]

theorem readErr_ext {h h' : Heap τ} (e : Ext h h') (r : HErr) (hr : r.addr < h.nFails) :
    r.read h' = r.read h := by
  unfold HErr.read
  rw [e.fails _ hr]

theorem readRec_ext {h0 h h' : Heap τ} (e : Ext h h') (r : HRecovered α)
    (hr : r.addr < h.nFails) (o : OwnReps h0 h r.repairs) : r.read h' = r.read h := by
  unfold HRecovered.read
  rw [e.fails _ hr, readReps_ext e _ (fun x hx => (o.reps x hx).2) (fun x hx => (o.ops x hx).2)]

/-- A result does not change when the heap is extended. -/
theorem read_ext {h0 h h' : Heap τ} (e : Ext h h') (r : HResult α) (o : OwnR h0 h r) :
    r.read h' = r.read h := by
  cases r with
  | ok r => exact congrArg Result.ok (readOk_ext e r o.2)
  | error r => exact congrArg Result.error (readErr_ext e r o.2)
  | recovered r => exact congrArg Result.recovered (readRec_ext e r o.1.2 o.2)

/-! ### Running code -/

/-- Running `m` in heap `h` does what the functional model says, `o`: it returns (then what is
read from the result is what the model returns, and `Own` holds), raises the same exception, or
does not return; and it changes nothing that was allocated in `h0`. -/
def Runs (h0 h : Heap τ) (m : HM τ A) (o : Out B) (rd : Heap τ → A → B)
    (Own : Heap τ → A → Prop) : Prop :=
  Ext h0 (m h).2 ∧
  match (m h).1 with
  | .ret a => o = .ret (rd (m h).2 a) ∧ Own (m h).2 a
  | .raise e => o = .raise e
  | .diverge => o = .diverge

section Runs

variable {A' B' : Type} {h0 h : Heap τ} {m : HM τ A} {o : Out B} {rd : Heap τ → A → B}
  {Own : Heap τ → A → Prop}

theorem Runs.ret {a : A} (e : Ext h0 h) (ho : o = .ret (rd h a)) (hw : Own h a) :
    Runs h0 h (Pure.pure a : HM τ A) o rd Own := ⟨e, ho, hw⟩

theorem Runs.bind {f : A → HM τ A'} {g : B → Out B'} {rd' : Heap τ → A' → B'}
    {Own' : Heap τ → A' → Prop} (hm : Runs h0 h m o rd Own)
    (hf : ∀ a h', Ext h0 h' → Own h' a → Runs h0 h' (f a) (g (rd h' a)) rd' Own') :
    Runs h0 h (m >>= f) (o.bind g) rd' Own' := by
  obtain ⟨he, hr⟩ := hm
  show Ext h0 (HM.bind m f h).2 ∧ _
  change _ ∧ (match (HM.bind m f h).1 with
    | .ret a => o.bind g = .ret (rd' (HM.bind m f h).2 a) ∧ Own' (HM.bind m f h).2 a
    | .raise e => o.bind g = .raise e
    | .diverge => o.bind g = .diverge)
  unfold HM.bind
  rcases hmh : m h with ⟨x, h'⟩
  rw [hmh] at he hr
  cases x with
  | ret a =>
    obtain ⟨h1, h2⟩ := hr
    subst h1
    exact hf a h' he h2
  | raise e =>
    change o = .raise e at hr
    subst hr
    exact ⟨he, rfl⟩
  | diverge =>
    change o = .diverge at hr
    subst hr
    exact ⟨he, rfl⟩

theorem Runs.mono {Own' : Heap τ → A → Prop} (hm : Runs h0 h m o rd Own)
    (hw : ∀ a h', Ext h0 h' → Own h' a → Own' h' a) : Runs h0 h m o rd Own' := by
  obtain ⟨he, hr⟩ := hm
  refine ⟨he, ?_⟩
  split at hr
  · exact ⟨hr.1, hw _ _ he hr.2⟩
  · exact hr
  · exact hr

/-- A call of a parsing function. -/
theorem Runs.call {Own : Heap τ → Heap τ → A → Prop} (e : Ext h0 h)
    (hm : Runs h h m o rd (Own h)) :
    Runs h0 h m o rd (fun h' a => Ext h h' ∧ Own h h' a) := by
  have hm' := hm.mono (Own' := fun h' a => Ext h h' ∧ Own h h' a) fun a h' he hw => ⟨he, hw⟩
  exact ⟨e.trans hm.1, hm'.2⟩

theorem Runs.base (e : Ext h0 h) (hm : Runs h h m o rd Own) : Runs h0 h m o rd Own :=
  ⟨e.trans hm.1, hm.2⟩

theorem Runs.get {f : Heap τ → HM τ A} (hf : Runs h0 h (f h) o rd Own) :
    Runs h0 h (HM.get >>= f) o rd Own := hf

theorem Runs.modify {g : Heap τ → Heap τ} {f : Unit → HM τ A}
    (hf : Runs h0 (g h) (f ()) o rd Own) : Runs h0 h (HM.modify g >>= f) o rd Own := hf

theorem Runs.ofExcept {x : Except Exn A'} {f : A' → HM τ A} {g : A' → Out B} (e : Ext h0 h)
    (hf : ∀ a, x = .ok a → Runs h0 h (f a) (g a) rd Own) :
    Runs h0 h (HM.ofExcept x >>= f) ((Out.ofExcept x).bind g) rd Own := by
  cases x with
  | error er => exact ⟨e, rfl⟩
  | ok a => exact hf a rfl

end Runs

/-- The two models of a parser agree. -/
structure Refines (p : HFns τ α) (f : ParseFns τ α) : Prop where
  fast : ∀ s pos ctx h, Runs h h (p.fast s pos ctx) (f.fast s pos ctx) HSimple.read (OwnS h)
  fn : ∀ s pos ctx ins rem h,
    Runs h h (p.fn s pos ctx ins rem) (f.fn s pos ctx ins rem) HResult.read (OwnR h)

/-! ### Allocation -/

theorem ext_newOp (h : Heap τ) (c : OpCell) :
    Ext h { h with nOps := h.nOps + 1, ops := upd h.ops h.nOps c } :=
  ⟨by simp, fun _ ha => upd_of_lt _ _ ha, by simp, fun _ _ => rfl, by simp, fun _ _ => rfl,
    by simp, fun _ _ => rfl⟩

theorem ext_newRepair (h : Heap τ) (c : RepCell τ) :
    Ext h { h with nReps := h.nReps + 1, reps := upd h.reps h.nReps c } :=
  ⟨by simp, fun _ _ => rfl, by simp, fun _ ha => upd_of_lt _ _ ha, by simp, fun _ _ => rfl,
    by simp, fun _ _ => rfl⟩

theorem ext_newOk (h : Heap τ) (c : OkCell τ) :
    Ext h { h with nOks := h.nOks + 1, oks := upd h.oks h.nOks c } :=
  ⟨by simp, fun _ _ => rfl, by simp, fun _ _ => rfl, by simp, fun _ ha => upd_of_lt _ _ ha,
    by simp, fun _ _ => rfl⟩

theorem ext_newFail (h : Heap τ) (c : FailCell) :
    Ext h { h with nFails := h.nFails + 1, fails := upd h.fails h.nFails c } :=
  ⟨by simp, fun _ _ => rfl, by simp, fun _ _ => rfl, by simp, fun _ _ => rfl, by simp,
    fun _ ha => upd_of_lt _ _ ha⟩

section Alloc

variable {h0 h : Heap τ}

theorem runs_retOkS (e : Ext h0 h) (v : α) (pos : Nat) (ctx : Ctx τ) (ex : List String)
    (c : Bool) :
    Runs h0 h (retOkS v pos ctx ex c) (.ret (.ok ⟨v, pos, ctx, ex, c⟩)) HSimple.read
      (OwnS h0) := by
  refine ⟨e.trans (ext_newOk h _), ?_, ?_⟩
  · simp [retOkS, newOk, HSimple.read, HOk.read, Bind.bind, HM.bind, Pure.pure]
  · exact ⟨e.nOks, Nat.lt_succ_self _⟩

theorem runs_retOk (e : Ext h0 h) (v : α) (pos : Nat) (ctx : Ctx τ) (ex : List String)
    (c : Bool) :
    Runs h0 h (retOk v pos ctx ex c) (.ret (.ok ⟨v, pos, ctx, ex, c⟩)) HResult.read
      (OwnR h0) := by
  refine ⟨e.trans (ext_newOk h _), ?_, ?_⟩
  · simp [retOk, newOk, HResult.read, HOk.read, Bind.bind, HM.bind, Pure.pure]
  · exact ⟨e.nOks, Nat.lt_succ_self _⟩

theorem runs_retErrS (e : Ext h0 h) (loc : Loc) (ex : List String) :
    Runs h0 h (retErrS loc ex : HM τ (HSimple α)) (.ret (.error ⟨loc, ex, false⟩)) HSimple.read
      (OwnS h0) := by
  refine ⟨e.trans (ext_newFail h _), ?_, ?_⟩
  · simp [retErrS, newErr, HSimple.read, HErr.read, Bind.bind, HM.bind, Pure.pure]
  · exact ⟨e.nFails, Nat.lt_succ_self _⟩

theorem runs_retErr (e : Ext h0 h) (loc : Loc) (ex : List String) :
    Runs h0 h (retErr loc ex : HM τ (HResult α)) (.ret (.error ⟨loc, ex, false⟩)) HResult.read
      (OwnR h0) := by
  refine ⟨e.trans (ext_newFail h _), ?_, ?_⟩
  · simp [retErr, newErr, HResult.read, HErr.read, Bind.bind, HM.bind, Pure.pure]
  · exact ⟨e.nFails, Nat.lt_succ_self _⟩

/-- A new `Recovered` object around repairs that are owned already. -/
theorem runs_newRecovered (e : Ext h0 h) {rs : List (HRepair α)} (o : OwnReps h0 h rs)
    (mp : Option Nat) (loc : Loc) (ex : List String) (c : Bool) {w : Recovered τ α}
    (hw : w = ⟨rs.map (HRepair.read h), mp, loc, ex, c⟩) :
    Runs h0 h (newRecovered rs mp loc ex c) (.ret w) HRecovered.read
      (fun h' r => (h0.nFails ≤ r.addr ∧ r.addr < h'.nFails) ∧ OwnReps h0 h' r.repairs) := by
  subst hw
  have e' := ext_newFail h ⟨ex, c⟩
  refine ⟨e.trans e', ?_, ⟨e.nFails, Nat.lt_succ_self _⟩, o.ext e'⟩
  congr 1
  change _ = HRecovered.read { h with nFails := h.nFails + 1, fails := upd h.fails h.nFails ⟨ex, c⟩ }
    ⟨h.nFails, rs, mp, loc⟩
  simp only [HRecovered.read, upd_same]
  rw [readReps_ext e' _ (fun x hx => (o.reps x hx).2) (fun x hx => (o.ops x hx).2)]

theorem runs_retRec (e : Ext h0 h) {rs : List (HRepair α)} (o : OwnReps h0 h rs)
    (mp : Option Nat) (loc : Loc) (ex : List String) :
    Runs h0 h (retRec rs mp loc ex)
      (.ret (.recovered ⟨rs.map (HRepair.read h), mp, loc, ex, false⟩)) HResult.read
      (OwnR h0) :=
  Runs.bind (g := fun w => .ret (Result.recovered w))
    (runs_newRecovered e o mp loc ex false rfl)
    (fun _ _ e hw => Runs.ret (Own := OwnR h0) e rfl hw)

/-- A new `Repair` with one new operation. -/
theorem runs_oneOp (e : Ext h0 h) (cost : Nat) (prio : Option Nat) (ins : Int) (op : RepairOp)
    (v : α) (pos : Nat) (ctx : Ctx τ) (loc : Loc) (ex : List String) (c : Bool) :
    Runs h0 h
      (do let i ← newOp op loc ex false
          newRepair cost prio ins [i] v pos ctx [] c)
      (.ret (⟨cost, prio, ins, [⟨op, loc, ex, false⟩], v, pos, ctx, [], c⟩ : Repair τ α))
      HRepair.read
      (fun h' r => Ext h h' ∧ OwnReps h h' [r]) := by
  have e1 := ext_newOp h ⟨ex, false⟩
  have e2 := ext_newRepair { h with nOps := h.nOps + 1, ops := upd h.ops h.nOps ⟨ex, false⟩ }
    ⟨prio, ctx, [], c⟩
  refine ⟨e.trans (e1.trans e2), ?_, e1.trans e2, ?_⟩
  · simp [newOp, newRepair, HRepair.read, HOp.read, Bind.bind, HM.bind]
  · constructor
    · intro r hr
      simp only [List.mem_singleton] at hr
      subst hr
      exact ⟨Nat.le_refl _, Nat.lt_succ_self _⟩
    · intro a ha
      have ha : a ∈ [h.nOps] := ha
      simp only [List.mem_singleton] at ha
      subst ha
      exact ⟨Nat.le_refl _, Nat.lt_succ_self _⟩
    · exact List.nodup_cons.2 ⟨by simp, List.nodup_nil⟩
    · exact (List.nodup_cons.2 ⟨by simp, List.nodup_nil⟩ : [h.nOps].Nodup)

end Alloc

/-- Repairs owned one after the other. -/
theorem OwnReps.append {h0 h1 h2 : Heap τ} {rs qs : List (HRepair α)} (o : OwnReps h0 h1 rs)
    (q : OwnReps h1 h2 qs) (e0 : Ext h0 h1) (e : Ext h1 h2) : OwnReps h0 h2 (rs ++ qs) where
  reps r hr := by
    rcases List.mem_append.1 hr with hr | hr
    · exact (o.ext e).reps r hr
    · exact (q.base e0).reps r hr
  ops a ha := by
    rw [opAddrs_append] at ha
    rcases List.mem_append.1 ha with ha | ha
    · exact (o.ext e).ops a ha
    · exact (q.base e0).ops a ha
  repsNodup := by
    rw [List.map_append, List.nodup_append]
    refine ⟨o.repsNodup, q.repsNodup, fun a ha b hb hab => ?_⟩
    obtain ⟨r, hr, rfl⟩ := List.mem_map.1 ha
    obtain ⟨s, hs, rfl⟩ := List.mem_map.1 hb
    have := (o.reps r hr).2
    have := (q.reps s hs).1
    omega
  opsNodup := by
    rw [opAddrs_append, List.nodup_append]
    refine ⟨o.opsNodup, q.opsNodup, fun a ha b hb hab => ?_⟩
    have := (o.ops a ha).2
    have := (q.ops b hb).1
    omega

/-- The other order: the later allocated repairs come first. -/
theorem OwnReps.append' {h0 h1 h2 : Heap τ} {rs qs : List (HRepair α)} (o : OwnReps h0 h1 rs)
    (q : OwnReps h1 h2 qs) (e0 : Ext h0 h1) (e : Ext h1 h2) : OwnReps h0 h2 (qs ++ rs) where
  reps r hr := (o.append q e0 e).reps r (by simp only [List.mem_append] at hr ⊢; exact hr.symm)
  ops a ha := (o.append q e0 e).ops a (by
    simp only [opAddrs_append, List.mem_append] at ha ⊢; exact ha.symm)
  repsNodup := by
    have := (o.append q e0 e).repsNodup
    simp only [List.map_append] at this ⊢
    exact (List.perm_append_comm.nodup_iff).1 this
  opsNodup := by
    have := (o.append q e0 e).opsNodup
    simp only [opAddrs_append] at this ⊢
    exact (List.perm_append_comm.nodup_iff).1 this

theorem OwnReps.nil (h0 h : Heap τ) : OwnReps h0 h ([] : List (HRepair α)) :=
  ⟨by simp, by simp, by simp, by simp⟩

/-! ### Updates -/

/-- Apply `f` to the operations at the addresses in `l`. -/
def mapOps (l : List Nat) (f : OpCell → OpCell) (h : Heap τ) : Heap τ :=
  { h with ops := fun a => if a ∈ l then f (h.ops a) else h.ops a }

/-- Apply `f` to the repairs at the addresses in `l`. -/
def mapReps (l : List Nat) (f : RepCell τ → RepCell τ) (h : Heap τ) : Heap τ :=
  { h with reps := fun a => if a ∈ l then f (h.reps a) else h.reps a }

theorem mapOps_nil (f : OpCell → OpCell) (h : Heap τ) : mapOps [] f h = h := by
  simp [mapOps]

theorem mapReps_nil (f : RepCell τ → RepCell τ) (h : Heap τ) : mapReps [] f h = h := by
  simp [mapReps]

theorem mapOps_append (l m : List Nat) (f : OpCell → OpCell) (h : Heap τ)
    (hd : ∀ a ∈ l, a ∉ m) : mapOps m f (mapOps l f h) = mapOps (l ++ m) f h := by
  simp only [mapOps]
  congr 1
  funext a
  by_cases h1 : a ∈ l
  · simp [h1, hd a h1]
  · simp [h1]

theorem mapReps_append (l m : List Nat) (f : RepCell τ → RepCell τ) (h : Heap τ)
    (hd : ∀ a ∈ l, a ∉ m) : mapReps m f (mapReps l f h) = mapReps (l ++ m) f h := by
  simp only [mapReps]
  congr 1
  funext a
  by_cases h1 : a ∈ l
  · simp [h1, hd a h1]
  · simp [h1]

theorem ext_mapOps {h0 h : Heap τ} (e : Ext h0 h) {l : List Nat} {f : OpCell → OpCell}
    (hl : ∀ a ∈ l, h0.nOps ≤ a) : Ext h0 (mapOps l f h) where
  nOps := e.nOps
  ops a ha := by
    have : a ∉ l := fun h1 => by have := hl a h1; omega
    simp [mapOps, this, e.ops a ha]
  nReps := e.nReps
  reps := e.reps
  nOks := e.nOks
  oks := e.oks
  nFails := e.nFails
  fails := e.fails

theorem ext_mapReps {h0 h : Heap τ} (e : Ext h0 h) {l : List Nat} {f : RepCell τ → RepCell τ}
    (hl : ∀ a ∈ l, h0.nReps ≤ a) : Ext h0 (mapReps l f h) where
  nOps := e.nOps
  ops := e.ops
  nReps := e.nReps
  reps a ha := by
    have : a ∉ l := fun h1 => by have := hl a h1; omega
    simp [mapReps, this, e.reps a ha]
  nOks := e.nOks
  oks := e.oks
  nFails := e.nFails
  fails := e.fails

theorem ext_updOk {h0 h : Heap τ} (e : Ext h0 h) {a : Nat} (ha : h0.nOks ≤ a) (c : OkCell τ) :
    Ext h0 { h with oks := upd h.oks a c } where
  nOps := e.nOps
  ops := e.ops
  nReps := e.nReps
  reps := e.reps
  nOks := e.nOks
  oks b hb := (upd_of_ne _ _ (by omega)).trans (e.oks b hb)
  nFails := e.nFails
  fails := e.fails

theorem ext_updFail {h0 h : Heap τ} (e : Ext h0 h) {a : Nat} (ha : h0.nFails ≤ a)
    (c : FailCell) : Ext h0 { h with fails := upd h.fails a c } where
  nOps := e.nOps
  ops := e.ops
  nReps := e.nReps
  reps := e.reps
  nOks := e.nOks
  oks := e.oks
  nFails := e.nFails
  fails b hb := (upd_of_ne _ _ (by omega)).trans (e.fails b hb)

/-- The effect of `ops_set_expected` on one cell. -/
def OpCell.set (ex : List String) (c : OpCell) : OpCell :=
  if c.consumed then c else { c with expected := ex }

/-- The effect of `ops_prepend_expected` on one cell. -/
def OpCell.prepend (ex : List String) (cons : Bool) (c : OpCell) : OpCell :=
  if c.consumed then c else ⟨ex ++ c.expected, c.consumed || cons⟩

theorem setOp_eq (ex : List String) (o : HOp) (h : Heap τ) :
    setOp ex o h = mapOps [o.addr] (OpCell.set ex) h := by
  obtain ⟨nOps, ops, _, _, _, _, _, _⟩ := h
  simp only [setOp, mapOps, OpCell.set]
  split
  · next hc =>
    congr 1; funext a
    by_cases ha : a = o.addr
    · subst ha; simp [hc]
    · simp [ha]
  · next hc =>
    congr 1; funext a
    by_cases ha : a = o.addr
    · subst ha; simp [hc, upd]
    · simp [ha, upd]

theorem prependOp_eq (ex : List String) (cons : Bool) (o : HOp) (h : Heap τ) :
    prependOp ex cons o h = mapOps [o.addr] (OpCell.prepend ex cons) h := by
  obtain ⟨nOps, ops, _, _, _, _, _, _⟩ := h
  simp only [prependOp, mapOps, OpCell.prepend]
  split
  · next hc =>
    congr 1; funext a
    by_cases ha : a = o.addr
    · subst ha; simp [hc]
    · simp [ha]
  · next hc =>
    congr 1; funext a
    by_cases ha : a = o.addr
    · subst ha; simp [hc, upd]
    · simp [ha, upd]

theorem opsSetExpected_eq (ex : List String) (os : List HOp) (h : Heap τ)
    (hn : (os.map HOp.addr).Nodup) :
    opsSetExpected ex os h = mapOps (os.map HOp.addr) (OpCell.set ex) h := by
  induction os generalizing h with
  | nil => exact (mapOps_nil _ _).symm
  | cons o os ih =>
    simp only [List.map_cons, List.nodup_cons] at hn
    rw [opsSetExpected, ih _ hn.2, setOp_eq, mapOps_append]
    · rfl
    · intro a ha
      simp only [List.mem_singleton] at ha
      subst ha
      exact hn.1

theorem opsPrependExpected_eq (ex : List String) (cons : Bool) (os : List HOp) (h : Heap τ)
    (hn : (os.map HOp.addr).Nodup) :
    opsPrependExpected ex cons os h = mapOps (os.map HOp.addr) (OpCell.prepend ex cons) h := by
  induction os generalizing h with
  | nil => exact (mapOps_nil _ _).symm
  | cons o os ih =>
    simp only [List.map_cons, List.nodup_cons] at hn
    rw [opsPrependExpected, ih _ hn.2, prependOp_eq, mapOps_append]
    · rfl
    · intro a ha
      simp only [List.mem_singleton] at ha
      subst ha
      exact hn.1

/-- The effect of `Recovered.set_expected` on one repair. -/
def RepCell.set (ex : List String) (c : RepCell τ) : RepCell τ :=
  if c.consumed then c else { c with expected := ex }

/-- The effect of `Recovered.prepend_expected` on one repair. -/
def RepCell.prepend (ex : List String) (cons : Bool) (c : RepCell τ) : RepCell τ :=
  if c.consumed then c else ⟨c.prio, c.ctx, ex ++ c.expected, c.consumed || cons⟩

/-- The effect of `recover` on one repair. -/
def RepCell.promote (c : RepCell τ) : RepCell τ :=
  { c with prio := match c.prio with | none => some 0 | some p => some p }

/-- The effect of an update on some repairs and all their operations. -/
theorem reps_step {f : OpCell → OpCell} {g : RepCell τ → RepCell τ} {r : HRepair α}
    {rs : List (HRepair α)} (h : Heap τ) (hr : ((r :: rs).map HRepair.addr).Nodup)
    (ho : (opAddrs (r :: rs)).Nodup) :
    mapReps (rs.map HRepair.addr) g (mapOps (opAddrs rs) f
        (mapReps [r.addr] g (mapOps (r.ops.map HOp.addr) f h)))
      = mapReps ((r :: rs).map HRepair.addr) g (mapOps (opAddrs (r :: rs)) f h) := by
  have h1 : mapOps (opAddrs rs) f (mapReps [r.addr] g (mapOps (r.ops.map HOp.addr) f h))
      = mapReps [r.addr] g (mapOps (opAddrs rs) f (mapOps (r.ops.map HOp.addr) f h)) := rfl
  rw [h1, mapOps_append, mapReps_append]
  · rfl
  · intro a ha
    simp only [List.mem_singleton] at ha
    subst ha
    simp only [List.map_cons, List.nodup_cons] at hr
    exact hr.1
  · intro a ha hb
    simp only [opAddrs_cons, List.nodup_append] at ho
    exact ho.2.2 a ha a hb rfl

theorem repSetExpected_eq (ex : List String) (r : HRepair α) (h : Heap τ)
    (hn : (r.ops.map HOp.addr).Nodup) :
    repSetExpected ex r h
      = mapReps [r.addr] (RepCell.set ex) (mapOps (r.ops.map HOp.addr) (OpCell.set ex) h) := by
  unfold repSetExpected
  rw [opsSetExpected_eq _ _ _ hn]
  obtain ⟨_, ops, _, reps, _, _, _, _⟩ := h
  simp only [mapOps, mapReps, RepCell.set]
  split
  · next hc =>
    congr 1; funext a
    by_cases ha : a = r.addr
    · subst ha; simp [hc]
    · simp [ha]
  · next hc =>
    congr 1; funext a
    by_cases ha : a = r.addr
    · subst ha; simp [hc, upd]
    · simp [ha, upd]

theorem repPrependExpected_eq (ex : List String) (cons : Bool) (r : HRepair α) (h : Heap τ)
    (hn : (r.ops.map HOp.addr).Nodup) :
    repPrependExpected ex cons r h
      = mapReps [r.addr] (RepCell.prepend ex cons)
          (mapOps (r.ops.map HOp.addr) (OpCell.prepend ex cons) h) := by
  unfold repPrependExpected
  rw [opsPrependExpected_eq _ _ _ _ hn]
  obtain ⟨_, ops, _, reps, _, _, _, _⟩ := h
  simp only [mapOps, mapReps, RepCell.prepend]
  split
  · next hc =>
    congr 1; funext a
    by_cases ha : a = r.addr
    · subst ha; simp [hc]
    · simp [ha]
  · next hc =>
    congr 1; funext a
    by_cases ha : a = r.addr
    · subst ha; simp [hc, upd]
    · simp [ha, upd]

theorem nodup_head {r : HRepair α} {rs : List (HRepair α)} (ho : (opAddrs (r :: rs)).Nodup) :
    (r.ops.map HOp.addr).Nodup ∧ (opAddrs rs).Nodup := by
  simp only [opAddrs_cons, List.nodup_append] at ho
  exact ⟨ho.1, ho.2.1⟩

theorem repsSetExpected_eq (ex : List String) (rs : List (HRepair α)) (h : Heap τ)
    (hr : (rs.map HRepair.addr).Nodup) (ho : (opAddrs rs).Nodup) :
    repsSetExpected ex rs h
      = mapReps (rs.map HRepair.addr) (RepCell.set ex) (mapOps (opAddrs rs) (OpCell.set ex) h) := by
  induction rs generalizing h with
  | nil => exact ((mapReps_nil _ _).trans (mapOps_nil _ _)).symm
  | cons r rs ih =>
    rw [repsSetExpected, ih _ (List.nodup_cons.1 hr).2 (nodup_head ho).2,
      repSetExpected_eq _ _ _ (nodup_head ho).1, reps_step h hr ho]

theorem repsPrependExpected_eq (ex : List String) (cons : Bool) (rs : List (HRepair α))
    (h : Heap τ) (hr : (rs.map HRepair.addr).Nodup) (ho : (opAddrs rs).Nodup) :
    repsPrependExpected ex cons rs h
      = mapReps (rs.map HRepair.addr) (RepCell.prepend ex cons)
          (mapOps (opAddrs rs) (OpCell.prepend ex cons) h) := by
  induction rs generalizing h with
  | nil => exact ((mapReps_nil _ _).trans (mapOps_nil _ _)).symm
  | cons r rs ih =>
    rw [repsPrependExpected, ih _ (List.nodup_cons.1 hr).2 (nodup_head ho).2,
      repPrependExpected_eq _ _ _ _ (nodup_head ho).1, reps_step h hr ho]

theorem repsSetCtx_eq (ctx : Ctx τ) (rs : List (HRepair α)) (h : Heap τ)
    (hr : (rs.map HRepair.addr).Nodup) :
    repsSetCtx ctx rs h = mapReps (rs.map HRepair.addr) (fun c => { c with ctx := ctx }) h := by
  induction rs generalizing h with
  | nil => exact (mapReps_nil _ _).symm
  | cons r rs ih =>
    have hr' := hr
    simp only [List.map_cons, List.nodup_cons] at hr'
    rw [repsSetCtx, ih _ hr'.2]
    have : ({ h with reps := upd h.reps r.addr { h.reps r.addr with ctx := ctx } } : Heap τ)
        = mapReps [r.addr] (fun c => { c with ctx := ctx }) h := by
      simp only [mapReps]
      congr 1; funext a
      by_cases ha : a = r.addr
      · subst ha; simp
      · simp [ha, upd]
    rw [this, mapReps_append]
    · rfl
    · intro a ha
      simp only [List.mem_singleton] at ha
      subst ha
      exact hr'.1

theorem promoteReps_eq (rs : List (HRepair α)) (h : Heap τ)
    (hr : (rs.map HRepair.addr).Nodup) :
    promoteReps rs h = mapReps (rs.map HRepair.addr) RepCell.promote h := by
  induction rs generalizing h with
  | nil => exact (mapReps_nil _ _).symm
  | cons r rs ih =>
    have hr' := hr
    simp only [List.map_cons, List.nodup_cons] at hr'
    rw [promoteReps, ih _ hr'.2]
    have : promoteRep r h = mapReps [r.addr] RepCell.promote h := by
      obtain ⟨_, ops, _, reps, _, _, _, _⟩ := h
      simp only [mapReps, RepCell.promote, promoteRep]
      split
      · next hc =>
        congr 1; funext a
        by_cases ha : a = r.addr
        · subst ha; simp [hc]
        · simp [ha, upd]
      · next hc =>
        congr 1; funext a
        by_cases ha : a = r.addr
        · subst ha
          simp only [List.mem_singleton, if_true]
          revert hc
          obtain ⟨p, _, _, _⟩ := reps r.addr
          rintro rfl
          rfl
        · simp [ha]
    rw [this, mapReps_append]
    · rfl
    · intro a ha
      simp only [List.mem_singleton] at ha
      subst ha
      exact hr'.1

theorem readOp_mapOps {l : List Nat} {f : OpCell → OpCell} {h : Heap τ} {o : HOp}
    (ho : o.addr ∈ l) : o.read (mapOps l f h)
      = ⟨o.op, o.loc, (f (h.ops o.addr)).expected, (f (h.ops o.addr)).consumed⟩ := by
  simp [HOp.read, mapOps, ho]

theorem readReps_set (ex : List String) {rs : List (HRepair α)} {h : Heap τ} :
    rs.map (HRepair.read (mapReps (rs.map HRepair.addr) (RepCell.set ex)
        (mapOps (opAddrs rs) (OpCell.set ex) h)))
      = (rs.map (HRepair.read h)).map (Repair.setExpected ex) := by
  rw [List.map_map]
  refine List.map_congr_left fun r hr => ?_
  have h1 : r.addr ∈ rs.map HRepair.addr := List.mem_map_of_mem hr
  have h2 : r.ops.map (HOp.read (mapReps (rs.map HRepair.addr) (RepCell.set ex)
        (mapOps (opAddrs rs) (OpCell.set ex) h)))
      = Reparsec.opsSetExpected (r.ops.map (HOp.read h)) ex := by
    rw [Reparsec.opsSetExpected, List.map_map]
    refine List.map_congr_left fun o ho => ?_
    have := readOp_mapOps (f := OpCell.set ex) (h := h) (mem_opAddrs hr ho)
    refine Eq.trans this ?_
    simp only [Function.comp, OpItem.setExpected, HOp.read, OpCell.set]
    split <;> simp_all
  simp only [Function.comp, HRepair.read, Repair.setExpected]
  rw [h2]
  simp only [mapReps, h1, if_true, RepCell.set, mapOps]
  by_cases hc : (h.reps r.addr).consumed = true <;> simp [hc]

theorem readReps_prepend (ex : List String) (cons : Bool) {rs : List (HRepair α)} {h : Heap τ} :
    rs.map (HRepair.read (mapReps (rs.map HRepair.addr) (RepCell.prepend ex cons)
        (mapOps (opAddrs rs) (OpCell.prepend ex cons) h)))
      = (rs.map (HRepair.read h)).map (Repair.prependExpected ex cons) := by
  rw [List.map_map]
  refine List.map_congr_left fun r hr => ?_
  have h1 : r.addr ∈ rs.map HRepair.addr := List.mem_map_of_mem hr
  have h2 : r.ops.map (HOp.read (mapReps (rs.map HRepair.addr) (RepCell.prepend ex cons)
        (mapOps (opAddrs rs) (OpCell.prepend ex cons) h)))
      = Reparsec.opsPrependExpected (r.ops.map (HOp.read h)) ex cons := by
    rw [Reparsec.opsPrependExpected, List.map_map]
    refine List.map_congr_left fun o ho => ?_
    have := readOp_mapOps (f := OpCell.prepend ex cons) (h := h) (mem_opAddrs hr ho)
    refine Eq.trans this ?_
    simp only [Function.comp, OpItem.prependExpected, HOp.read, OpCell.prepend]
    split <;> simp_all
  simp only [Function.comp, HRepair.read, Repair.prependExpected]
  rw [h2]
  simp only [mapReps, h1, if_true, RepCell.prepend, mapOps]
  by_cases hc : (h.reps r.addr).consumed = true <;> simp [hc]

theorem readReps_mapReps {g : RepCell τ → RepCell τ} {g' : Repair τ α → Repair τ α}
    {rs : List (HRepair α)} {h : Heap τ}
    (hg : ∀ (c : RepCell τ) cost ins ops v pos,
      (⟨cost, (g c).prio, ins, ops, v, pos, (g c).ctx, (g c).expected, (g c).consumed⟩
        : Repair τ α)
      = g' ⟨cost, c.prio, ins, ops, v, pos, c.ctx, c.expected, c.consumed⟩) :
    rs.map (HRepair.read (mapReps (rs.map HRepair.addr) g h))
      = (rs.map (HRepair.read h)).map g' := by
  rw [List.map_map]
  refine List.map_congr_left fun r hr => ?_
  have h1 : r.addr ∈ rs.map HRepair.addr := List.mem_map_of_mem hr
  have h2 : HRepair.read (mapReps (rs.map HRepair.addr) g h) r
      = ⟨r.cost, (g (h.reps r.addr)).prio, r.ins, r.ops.map (HOp.read h), r.value, r.pos,
          (g (h.reps r.addr)).ctx, (g (h.reps r.addr)).expected,
          (g (h.reps r.addr)).consumed⟩ := by
    simp only [HRepair.read, mapReps, h1, if_true]
    rfl
  rw [h2, hg]
  rfl

section Methods

variable {h0 h : Heap τ}

theorem runs_okSet (e : Ext h0 h) {r : HOk α} (hr : h0.nOks ≤ r.addr ∧ r.addr < h.nOks)
    (ex : List String) :
    Ext h0 (okSetExpected ex r h) ∧ r.addr < (okSetExpected ex r h).nOks ∧
      r.read (okSetExpected ex r h) = (r.read h).setExpected ex := by
  unfold okSetExpected
  split
  · next hc => exact ⟨e, hr.2, by simp [Ok.setExpected, HOk.read, hc]⟩
  · next hc => exact ⟨ext_updOk e hr.1 _, hr.2, by simp [Ok.setExpected, HOk.read, hc]⟩

theorem runs_failSet (e : Ext h0 h) {a : Nat} (ha : h0.nFails ≤ a ∧ a < h.nFails)
    (ex : List String) :
    Ext h0 (failSetExpected ex a h) ∧ a < (failSetExpected ex a h).nFails ∧
      (failSetExpected ex a h).fails a
        = (if (h.fails a).consumed then h.fails a else ⟨ex, (h.fails a).consumed⟩) ∧
      (failSetExpected ex a h).reps = h.reps ∧ (failSetExpected ex a h).ops = h.ops ∧
      (failSetExpected ex a h).nReps = h.nReps ∧ (failSetExpected ex a h).nOps = h.nOps := by
  unfold failSetExpected
  split
  · next hc => exact ⟨e, ha.2, rfl, rfl, rfl, rfl, rfl⟩
  · next hc => exact ⟨ext_updFail e ha.1 _, ha.2, by simp, rfl, rfl, rfl, rfl⟩

theorem runs_okPrepend (e : Ext h0 h) {r : HOk α} (hr : h0.nOks ≤ r.addr ∧ r.addr < h.nOks)
    (ex : List String) (c : Bool) :
    Ext h0 (okPrependExpected ex c r h) ∧ r.addr < (okPrependExpected ex c r h).nOks ∧
      r.read (okPrependExpected ex c r h) = (r.read h).prependExpected ex c := by
  unfold okPrependExpected
  split
  · next hc => exact ⟨e, hr.2, by simp [Ok.prependExpected, HOk.read, hc]⟩
  · next hc => exact ⟨ext_updOk e hr.1 _, hr.2, by simp [Ok.prependExpected, HOk.read, hc]⟩

theorem runs_failPrepend (e : Ext h0 h) {a : Nat} (ha : h0.nFails ≤ a ∧ a < h.nFails)
    (ex : List String) (c : Bool) :
    Ext h0 (failPrependExpected ex c a h) ∧ a < (failPrependExpected ex c a h).nFails ∧
      (failPrependExpected ex c a h).fails a
        = (if (h.fails a).consumed then h.fails a
            else ⟨ex ++ (h.fails a).expected, (h.fails a).consumed || c⟩) ∧
      (failPrependExpected ex c a h).reps = h.reps ∧
      (failPrependExpected ex c a h).ops = h.ops ∧
      (failPrependExpected ex c a h).nReps = h.nReps ∧
      (failPrependExpected ex c a h).nOps = h.nOps := by
  unfold failPrependExpected
  split
  · next hc => exact ⟨e, ha.2, rfl, rfl, rfl, rfl, rfl⟩
  · next hc => exact ⟨ext_updFail e ha.1 _, ha.2, by simp, rfl, rfl, rfl, rfl⟩

theorem OwnReps.sameCounters {h' : Heap τ} {rs : List (HRepair α)} (o : OwnReps h0 h rs)
    (hr : h'.nReps = h.nReps) (ho : h'.nOps = h.nOps) : OwnReps h0 h' rs where
  reps r h1 := by rw [hr]; exact o.reps r h1
  ops a h1 := by rw [ho]; exact o.ops a h1
  repsNodup := o.repsNodup
  opsNodup := o.opsNodup

theorem readReps_same {h' : Heap τ} (hr : h'.reps = h.reps) (ho : h'.ops = h.ops)
    (rs : List (HRepair α)) : rs.map (HRepair.read h') = rs.map (HRepair.read h) := by
  refine List.map_congr_left fun r _ => ?_
  have : r.ops.map (HOp.read h') = r.ops.map (HOp.read h) :=
    List.map_congr_left fun o _ => by unfold HOp.read; rw [ho]
  unfold HRepair.read
  rw [hr, this]

theorem runs_recSetExpected (e : Ext h0 h) {r : HRecovered α}
    (hr : (h0.nFails ≤ r.addr ∧ r.addr < h.nFails) ∧ OwnReps h0 h r.repairs)
    (ex : List String) :
    Runs h0 h (r.setExpected ex) (.ret ((r.read h).setExpected ex)) HRecovered.read
      (fun h' r => (h0.nFails ≤ r.addr ∧ r.addr < h'.nFails) ∧ OwnReps h0 h' r.repairs) := by
  obtain ⟨e1, l1, f1, r1, o1, nr, no⟩ := runs_failSet e hr.1 ex
  unfold HRecovered.setExpected
  refine Runs.modify (Runs.modify ?_)
  rw [repsSetExpected_eq _ _ _ hr.2.repsNodup hr.2.opsNodup]
  refine Runs.ret ?_ ?_ ?_
  · refine ext_mapReps (ext_mapOps e1 fun a ha => (hr.2.ops a ha).1) fun a ha => ?_
    obtain ⟨x, hx, rfl⟩ := List.mem_map.1 ha
    exact (hr.2.reps x hx).1
  · congr 1
    simp only [Recovered.setExpected, HRecovered.read]
    rw [readReps_set, readReps_same r1 o1]
    have : (mapReps (r.repairs.map HRepair.addr) (RepCell.set ex) (mapOps (opAddrs r.repairs)
        (OpCell.set ex) (failSetExpected ex r.addr h))).fails r.addr
        = (failSetExpected ex r.addr h).fails r.addr := rfl
    rw [this, f1]
    by_cases hc : (h.fails r.addr).consumed = true <;> simp [hc]
  · exact ⟨⟨hr.1.1, l1⟩, hr.2.sameCounters nr no⟩

theorem runs_setExpected (e : Ext h0 h) {r : HResult α} (hr : OwnR h0 h r) (ex : List String) :
    Runs h0 h (r.setExpected ex) (.ret ((r.read h).setExpected ex)) HResult.read (OwnR h0) := by
  cases r with
  | ok r =>
    obtain ⟨e1, l1, r1⟩ := runs_okSet e hr ex
    exact Runs.modify (Runs.ret e1 (by simp [HResult.read, Result.setExpected, r1]) ⟨hr.1, l1⟩)
  | error r =>
    obtain ⟨e1, l1, f1, -⟩ := runs_failSet e hr ex
    refine Runs.modify (Runs.ret e1 ?_ ⟨hr.1, l1⟩)
    simp only [HResult.read, Result.setExpected, HErr.read, f1, Err.setExpected]
    split <;> simp_all
  | recovered r =>
    obtain ⟨e1, h1⟩ := runs_recSetExpected e hr ex
    exact ⟨e1, congrArg (fun o => o.bind fun w => .ret (Result.recovered w)) h1.1, h1.2⟩

theorem runs_setExpectedS (e : Ext h0 h) {r : HSimple α} (hr : OwnS h0 h r)
    (ex : List String) :
    Runs h0 h (r.setExpected ex) (.ret ((r.read h).setExpected ex)) HSimple.read (OwnS h0) := by
  cases r with
  | ok r =>
    obtain ⟨e1, l1, r1⟩ := runs_okSet e hr ex
    exact Runs.modify (Runs.ret e1 (by simp [HSimple.read, Simple.setExpected, r1]) ⟨hr.1, l1⟩)
  | error r =>
    obtain ⟨e1, l1, f1, -⟩ := runs_failSet e hr ex
    refine Runs.modify (Runs.ret e1 ?_ ⟨hr.1, l1⟩)
    simp only [HSimple.read, Simple.setExpected, HErr.read, f1, Err.setExpected]
    split <;> simp_all

theorem runs_prependExpected (e : Ext h0 h) {r : HResult α} (hr : OwnR h0 h r)
    (ex : List String) (c : Bool) :
    Runs h0 h (r.prependExpected ex c) (.ret ((r.read h).prependExpected ex c)) HResult.read
      (OwnR h0) := by
  cases r with
  | ok r =>
    obtain ⟨e1, l1, r1⟩ := runs_okPrepend e hr ex c
    exact Runs.modify (Runs.ret e1 (by simp [HResult.read, Result.prependExpected, r1])
      ⟨hr.1, l1⟩)
  | error r =>
    obtain ⟨e1, l1, f1, -⟩ := runs_failPrepend e hr ex c
    refine Runs.modify (Runs.ret e1 ?_ ⟨hr.1, l1⟩)
    simp only [HResult.read, Result.prependExpected, HErr.read, f1, Err.prependExpected]
    split <;> simp_all
  | recovered r =>
    obtain ⟨e1, l1, f1, r1, o1, nr, no⟩ := runs_failPrepend e hr.1 ex c
    unfold HResult.prependExpected
    refine Runs.modify (Runs.modify ?_)
    rw [repsPrependExpected_eq _ _ _ _ hr.2.repsNodup hr.2.opsNodup]
    refine Runs.ret ?_ ?_ ?_
    · refine ext_mapReps (ext_mapOps e1 fun a ha => (hr.2.ops a ha).1) fun a ha => ?_
      obtain ⟨x, hx, rfl⟩ := List.mem_map.1 ha
      exact (hr.2.reps x hx).1
    · simp only [Result.prependExpected, HResult.read, Recovered.prependExpected,
        HRecovered.read]
      rw [readReps_prepend, readReps_same r1 o1]
      have : (mapReps (r.repairs.map HRepair.addr) (RepCell.prepend ex c)
          (mapOps (opAddrs r.repairs) (OpCell.prepend ex c)
            (failPrependExpected ex c r.addr h))).fails r.addr
          = (failPrependExpected ex c r.addr h).fails r.addr := rfl
      rw [this, f1]
      by_cases hc : (h.fails r.addr).consumed = true <;> simp [hc]
    · exact ⟨⟨hr.1.1, l1⟩, hr.2.sameCounters nr no⟩

theorem runs_prependExpectedS (e : Ext h0 h) {r : HSimple α} (hr : OwnS h0 h r)
    (ex : List String) (c : Bool) :
    Runs h0 h (r.prependExpected ex c) (.ret ((r.read h).prependExpected ex c)) HSimple.read
      (OwnS h0) := by
  cases r with
  | ok r =>
    obtain ⟨e1, l1, r1⟩ := runs_okPrepend e hr ex c
    exact Runs.modify (Runs.ret e1 (by simp [HSimple.read, Simple.prependExpected, r1])
      ⟨hr.1, l1⟩)
  | error r =>
    obtain ⟨e1, l1, f1, -⟩ := runs_failPrepend e hr ex c
    refine Runs.modify (Runs.ret e1 ?_ ⟨hr.1, l1⟩)
    simp only [HSimple.read, Simple.prependExpected, HErr.read, f1, Err.prependExpected]
    split <;> simp_all

theorem runs_setCtx (e : Ext h0 h) {r : HResult α} (hr : OwnR h0 h r) (ctx : Ctx τ) :
    Runs h0 h (r.setCtx ctx) (.ret ((r.read h).setCtx ctx)) HResult.read (OwnR h0) := by
  cases r with
  | ok r =>
    refine Runs.modify (Runs.ret (ext_updOk e hr.1 _) ?_ hr)
    simp [HResult.read, Result.setCtx, HOk.read, okSetCtx]
  | error r => exact Runs.ret e rfl hr
  | recovered r =>
    unfold HResult.setCtx
    refine Runs.modify ?_
    rw [repsSetCtx_eq _ _ _ hr.2.repsNodup]
    refine Runs.ret (ext_mapReps e fun a ha => ?_) ?_ ⟨hr.1, hr.2.sameCounters rfl rfl⟩
    · obtain ⟨x, hx, rfl⟩ := List.mem_map.1 ha
      exact (hr.2.reps x hx).1
    · simp only [HResult.read, Result.setCtx, HRecovered.read]
      rw [readReps_mapReps (g' := fun p => { p with ctx := ctx }) (fun _ _ _ _ _ _ => rfl)]
      rfl

theorem runs_setCtxS (e : Ext h0 h) {r : HSimple α} (hr : OwnS h0 h r) (ctx : Ctx τ) :
    Runs h0 h (r.setCtx ctx) (.ret ((r.read h).setCtx ctx)) HSimple.read (OwnS h0) := by
  cases r with
  | ok r =>
    refine Runs.modify (Runs.ret (ext_updOk e hr.1 _) ?_ hr)
    simp [HSimple.read, Simple.setCtx, HOk.read, okSetCtx]
  | error r => exact Runs.ret e rfl hr

end Methods

end Reparsec.Heaped
