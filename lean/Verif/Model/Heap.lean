import Verif.Model.Parser

/-!
# The same code, with objects on a heap

`Model/Core.lean`, `Prims.lean` and `Combs.lean` treat the result objects of the library as
values: a method that updates an object in place is a function to the updated value.  In Python
`Ok`, `Error`, `Recovered`, `Repair` and `OpItem` are objects, some of them are shared, and
`set_expected`, `prepend_expected`, `set_ctx`, `_join_ops` and `recover` assign to their
attributes.  This file is the model with those objects on a heap and the assignments as
assignments, in the order Python does them.  `Lemmas/Heap.lean` proves that the two agree.

An object is a *handle*: its address together with those of its attributes that are never
assigned after `__init__` (`value`, `pos`, `cost`, `ins`, `ops`, `repairs`, `min_prio`, `loc`,
`op`).  The attributes that are assigned live in the *cell* at that address.  Addresses of the
different classes are kept apart.  `Ctx`, `Loc`, lists, tuples and `Append` objects are never
updated by the library once they are reachable from two places, and stay values.
-/

namespace Reparsec.Heaped

variable {τ α β γ : Type}

/-- The attributes of an `OpItem` (`core/repair.py:29-34`) that are assigned
(`core/repair.py:53,60-61`). -/
structure OpCell where
  expected : List String
  consumed : Bool

/-- The attributes of a `Repair` (`core/repair.py:37-47`) that are assigned
(`core/result.py:125,133,145-146`, `core/combinators.py:457`). -/
structure RepCell (τ : Type) where
  prio : Option Nat
  ctx : Ctx τ
  expected : List String
  consumed : Bool

/-- The attributes of an `Ok` (`core/result.py:15-26`) that are assigned (`:39,44,50-51`). -/
structure OkCell (τ : Type) where
  ctx : Ctx τ
  expected : List String
  consumed : Bool

/-- The attributes of an `Error` or a `Recovered` (`core/result.py:55-64,90-101`) that are
assigned (`:79,85-86,130,141-142`). -/
structure FailCell where
  expected : List String
  consumed : Bool

/-- The heap: for each class the cells, and how many have been allocated. -/
structure Heap (τ : Type) where
  nOps : Nat
  ops : Nat → OpCell
  nReps : Nat
  reps : Nat → RepCell τ
  nOks : Nat
  oks : Nat → OkCell τ
  nFails : Nat
  fails : Nat → FailCell

/-- Running Python code: it returns, raises or does not return, and in any case leaves a heap. -/
def HM (τ : Type) (α : Type) : Type := Heap τ → Out α × Heap τ

namespace HM

/-- Sequencing. -/
protected def bind (m : HM τ α) (f : α → HM τ β) : HM τ β := fun h =>
  match m h with
  | (.ret a, h') => f a h'
  | (.raise e, h') => (.raise e, h')
  | (.diverge, h') => (.diverge, h')

instance : Monad (HM τ) where
  pure a := fun h => (.ret a, h)
  bind := HM.bind

/-- Raise an exception. -/
def raise (e : Exn) : HM τ α := fun h => (.raise e, h)

/-- Not returning. -/
def diverge : HM τ α := fun h => (.diverge, h)

/-- The current heap, for reading attributes. -/
def get : HM τ (Heap τ) := fun h => (.ret h, h)

/-- Assign to attributes. -/
def modify (f : Heap τ → Heap τ) : HM τ Unit := fun h => (.ret (), f h)

/-- Call a user callback, which may raise. -/
def ofExcept (x : Except Exn α) : HM τ α := fun h => (Out.ofExcept x, h)

end HM

/-- Assigning to one place of a table of cells. -/
def upd {σ : Type} (f : Nat → σ) (a : Nat) (x : σ) : Nat → σ := fun b => if b = a then x else f b

/-! ### Handles -/

/-- An `OpItem` object, `core/repair.py:29-34`. -/
structure HOp where
  addr : Nat
  op : RepairOp
  loc : Loc

/-- A `Repair` object, `core/repair.py:37-47`. -/
structure HRepair (α : Type) where
  addr : Nat
  cost : Nat
  ins : Int
  ops : List HOp
  value : α
  pos : Nat

/-- An `Ok` object, `core/result.py:15-26`. -/
structure HOk (α : Type) where
  addr : Nat
  value : α
  pos : Nat

/-- An `Error` object, `core/result.py:55-64`. -/
structure HErr where
  addr : Nat
  loc : Loc

/-- A `Recovered` object, `core/result.py:90-101`. -/
structure HRecovered (α : Type) where
  addr : Nat
  repairs : List (HRepair α)
  minPrio : Option Nat
  loc : Loc

/-- Models `SimpleResult`, `core/result.py:151`. -/
inductive HSimple (α : Type) where
  | ok (r : HOk α)
  | error (e : HErr)

/-- Models `Result`, `core/result.py:152`. -/
inductive HResult (α : Type) where
  | ok (r : HOk α)
  | error (e : HErr)
  | recovered (r : HRecovered α)

/-- A `SimpleResult` is a `Result` (`core/result.py:152`). -/
def HSimple.toResult : HSimple α → HResult α
  | .ok r => .ok r
  | .error e => .error e

/-! ### What is seen through a handle -/

/-- The present attributes of an `OpItem`. -/
def HOp.read (h : Heap τ) (o : HOp) : OpItem :=
  { op := o.op, loc := o.loc, expected := (h.ops o.addr).expected,
    consumed := (h.ops o.addr).consumed }

/-- The present attributes of a `Repair`. -/
def HRepair.read (h : Heap τ) (r : HRepair α) : Repair τ α :=
  { cost := r.cost, prio := (h.reps r.addr).prio, ins := r.ins, ops := r.ops.map (HOp.read h),
    value := r.value, pos := r.pos, ctx := (h.reps r.addr).ctx,
    expected := (h.reps r.addr).expected, consumed := (h.reps r.addr).consumed }

/-- The present attributes of an `Ok`. -/
def HOk.read (h : Heap τ) (r : HOk α) : Ok τ α :=
  { value := r.value, pos := r.pos, ctx := (h.oks r.addr).ctx,
    expected := (h.oks r.addr).expected, consumed := (h.oks r.addr).consumed }

/-- The present attributes of an `Error`. -/
def HErr.read (h : Heap τ) (e : HErr) : Err :=
  { loc := e.loc, expected := (h.fails e.addr).expected,
    consumed := (h.fails e.addr).consumed }

/-- The present attributes of a `Recovered`. -/
def HRecovered.read (h : Heap τ) (r : HRecovered α) : Recovered τ α :=
  { repairs := r.repairs.map (HRepair.read h), minPrio := r.minPrio, loc := r.loc,
    expected := (h.fails r.addr).expected, consumed := (h.fails r.addr).consumed }

/-- The present attributes of a result. -/
def HSimple.read (h : Heap τ) : HSimple α → Simple τ α
  | .ok r => .ok (r.read h)
  | .error e => .error (e.read h)

/-- The present attributes of a result. -/
def HResult.read (h : Heap τ) : HResult α → Result τ α
  | .ok r => .ok (r.read h)
  | .error e => .error (e.read h)
  | .recovered r => .recovered (r.read h)

/-! ### Creating objects -/

/-- `OpItem(op, loc, expected, consumed)`, `core/repair.py:29-34`. -/
def newOp (op : RepairOp) (loc : Loc) (expected : List String) (consumed : Bool) : HM τ HOp :=
  fun h => (.ret ⟨h.nOps, op, loc⟩,
    { h with nOps := h.nOps + 1, ops := upd h.ops h.nOps ⟨expected, consumed⟩ })

/-- `Repair(cost, prio, ins, ops, value, pos, ctx, expected, consumed)`,
`core/repair.py:37-47`. -/
def newRepair (cost : Nat) (prio : Option Nat) (ins : Int) (ops : List HOp) (value : α)
    (pos : Nat) (ctx : Ctx τ) (expected : List String) (consumed : Bool) : HM τ (HRepair α) :=
  fun h => (.ret ⟨h.nReps, cost, ins, ops, value, pos⟩,
    { h with nReps := h.nReps + 1, reps := upd h.reps h.nReps ⟨prio, ctx, expected, consumed⟩ })

/-- `Ok(value, pos, ctx, expected, consumed)`, `core/result.py:18-26`. -/
def newOk (value : α) (pos : Nat) (ctx : Ctx τ) (expected : List String := [])
    (consumed : Bool := false) : HM τ (HOk α) :=
  fun h => (.ret ⟨h.nOks, value, pos⟩,
    { h with nOks := h.nOks + 1, oks := upd h.oks h.nOks ⟨ctx, expected, consumed⟩ })

/-- `Error(loc, expected, consumed)`, `core/result.py:58-64`. -/
def newErr (loc : Loc) (expected : List String := []) (consumed : Bool := false) : HM τ HErr :=
  fun h => (.ret ⟨h.nFails, loc⟩,
    { h with nFails := h.nFails + 1, fails := upd h.fails h.nFails ⟨expected, consumed⟩ })

/-- `Recovered(repairs, min_prio, loc, expected, consumed)`, `core/result.py:93-101`. -/
def newRecovered (repairs : List (HRepair α)) (minPrio : Option Nat) (loc : Loc)
    (expected : List String := []) (consumed : Bool := false) : HM τ (HRecovered α) :=
  fun h => (.ret ⟨h.nFails, repairs, minPrio, loc⟩,
    { h with nFails := h.nFails + 1, fails := upd h.fails h.nFails ⟨expected, consumed⟩ })

/-- Models `make_insert`, `core/repair.py:64-70`. -/
def makeInsert (rem : Int) (value : α) (pos : Nat) (ctx : Ctx τ) (loc : Loc) (label : String)
    (expected : List String := []) : HM τ (HRepair α) := do
  let i ← newOp (.insert label) loc expected false
  newRepair 1 none (rem - 1) [i] value pos ctx [] true

/-- Models `make_user_insert`, `core/repair.py:73-79`. -/
def makeUserInsert (rem : Int) (value : α) (pos : Nat) (ctx : Ctx τ) (loc : Loc)
    (label : String) (expected : List String := []) : HM τ (HRepair α) := do
  let i ← newOp (.insert label) loc expected false
  newRepair 1 (some 0) (rem - 1) [i] value pos ctx [] true

/-- Models `make_skip`, `core/repair.py:82-88`. -/
def makeSkip (ins : Int) (value : α) (pos : Nat) (ctx : Ctx τ) (loc : Loc) (skip : Nat)
    (expected : List String := []) : HM τ (HRepair α) := do
  let i ← newOp (.skip skip) loc expected false
  newRepair skip (some 0) ins [i] value pos ctx [] true

/-- Models `make_pending_skip`, `core/repair.py:91-96`. -/
def makePendingSkip (ins : Int) (value : α) (pos : Nat) (ctx : Ctx τ) (loc : Loc) (skip : Nat)
    (expected : List String := []) : HM τ (HRepair α) := do
  let i ← newOp (.skip skip) loc expected false
  newRepair skip (some 0) ins [i] value pos ctx [] false

/-! ### Updating objects -/

/-- The loop body of `ops_set_expected`, `core/repair.py:51-53`. -/
def setOp (expected : List String) (o : HOp) (h : Heap τ) : Heap τ :=
  if (h.ops o.addr).consumed then h
  else { h with ops := upd h.ops o.addr { h.ops o.addr with expected := expected } }

/-- Models `ops_set_expected`, `core/repair.py:50-53`. -/
def opsSetExpected (expected : List String) : List HOp → Heap τ → Heap τ
  | [], h => h
  | o :: os, h => opsSetExpected expected os (setOp expected o h)

/-- The loop body of `ops_prepend_expected`, `core/repair.py:58-61`. -/
def prependOp (expected : List String) (consumed : Bool) (o : HOp) (h : Heap τ) : Heap τ :=
  if (h.ops o.addr).consumed then h
  else
    let c := h.ops o.addr
    { h with ops := upd h.ops o.addr ⟨expected ++ c.expected, c.consumed || consumed⟩ }

/-- Models `ops_prepend_expected`, `core/repair.py:56-61`. -/
def opsPrependExpected (expected : List String) (consumed : Bool) :
    List HOp → Heap τ → Heap τ
  | [], h => h
  | o :: os, h => opsPrependExpected expected consumed os (prependOp expected consumed o h)

/-- Models `Ok.set_ctx`, `core/result.py:38-40`. -/
def okSetCtx (ctx : Ctx τ) (r : HOk α) (h : Heap τ) : Heap τ :=
  { h with oks := upd h.oks r.addr { h.oks r.addr with ctx := ctx } }

/-- The loop of `Recovered.set_ctx`, `core/result.py:124-125`. -/
def repsSetCtx (ctx : Ctx τ) : List (HRepair α) → Heap τ → Heap τ
  | [], h => h
  | r :: rs, h =>
    repsSetCtx ctx rs { h with reps := upd h.reps r.addr { h.reps r.addr with ctx := ctx } }

/-- Models `set_ctx` of `Ok` and `Error`, `core/result.py:38-40,74-75`. -/
def HSimple.setCtx (ctx : Ctx τ) : HSimple α → HM τ (HSimple α)
  | .ok r => do
    HM.modify (okSetCtx ctx r)
    return .ok r
  | .error e => return .error e

/-- Models `set_ctx`, `core/result.py:38-40,74-75,123-126`. -/
def HResult.setCtx (ctx : Ctx τ) : HResult α → HM τ (HResult α)
  | .ok r => do
    HM.modify (okSetCtx ctx r)
    return .ok r
  | .error e => return .error e
  | .recovered r => do
    HM.modify (repsSetCtx ctx r.repairs)
    return .recovered r

/-- Models `Ok.set_expected`, `core/result.py:42-45`. -/
def okSetExpected (expected : List String) (r : HOk α) (h : Heap τ) : Heap τ :=
  if (h.oks r.addr).consumed then h
  else { h with oks := upd h.oks r.addr { h.oks r.addr with expected := expected } }

/-- Models `Error.set_expected`, `core/result.py:77-80`, and `:129-130` of
`Recovered.set_expected`. -/
def failSetExpected (expected : List String) (a : Nat) (h : Heap τ) : Heap τ :=
  if (h.fails a).consumed then h
  else { h with fails := upd h.fails a { h.fails a with expected := expected } }

/-- The loop body of `Recovered.set_expected`, `core/result.py:131-134`. -/
def repSetExpected (expected : List String) (r : HRepair α) (h : Heap τ) : Heap τ :=
  opsSetExpected expected r.ops
    (if (h.reps r.addr).consumed then h
     else { h with reps := upd h.reps r.addr { h.reps r.addr with expected := expected } })

/-- The loop of `Recovered.set_expected`, `core/result.py:131-134`. -/
def repsSetExpected (expected : List String) : List (HRepair α) → Heap τ → Heap τ
  | [], h => h
  | r :: rs, h => repsSetExpected expected rs (repSetExpected expected r h)

/-- Models `Recovered.set_expected`, `core/result.py:128-135`. -/
def HRecovered.setExpected (expected : List String) (r : HRecovered α) :
    HM τ (HRecovered α) := do
  HM.modify (failSetExpected expected r.addr)
  HM.modify (repsSetExpected expected r.repairs)
  return r

/-- Models `Ok.set_expected`, `core/result.py:42-45`. -/
def HOk.setExpected (expected : List String) (r : HOk α) : HM τ (HOk α) := do
  HM.modify (okSetExpected expected r)
  return r

/-- Models `set_expected`, `core/result.py:42-45,77-80`. -/
def HSimple.setExpected (expected : List String) : HSimple α → HM τ (HSimple α)
  | .ok r => do
    HM.modify (okSetExpected expected r)
    return .ok r
  | .error e => do
    HM.modify (failSetExpected expected e.addr)
    return .error e

/-- Models `set_expected`, `core/result.py:42-45,77-80,128-135`. -/
def HResult.setExpected (expected : List String) : HResult α → HM τ (HResult α)
  | .ok r => do
    HM.modify (okSetExpected expected r)
    return .ok r
  | .error e => do
    HM.modify (failSetExpected expected e.addr)
    return .error e
  | .recovered r => do
    HM.modify (failSetExpected expected r.addr)
    HM.modify (repsSetExpected expected r.repairs)
    return .recovered r

/-- Models `Ok.prepend_expected`, `core/result.py:47-52`. -/
def okPrependExpected (expected : List String) (consumed : Bool) (r : HOk α) (h : Heap τ) :
    Heap τ :=
  if (h.oks r.addr).consumed then h
  else
    let c := h.oks r.addr
    { h with oks := upd h.oks r.addr ⟨c.ctx, expected ++ c.expected, c.consumed || consumed⟩ }

/-- Models `Error.prepend_expected`, `core/result.py:82-87`, and `:140-142` of
`Recovered.prepend_expected`. -/
def failPrependExpected (expected : List String) (consumed : Bool) (a : Nat) (h : Heap τ) :
    Heap τ :=
  if (h.fails a).consumed then h
  else
    let c := h.fails a
    { h with fails := upd h.fails a ⟨expected ++ c.expected, c.consumed || consumed⟩ }

/-- The loop body of `Recovered.prepend_expected`, `core/result.py:143-147`. -/
def repPrependExpected (expected : List String) (consumed : Bool) (r : HRepair α) (h : Heap τ) :
    Heap τ :=
  opsPrependExpected expected consumed r.ops
    (if (h.reps r.addr).consumed then h
     else
      let c := h.reps r.addr
      { h with reps := upd h.reps r.addr
                ⟨c.prio, c.ctx, expected ++ c.expected, c.consumed || consumed⟩ })

/-- The loop of `Recovered.prepend_expected`, `core/result.py:143-147`. -/
def repsPrependExpected (expected : List String) (consumed : Bool) :
    List (HRepair α) → Heap τ → Heap τ
  | [], h => h
  | r :: rs, h =>
    repsPrependExpected expected consumed rs (repPrependExpected expected consumed r h)

/-- Models `prepend_expected`, `core/result.py:47-52,82-87`. -/
def HSimple.prependExpected (expected : List String) (consumed : Bool) :
    HSimple α → HM τ (HSimple α)
  | .ok r => do
    HM.modify (okPrependExpected expected consumed r)
    return .ok r
  | .error e => do
    HM.modify (failPrependExpected expected consumed e.addr)
    return .error e

/-- Models `prepend_expected`, `core/result.py:47-52,82-87,137-148`. -/
def HResult.prependExpected (expected : List String) (consumed : Bool) :
    HResult α → HM τ (HResult α)
  | .ok r => do
    HM.modify (okPrependExpected expected consumed r)
    return .ok r
  | .error e => do
    HM.modify (failPrependExpected expected consumed e.addr)
    return .error e
  | .recovered r => do
    HM.modify (failPrependExpected expected consumed r.addr)
    HM.modify (repsPrependExpected expected consumed r.repairs)
    return .recovered r

/-! ### `fmap` -/

/-- Models `Ok.fmap`, `core/result.py:33-36`: a new object. -/
def HOk.fmapM (fn : α → Except Exn β) (r : HOk α) : HM τ (HOk β) := do
  let v ← HM.ofExcept (fn r.value)
  let h ← HM.get
  newOk v r.pos (h.oks r.addr).ctx (h.oks r.addr).expected (h.oks r.addr).consumed

/-- The comprehension body in `Recovered.fmap`, `core/result.py:114-117`: a new object, which
shares the list `r.ops`. -/
def HRepair.fmapM (fn : α → Except Exn β) (r : HRepair α) : HM τ (HRepair β) := do
  let v ← HM.ofExcept (fn r.value)
  let h ← HM.get
  newRepair r.cost (h.reps r.addr).prio r.ins r.ops v r.pos (h.reps r.addr).ctx
    (h.reps r.addr).expected (h.reps r.addr).consumed

/-- The list comprehension in `Recovered.fmap`, `core/result.py:113-119`. -/
def repairsFmapM (fn : α → Except Exn β) : List (HRepair α) → HM τ (List (HRepair β))
  | [] => return []
  | r :: rs => do
    let r' ← r.fmapM fn
    let rs' ← repairsFmapM fn rs
    return r' :: rs'

/-- Models `fmap` of `Ok` and `Error`, `core/result.py:33-36,71-72`; `Error.fmap` returns
`self`. -/
def HSimple.fmapM (fn : α → Except Exn β) : HSimple α → HM τ (HSimple β)
  | .ok r => do
    let r' ← r.fmapM fn
    return .ok r'
  | .error e => return .error e

/-- Models `fmap`, `core/result.py:33-36,71-72,111-121`. -/
def HResult.fmapM (fn : α → Except Exn β) : HResult α → HM τ (HResult β)
  | .ok r => do
    let r' ← r.fmapM fn
    return .ok r'
  | .error e => return .error e
  | .recovered r => do
    let reps ← repairsFmapM fn r.repairs
    let h ← HM.get
    let r' ← newRecovered reps r.minPrio r.loc (h.fails r.addr).expected
      (h.fails r.addr).consumed
    return .recovered r'

/-! ### `core/recovery.py` -/

/-- The list comprehension in `_join_ops`, `core/recovery.py:72`: copies of the operations. -/
def copyOps : List HOp → HM τ (List HOp)
  | [] => return []
  | i :: is => do
    let h ← HM.get
    let i' ← newOp i.op i.loc (h.ops i.addr).expected (h.ops i.addr).consumed
    let is' ← copyOps is
    return i' :: is'

/-- Models `_join_ops`, `core/recovery.py:71-75`: the operations of `rep` are copied, those of
`repb` are updated in place. -/
def joinOps (rep : HRepair α) (repb : HRepair β) : HM τ (List HOp) := do
  let ops ← copyOps rep.ops
  let h ← HM.get
  HM.modify (opsPrependExpected (h.reps rep.addr).expected (h.reps rep.addr).consumed repb.ops)
  return ops ++ repb.ops

/-- Models `_append_expected`, `core/recovery.py:78-83`. -/
def appendExpected (h : Heap τ) (ra : HRepair α) (expected : List String) (consumed : Bool) :
    List String :=
  if consumed then expected else (h.reps ra.addr).expected ++ expected

/-- The inner loop of `continue_parse`, `core/recovery.py:35-43`. -/
def contInner (merge : α → β → γ) (r : HRepair α) :
    List (HRepair β) → HM τ (List (HRepair γ))
  | [] => return []
  | rr :: rrs => do
    let ops ← joinOps r rr
    let h ← HM.get
    let x ← newRepair (r.cost + rr.cost) (h.reps r.addr).prio rr.ins ops
      (merge r.value rr.value) rr.pos (h.reps rr.addr).ctx
      (appendExpected h r (h.reps rr.addr).expected (h.reps rr.addr).consumed)
      ((h.reps r.addr).consumed || (h.reps rr.addr).consumed)
    let xs ← contInner merge r rrs
    return x :: xs

/-- The loop body of `continue_parse`, `core/recovery.py:25-43`. The new repair of `:27-33`
shares the list `r.ops`. -/
def contOne (ins : Int) (merge : α → β → γ) (r : HRepair α) :
    HResult β → HM τ (List (HRepair γ))
  | .ok rb => do
    let h ← HM.get
    let x ← newRepair r.cost (h.reps r.addr).prio (if r.pos = rb.pos then r.ins else ins) r.ops
      (merge r.value rb.value) rb.pos (h.oks rb.addr).ctx
      (appendExpected h r (h.oks rb.addr).expected (h.oks rb.addr).consumed)
      ((h.reps r.addr).consumed || (h.oks rb.addr).consumed)
    return [x]
  | .error _ => return []
  | .recovered rb => contInner merge r rb.repairs

/-- The loop of `continue_parse`, `core/recovery.py:22-43`. -/
def contReps (ins : Int) (parse : α → Nat → Ctx τ → Int → HM τ (HResult β))
    (merge : α → β → γ) : List (HRepair α) → HM τ (List (HRepair γ))
  | [] => return []
  | r :: rs => do
    let h ← HM.get
    let rb ← parse r.value r.pos (h.reps r.addr).ctx r.ins
    let xs ← contOne ins merge r rb
    let rest ← contReps ins parse merge rs
    return xs ++ rest

/-- Models `continue_parse`, `core/recovery.py:18-45`. -/
def continueParse (ra : HRecovered α) (ins : Int)
    (parse : α → Nat → Ctx τ → Int → HM τ (HResult β)) (merge : α → β → γ) :
    HM τ (HResult γ) := do
  let reps ← contReps ins parse merge ra.repairs
  let h ← HM.get
  let r ← newRecovered reps ra.minPrio ra.loc (h.fails ra.addr).expected
    (h.fails ra.addr).consumed
  return .recovered r

/-- `r.prio is not None and r.prio < min_prio`, `core/recovery.py:54`. -/
def prioBelow (h : Heap τ) (minPrio : Nat) (r : HRepair α) : Bool :=
  match (h.reps r.addr).prio with
  | none => false
  | some p => decide (p < minPrio)

/-- `reps` in `join_repairs`, `core/recovery.py:50-59`: the same `Repair` objects. -/
def joinReps (h : Heap τ) (ra rb : HRecovered α) : List (HRepair α) :=
  match ra.minPrio with
  | some m => ra.repairs ++ rb.repairs.filter (prioBelow h m)
  | none => ra.repairs ++ rb.repairs.filter (fun r => (h.reps r.addr).prio.isSome)

/-- `min_prio` in `join_repairs`, `core/recovery.py:51-60`. -/
def joinMinPrio (ra rb : HRecovered α) : Option Nat :=
  match ra.minPrio with
  | some m =>
    match rb.minPrio with
    | some m' => if m' < m then some m' else some m
    | none => some m
  | none => rb.minPrio

/-- Models `join_repairs`, `core/recovery.py:48-68`. -/
def joinRepairs (ra rb : HRecovered α) : HM τ (HRecovered α) := do
  let h ← HM.get
  let reps := joinReps h ra rb
  let minPrio := joinMinPrio ra rb
  if (h.fails ra.addr).consumed then
    newRecovered reps minPrio ra.loc (h.fails ra.addr).expected true
  else if (h.fails rb.addr).consumed then
    newRecovered reps minPrio rb.loc (h.fails rb.addr).expected true
  else
    newRecovered reps minPrio ra.loc ((h.fails ra.addr).expected ++ (h.fails rb.addr).expected)
      ((h.fails ra.addr).consumed || (h.fails rb.addr).consumed)

/-! ### Parsing functions -/

/-- Models `ParseFastFn`, `core/parser.py:14-17`. -/
abbrev HFastFn (τ α : Type) := List τ → Nat → Ctx τ → HM τ (HSimple α)

/-- Models `ParseFn`, `core/parser.py:18-21`. -/
abbrev HFn (τ α : Type) := List τ → Nat → Ctx τ → Int → Option Int → HM τ (HResult α)

/-- Models `ParseFns`, `core/parser.py:24-29`. -/
structure HFns (τ α : Type) where
  fast : HFastFn τ α
  fn : HFn τ α

/-- `return Ok(...)` from a `ParseFastFn`. -/
def retOkS (value : α) (pos : Nat) (ctx : Ctx τ) (expected : List String := [])
    (consumed : Bool := false) : HM τ (HSimple α) := do
  let r ← newOk value pos ctx expected consumed
  return .ok r

/-- `return Error(...)` from a `ParseFastFn`. -/
def retErrS (loc : Loc) (expected : List String := []) : HM τ (HSimple α) := do
  let e ← newErr loc expected
  return .error e

/-- `return Ok(...)` from a `ParseFn`. -/
def retOk (value : α) (pos : Nat) (ctx : Ctx τ) (expected : List String := [])
    (consumed : Bool := false) : HM τ (HResult α) := do
  let r ← newOk value pos ctx expected consumed
  return .ok r

/-- `return Error(...)` from a `ParseFn`. -/
def retErr (loc : Loc) (expected : List String := []) : HM τ (HResult α) := do
  let e ← newErr loc expected
  return .error e

/-- `return Recovered(...)` from a `ParseFn`. -/
def retRec (repairs : List (HRepair α)) (minPrio : Option Nat) (loc : Loc)
    (expected : List String := []) : HM τ (HResult α) := do
  let r ← newRecovered repairs minPrio loc expected
  return .recovered r

/-! ### `core/primitive.py` -/

/-- Models `Pure`, `core/primitive.py:11-23`. -/
def pureFns (x : α) : HFns τ α where
  fast _ pos ctx := retOkS x pos ctx
  fn _ pos ctx _ _ := retOk x pos ctx

/-- Models `PureFn`, `core/primitive.py:26-38`. -/
def pureFnFns (x : Except Exn α) : HFns τ α where
  fast _ pos ctx := do
    let v ← HM.ofExcept x
    retOkS v pos ctx
  fn _ pos ctx _ _ := do
    let v ← HM.ofExcept x
    retOk v pos ctx

/-- Models `unexpected`, `core/primitive.py:41-60`. -/
def unexpectedFns (expected : String) : HFns τ Unit where
  fast stream pos ctx := retErrS (ctx.getLoc stream pos) [expected]
  fn stream pos ctx _ _ := retErr (ctx.getLoc stream pos) [expected]

/-! ### `core/sequence.py` -/

/-- Models `eof`, `core/sequence.py:11-44`. -/
def eofFns : HFns τ Unit where
  fast stream pos ctx :=
    if pos = stream.length then retOkS () pos ctx
    else retErrS (ctx.getLoc stream pos) ["end of file"]
  fn stream pos ctx ins rem :=
    if pos = stream.length then retOk () pos ctx
    else match rem with
      | none => retErr (ctx.getLoc stream pos) ["end of file"]
      | some _ => do
        let loc := ctx.getLoc stream pos
        let sl := stream.length
        let x ← makePendingSkip ins () sl ctx loc (sl - pos) ["end of file"]
        retRec [x] none loc ["end of file"]

/-- Models `satisfy`, `core/sequence.py:47-90`. -/
def satisfyFns (test : τ → Except Exn Bool) : HFns τ τ where
  fast stream pos ctx := do
    match ← HM.ofExcept (testAt test stream pos) with
    | some t => retOkS t (pos + 1) ctx [] true
    | none => retErrS (ctx.getLoc stream pos)
  fn stream pos ctx ins rem := do
    match ← HM.ofExcept (testAt test stream pos) with
    | some t => retOk t (pos + 1) ctx [] true
    | none =>
      match rem with
      | none => retErr (ctx.getLoc stream pos)
      | some _ =>
        let loc := ctx.getLoc stream pos
        match ← HM.ofExcept
            (scan (testAt test stream) (stream.length - (pos + 1)) (pos + 1)) with
        | some (cur, t) =>
          let x ← makeSkip ins t (cur + 1) (ctx.updateLoc stream (cur + 1)) loc (cur - pos)
          retRec [x] (some (cur - pos)) loc
        | none => retErr loc

/-- The list `reps` of `core/sequence.py:116-118`, `core/scannerless.py:49-51`: an insertion, if
one is allowed. -/
def insertReps (rem : Int) (value : α) (pos : Nat) (ctx : Ctx τ) (loc : Loc) (label : String)
    (expected : List String) : HM τ (List (HRepair α)) :=
  if rem ≠ 0 then do
    let x ← makeInsert rem value pos ctx loc label expected
    return [x]
  else return []

/-- Models `sym`, `core/sequence.py:93-144`. -/
def symFns [BEq τ] (s : τ) (label : String) : HFns τ τ where
  fast stream pos ctx :=
    match symAt s stream pos with
    | some t => retOkS t (pos + 1) ctx [] true
    | none => retErrS (ctx.getLoc stream pos) [label]
  fn stream pos ctx ins rem :=
    match symAt s stream pos with
    | some t => retOk t (pos + 1) ctx [] true
    | none =>
      match rem with
      | none => retErr (ctx.getLoc stream pos) [label]
      | some rem => do
        let loc := ctx.getLoc stream pos
        let reps ← insertReps rem s pos ctx loc label [label]
        match ← HM.ofExcept (scan (fun cur => .ok (symAt s stream cur))
            (stream.length - (pos + 1)) (pos + 1)) with
        | some (cur, t) =>
          let x ← makeSkip ins t (cur + 1) (ctx.updateLoc stream (cur + 1)) loc (cur - pos)
            [label]
          retRec (reps ++ [x]) (some (cur - pos)) loc [label]
        | none => retRec reps none loc [label]

/-! ### `core/scannerless.py` -/

/-- Models `literal`, `core/scannerless.py:23-72`. -/
def literalFns [BEq τ] (s : List τ) (ss : String) : HFns τ (List τ) where
  fast stream pos ctx :=
    if startsWith s stream pos then
      retOkS s (pos + s.length) (ctx.updateLoc stream (pos + s.length)) [] true
    else retErrS (ctx.getLoc stream pos) [ss]
  fn stream pos ctx ins rem :=
    if startsWith s stream pos then
      retOk s (pos + s.length) (ctx.updateLoc stream (pos + s.length)) [] true
    else match rem with
      | none => retErr (ctx.getLoc stream pos) [ss]
      | some rem => do
        let loc := ctx.getLoc stream pos
        let reps ← insertReps rem s pos ctx loc ss [ss]
        match ← HM.ofExcept (scan
            (fun cur => .ok (if startsWith s stream cur then some () else none))
            (stream.length - (pos + 1)) (pos + 1)) with
        | some (cur, _) =>
          let x ← makeSkip ins s (cur + s.length) (ctx.updateLoc stream (cur + s.length)) loc
            (cur - pos) [ss]
          retRec (reps ++ [x]) (some (cur - pos)) loc [ss]
        | none => retRec reps none loc [ss]

/-- Models `regexp`, `core/scannerless.py:75-129`. -/
def regexpFns (m : Matcher τ β) : HFns τ β where
  fast stream pos ctx := do
    match ← HM.ofExcept (m.at stream pos) with
    | some (e, v) => retOkS v e (ctx.updateLoc stream e) [] (decide (e ≠ pos))
    | none => retErrS (ctx.getLoc stream pos)
  fn stream pos ctx ins rem := do
    match ← HM.ofExcept (m.at stream pos) with
    | some (e, v) => retOk v e (ctx.updateLoc stream e) [] (decide (e ≠ pos))
    | none =>
      match rem with
      | none => retErr (ctx.getLoc stream pos)
      | some _ =>
        let loc := ctx.getLoc stream pos
        match ← HM.ofExcept
            (scan (m.at stream) (stream.length - (pos + 1)) (pos + 1)) with
        | some (cur, (e, v)) =>
          let x ← makeSkip ins v e (ctx.updateLoc stream e) loc (cur - pos)
          retRec [x] (some (cur - pos)) loc
        | none => retErr loc

/-! ### `core/combinators.py` -/

/-- Models `fmap`, `core/combinators.py:16-37`. -/
def fmapFns (p : HFns τ α) (fn : α → Except Exn β) : HFns τ β where
  fast stream pos ctx := do
    let r ← p.fast stream pos ctx
    r.fmapM fn
  fn stream pos ctx ins rem := do
    let r ← p.fn stream pos ctx ins rem
    r.fmapM fn

/-- Models `_alt_fast`, `core/combinators.py:40-58`. -/
def altFast (p q : HFns τ α) : HFastFn τ α := fun stream pos ctx => do
  match ← p.fast stream pos ctx with
  | .ok ra => return .ok ra
  | .error ea =>
    let h ← HM.get
    if (h.fails ea.addr).consumed then return .error ea
    else
      match ← q.fast stream pos ctx with
      | .ok rb =>
        let h ← HM.get
        if (h.oks rb.addr).consumed then return .ok rb
        else
          let rb ← rb.setExpected ((h.fails ea.addr).expected ++ (h.oks rb.addr).expected)
          return .ok rb
      | .error eb =>
        let h ← HM.get
        if (h.fails eb.addr).consumed then return .error eb
        else retErrS ea.loc ((h.fails ea.addr).expected ++ (h.fails eb.addr).expected)

/-- Models lines 79-88 of `_alt`, `core/combinators.py`. -/
def altRecover (p q : HFns τ α) (stream : List τ) (pos : Nat) (ctx : Ctx τ) (ins : Int)
    (rem : Option Int) (loc : Loc) (expected : List String) : HM τ (HResult α) :=
  match rem with
  | none => retErr loc expected
  | some rem => do
    let rra ← p.fn stream pos ctx ins (some rem)
    let rrb ← q.fn stream pos ctx ins (some rem)
    match rra, rrb with
    | .recovered rra, .recovered rrb =>
      let r ← joinRepairs rra rrb
      let r ← r.setExpected expected
      return .recovered r
    | .recovered rra, _ =>
      let r ← rra.setExpected expected
      return .recovered r
    | _, .recovered rrb =>
      let r ← rrb.setExpected expected
      return .recovered r
    | _, _ => retErr loc expected

/-- Models lines 73-78 of `_alt`, `core/combinators.py`; `loc` and `addr` belong to the first
result (an `Error` or a `Recovered`), whose `expected` is read at `:76`. -/
def altSecond (p q : HFns τ α) (stream : List τ) (pos : Nat) (ctx : Ctx τ) (ins : Int)
    (rem : Option Int) (loc : Loc) (addr : Nat) : HM τ (HResult α) := do
  match ← q.fn stream pos ctx ins none with
  | .ok rb =>
    let h ← HM.get
    if (h.oks rb.addr).consumed then return .ok rb
    else
      let rb ← rb.setExpected ((h.fails addr).expected ++ (h.oks rb.addr).expected)
      return .ok rb
  | .error eb =>
    let h ← HM.get
    if (h.fails eb.addr).consumed then return .error eb
    else
      let expected := (h.fails addr).expected ++ (h.fails eb.addr).expected
      altRecover p q stream pos ctx ins rem loc expected
  | .recovered rb =>
    let h ← HM.get
    if (h.fails rb.addr).consumed then return .recovered rb
    else
      let expected := (h.fails addr).expected ++ (h.fails rb.addr).expected
      altRecover p q stream pos ctx ins rem loc expected

/-- Models `_alt`, `core/combinators.py:61-90`. -/
def altFn (p q : HFns τ α) : HFn τ α := fun stream pos ctx ins rem => do
  match ← p.fn stream pos ctx ins none with
  | .ok ra => return .ok ra
  | .error ea =>
    let h ← HM.get
    if (h.fails ea.addr).consumed then return .error ea
    else altSecond p q stream pos ctx ins rem ea.loc ea.addr
  | .recovered ra =>
    let h ← HM.get
    if (h.fails ra.addr).consumed then return .recovered ra
    else altSecond p q stream pos ctx ins rem ra.loc ra.addr

/-- Models `alt`, `core/combinators.py:93-99`. -/
def altFns (p q : HFns τ α) : HFns τ α := ⟨altFast p q, altFn p q⟩

/-- Models `_bind_fast`, `core/combinators.py:102-115`; `ra.expected` and `ra.consumed` are read
after the second parser has run. -/
def bindFast (p : HFns τ α) (fn : α → HFns τ β) : HFastFn τ β := fun stream pos ctx => do
  match ← p.fast stream pos ctx with
  | .error e => return .error e
  | .ok ra =>
    let h ← HM.get
    let rb ← (fn ra.value).fast stream ra.pos (h.oks ra.addr).ctx
    let h ← HM.get
    rb.prependExpected (h.oks ra.addr).expected (h.oks ra.addr).consumed

/-- Models `_bind`, `core/combinators.py:118-143`. -/
def bindFn (p : HFns τ α) (fn : α → HFns τ β) : HFn τ β := fun stream pos ctx ins rem => do
  match ← p.fn stream pos ctx ins rem with
  | .error e => return .error e
  | .recovered ra =>
    continueParse ra ins (fun v p c r => (fn v).fn stream p c ins (some r)) (fun _ v => v)
  | .ok ra =>
    let h ← HM.get
    if (h.oks ra.addr).consumed then
      let rb ← (fn ra.value).fn stream ra.pos (h.oks ra.addr).ctx ins (some ins)
      let h ← HM.get
      rb.prependExpected (h.oks ra.addr).expected (h.oks ra.addr).consumed
    else
      let rb ← (fn ra.value).fn stream ra.pos (h.oks ra.addr).ctx ins rem
      let h ← HM.get
      rb.prependExpected (h.oks ra.addr).expected (h.oks ra.addr).consumed

/-- Models `bind`, `core/combinators.py:146-149`. -/
def bindFns (p : HFns τ α) (fn : α → HFns τ β) : HFns τ β := ⟨bindFast p fn, bindFn p fn⟩

/-- Models `_seq_h_fast`, `core/combinators.py:152-169`. -/
def seqFast (p : HFns τ α) (q : HFns τ β) (merge : α → β → γ) : HFastFn τ γ :=
  fun stream pos ctx => do
  match ← p.fast stream pos ctx with
  | .error e => return .error e
  | .ok ra =>
    let va := ra.value
    let h ← HM.get
    let rb ← q.fast stream ra.pos (h.oks ra.addr).ctx
    let rc ← rb.fmapM fun vb => .ok (merge va vb)
    let h ← HM.get
    rc.prependExpected (h.oks ra.addr).expected (h.oks ra.addr).consumed

/-- Models `_seq_h`, `core/combinators.py:172-196`. -/
def seqFn (p : HFns τ α) (q : HFns τ β) (merge : α → β → γ) : HFn τ γ :=
  fun stream pos ctx ins rem => do
  match ← p.fn stream pos ctx ins rem with
  | .error e => return .error e
  | .recovered ra =>
    continueParse ra ins (fun _ p c r => q.fn stream p c ins (some r)) merge
  | .ok ra =>
    let va := ra.value
    let h ← HM.get
    let rb ← q.fn stream ra.pos (h.oks ra.addr).ctx ins
      (if (h.oks ra.addr).consumed then some ins else rem)
    let rc ← rb.fmapM fun vb => .ok (merge va vb)
    let h ← HM.get
    rc.prependExpected (h.oks ra.addr).expected (h.oks ra.addr).consumed

/-- Models `_seq`, `core/combinators.py:199-205`. -/
def seqFns (p : HFns τ α) (q : HFns τ β) (merge : α → β → γ) : HFns τ γ :=
  ⟨seqFast p q merge, seqFn p q merge⟩

/-- The same `Ok` object, its value seen as an `Optional` (`core/combinators.py:301,315`). -/
def HOk.asOption (r : HOk α) : HOk (Option α) := ⟨r.addr, some r.value, r.pos⟩

/-- The same `Repair` object, its value seen as an `Optional`. -/
def HRepair.asOption (r : HRepair α) : HRepair (Option α) :=
  ⟨r.addr, r.cost, r.ins, r.ops, some r.value, r.pos⟩

/-- The same `Recovered` object, its values seen as `Optional` (`core/combinators.py:315`). -/
def HRecovered.asOption (r : HRecovered α) : HRecovered (Option α) :=
  ⟨r.addr, r.repairs.map HRepair.asOption, r.minPrio, r.loc⟩

/-- Models `maybe`, `core/combinators.py:293-321`. -/
def maybeFns (p : HFns τ α) : HFns τ (Option α) where
  fast stream pos ctx := do
    match ← p.fast stream pos ctx with
    | .ok r => return .ok r.asOption
    | .error e =>
      let h ← HM.get
      if (h.fails e.addr).consumed then return .error e
      else retOkS none pos ctx (h.fails e.addr).expected
  fn stream pos ctx ins _rem := do
    match ← p.fn stream pos ctx ins none with
    | .ok r => return .ok r.asOption
    | .error e =>
      let h ← HM.get
      if (h.fails e.addr).consumed then return .error e
      else retOk none pos ctx (h.fails e.addr).expected
    | .recovered r =>
      let h ← HM.get
      if (h.fails r.addr).consumed then return .recovered r.asOption
      else retOk none pos ctx (h.fails r.addr).expected

/-- The loop of `_many_fast`, `core/combinators.py:327-341`. -/
def manyFastLoop (p : HFastFn τ α) (stream : List τ) :
    (fuel : Nat) → Nat → Ctx τ → Bool → List α → HM τ (HSimple (List α))
  | 0, _, _, _, _ => HM.diverge
  | fuel + 1, pos, ctx, consumed, value => do
    match ← p stream pos ctx with
    | .ok r =>
      let h ← HM.get
      if (h.oks r.addr).consumed then
        manyFastLoop p stream fuel r.pos (h.oks r.addr).ctx true (value ++ [r.value])
      else HM.raise manyExn
    | .error e =>
      let h ← HM.get
      if (h.fails e.addr).consumed then return .error e
      else retOkS value pos ctx (h.fails e.addr).expected consumed

/-- The loop of `_many`, `core/combinators.py:349-370`. -/
def manyLoop (p : HFn τ α) (stream : List τ) (ins : Int) :
    (fuel : Nat) → Nat → Ctx τ → Bool → List α → HM τ (HResult (List α))
  | 0, _, _, _, _ => HM.diverge
  | fuel + 1, pos, ctx, consumed, value => do
    match ← p stream pos ctx ins none with
    | .ok r =>
      let h ← HM.get
      if (h.oks r.addr).consumed then
        manyLoop p stream ins fuel r.pos (h.oks r.addr).ctx true (value ++ [r.value])
      else HM.raise manyExn
    | .recovered r =>
      continueParse r ins (fun _ p' c _ => manyLoop p stream ins fuel p' c false [])
        (fun a b => value ++ a :: b)
    | .error e =>
      let h ← HM.get
      if (h.fails e.addr).consumed then return .error e
      else retOk value pos ctx (h.fails e.addr).expected consumed

/-- Models `many`, `core/combinators.py:375-376`. -/
def manyFns (fuel : Nat) (p : HFns τ α) : HFns τ (List α) where
  fast stream pos ctx := manyFastLoop p.fast stream fuel pos ctx false []
  fn stream pos ctx ins _rem := manyLoop p.fn stream ins fuel pos ctx false []

/-- Models `attempt`, `core/combinators.py:379-409`. -/
def attemptFns (p : HFns τ α) : HFns τ α where
  fast stream pos ctx := do
    match ← p.fast stream pos ctx with
    | .error e =>
      let h ← HM.get
      retErrS e.loc (h.fails e.addr).expected
    | .ok r => return .ok r
  fn stream pos ctx ins rem :=
    match rem with
    | some rem => p.fn stream pos ctx ins (some rem)
    | none => do
      match ← p.fast stream pos ctx with
      | .error e =>
        let h ← HM.get
        retErr e.loc (h.fails e.addr).expected
      | .ok r => return .ok r

/-- Models `label`, `core/combinators.py:412-440`. -/
def labelFns (p : HFns τ α) (x : String) : HFns τ α where
  fast stream pos ctx := do
    let r ← p.fast stream pos ctx
    r.setExpected [x]
  fn stream pos ctx ins rem := do
    let r ← p.fn stream pos ctx ins rem
    r.setExpected [x]

/-- The loop body of `_recover`, `core/combinators.py:456-457`. -/
def promoteRep (r : HRepair α) (h : Heap τ) : Heap τ :=
  match (h.reps r.addr).prio with
  | none => { h with reps := upd h.reps r.addr { h.reps r.addr with prio := some 0 } }
  | some _ => h

/-- The loop of `_recover`, `core/combinators.py:455-457`. -/
def promoteReps : List (HRepair α) → Heap τ → Heap τ
  | [], h => h
  | r :: rs, h => promoteReps rs (promoteRep r h)

/-- Models `recover`, `core/combinators.py:443-464`. -/
def recoverFns (p : HFns τ α) : HFns τ α where
  fast := p.fast
  fn stream pos ctx ins rem := do
    match ← p.fn stream pos ctx ins rem with
    | .recovered r =>
      HM.modify (promoteReps r.repairs)
      return .recovered r
    | .ok r => return .ok r
    | .error e => return .error e

/-- Models `recover_with`, `core/combinators.py:467-502`. -/
def recoverWithFns (p : HFns τ α) (x : α) (vs : String) : HFns τ α where
  fast := p.fast
  fn stream pos ctx ins rem :=
    match rem with
    | none => p.fn stream pos ctx ins none
    | some rem => do
      match ← p.fn stream pos ctx ins (some rem) with
      | .ok r => return .ok r
      | .error e =>
        let h ← HM.get
        if (h.fails e.addr).consumed then return .error e
        else if rem ≠ 0 then
          let loc := ctx.getLoc stream pos
          let rep ← makeUserInsert rem x pos ctx loc vs (h.fails e.addr).expected
          retRec [rep] none loc
        else return .error e
      | .recovered r =>
        let h ← HM.get
        if (h.fails r.addr).consumed then return .recovered r
        else if rem ≠ 0 then
          let loc := ctx.getLoc stream pos
          let rep ← makeUserInsert rem x pos ctx loc vs (h.fails r.addr).expected
          let h ← HM.get
          retRec (rep :: r.repairs) r.minPrio loc (h.fails r.addr).expected
        else return .recovered r

/-- Models `recover_with_fn`, `core/combinators.py:505-543`. -/
def recoverWithFnFns (p : HFns τ α) (fn : List τ → Nat → Except Exn α) (lbl : α → String) :
    HFns τ α where
  fast := p.fast
  fn stream pos ctx ins rem :=
    match rem with
    | none => p.fn stream pos ctx ins none
    | some rem => do
      match ← p.fn stream pos ctx ins (some rem) with
      | .ok r => return .ok r
      | .error e =>
        let h ← HM.get
        if (h.fails e.addr).consumed then return .error e
        else if rem ≠ 0 then
          let x ← HM.ofExcept (fn stream pos)
          let loc := ctx.getLoc stream pos
          let h ← HM.get
          let rep ← makeUserInsert rem x pos ctx loc (lbl x) (h.fails e.addr).expected
          retRec [rep] none loc
        else return .error e
      | .recovered r =>
        let h ← HM.get
        if (h.fails r.addr).consumed then return .recovered r
        else if rem ≠ 0 then
          let x ← HM.ofExcept (fn stream pos)
          let loc := ctx.getLoc stream pos
          let h ← HM.get
          let rep ← makeUserInsert rem x pos ctx loc (lbl x) (h.fails r.addr).expected
          let h ← HM.get
          retRec (rep :: r.repairs) r.minPrio loc (h.fails r.addr).expected
        else return .recovered r

/-! ### `core/layout.py` -/

/-- Models `block`, `core/layout.py:12-37`. -/
def blockFns (p : HFns τ α) : HFns τ α where
  fast stream pos ctx := do
    let ctx := ctx.updateLoc stream pos
    let r ← p.fast stream pos (ctx.setMark ctx.loc.col)
    r.setCtx ctx
  fn stream pos ctx ins rem := do
    let ctx := ctx.updateLoc stream pos
    let r ← p.fn stream pos (ctx.setMark ctx.loc.col) ins rem
    r.setCtx ctx

/-- Models `aligned`, `core/layout.py:40-67`. -/
def alignedFns (p : HFns τ α) : HFns τ α where
  fast stream pos ctx :=
    let ctx := ctx.updateLoc stream pos
    if ctx.mark = ctx.loc.col then p.fast stream pos ctx
    else retErrS ctx.loc ["indentation"]
  fn stream pos ctx ins rem :=
    let ctx := ctx.updateLoc stream pos
    if ctx.mark = ctx.loc.col then p.fn stream pos ctx ins rem
    else retErr ctx.loc ["indentation"]

/-- Models `indented`, `core/layout.py:70-104`. -/
def indentedFns (delta : Int) (p : HFns τ α) : HFns τ α where
  fast stream pos ctx :=
    let ctx := ctx.updateLoc stream pos
    let level := ctx.loc.col
    if (ctx.mark : Int) + delta = level then do
      let r ← p.fast stream pos (ctx.setMark level)
      r.setCtx ctx
    else retErrS ctx.loc ["indentation"]
  fn stream pos ctx ins rem :=
    let ctx := ctx.updateLoc stream pos
    let level := ctx.loc.col
    if (ctx.mark : Int) + delta = level then do
      let r ← p.fn stream pos (ctx.setMark level) ins rem
      r.setCtx ctx
    else retErr ctx.loc ["indentation"]

/-! ### Parser objects -/

variable {ρ : Type} {Γ : ρ → Type}

/-- Running out of fuel. -/
def divergeFns : HFns τ α := ⟨fun _ _ _ => HM.diverge, fun _ _ _ _ _ => HM.diverge⟩

/-- The functions of a `Delay` object that has not been defined, `parser.py:755-766`. -/
def undefinedFns : HFns τ α :=
  ⟨fun _ _ _ => HM.raise undefinedExn, fun _ _ _ _ _ => HM.raise undefinedExn⟩

/-- The functions of a parser object, as `denoteWith` in `Model/Parser.lean`. -/
def denoteWith [BEq τ] (fuel : Nat) (tbl : (i : ρ) → HFns τ (Γ i)) :
    {α : Type} → P τ ρ Γ α → HFns τ α
  | _, .pure x => pureFns x
  | _, .pureFn x => pureFnFns x
  | _, .unexpected x => unexpectedFns x
  | _, .eof => eofFns
  | _, .satisfy test => satisfyFns test
  | _, .sym s l => symFns s l
  | _, .literal s ss _ => literalFns s ss
  | _, .regexp m => regexpFns m
  | _, .fmap p fn => fmapFns (denoteWith fuel tbl p) fn
  | _, .alt p q => altFns (denoteWith fuel tbl p) (denoteWith fuel tbl q)
  | _, .bind p fn => bindFns (denoteWith fuel tbl p) (fun a => denoteWith fuel tbl (fn a))
  | _, .seqWith p q merge => seqFns (denoteWith fuel tbl p) (denoteWith fuel tbl q) merge
  | _, .maybe p => maybeFns (denoteWith fuel tbl p)
  | _, .many p => manyFns fuel (denoteWith fuel tbl p)
  | _, .attempt p => attemptFns (denoteWith fuel tbl p)
  | _, .label p x => labelFns (denoteWith fuel tbl p) x
  | _, .recover p => recoverFns (denoteWith fuel tbl p)
  | _, .recoverWith p x vs => recoverWithFns (denoteWith fuel tbl p) x vs
  | _, .recoverWithFn p fn lbl => recoverWithFnFns (denoteWith fuel tbl p) fn lbl
  | _, .block p => blockFns (denoteWith fuel tbl p)
  | _, .aligned p => alignedFns (denoteWith fuel tbl p)
  | _, .indented delta p => indentedFns delta (denoteWith fuel tbl p)
  | _, .ref i => tbl i

/-- The functions of the `Delay` objects, `parser.py:793-806`. -/
def table [BEq τ] (env : Env τ ρ Γ) : (fuel : Nat) → (i : ρ) → HFns τ (Γ i)
  | 0, _ => divergeFns
  | fuel + 1, i =>
    match env i with
    | none => undefinedFns
    | some p => denoteWith fuel (table env fuel) p

/-- The two functions of a parser object (`to_fns`). -/
def denote [BEq τ] (env : Env τ ρ Γ) (fuel : Nat) (p : P τ ρ Γ α) : HFns τ α :=
  denoteWith fuel (table env fuel) p

/-- Models `Parser.parse`, `parser.py:30-55`: what is wrapped in a `ResultWrapper` (`:55`). -/
def parse [BEq τ] (env : Env τ ρ Γ) (fuel : Nat) (p : P τ ρ Γ α) (stream : List τ)
    (recover : Bool) (maxInsertions : Int) (getLoc : Loc → List τ → Nat → Loc) :
    HM τ (HResult α) :=
  if recover then
    (denote env fuel p).fn stream 0 (initCtx getLoc) maxInsertions (some maxInsertions)
  else do
    let r ← (denote env fuel p).fast stream 0 (initCtx getLoc)
    return r.toResult

/-- Models `ResultWrapper.unwrap`, `types.py:109-142`: it reads attributes and assigns none. -/
def unwrap (fmtLoc : Loc → String) (recover : Bool) (r : HResult α) :
    HM τ (Except ParseError α) := do
  let h ← HM.get
  return (r.read h).unwrap fmtLoc recover

end Reparsec.Heaped
