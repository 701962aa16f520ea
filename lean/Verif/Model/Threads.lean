import Verif.Model.Heap

/-!
# The same code, one access to an object at a time

`Model/Heap.lean` runs a parse from beginning to end. Here the same code is cut into *atomic steps*:
creating an object, reading one attribute of an object, assigning to one attribute. Between two steps of a
thread other threads may take steps, and a thread may be interrupted for good (an exception raised by a
signal handler, `KeyboardInterrupt`, `SystemExit`, a killed thread). `Spec/Threads.lean` defines such
executions.

The objects and their attributes are those of `Model/Heap.lean`. The functions are again those of
`core/result.py`, `core/repair.py`, `core/recovery.py`, `core/primitive.py`, `core/sequence.py`,
`core/scannerless.py`, `core/combinators.py`, `core/layout.py`, line by line. What is not an access to a
result object (arithmetic, comparing elements, calling callbacks, `get_loc`, building lists) belongs to
the next step: it has no effect on objects that others can see.
-/

namespace Reparsec.Thr

open Heaped (OpCell RepCell OkCell FailCell HOp HRepair HOk HErr HRecovered HSimple HResult)

variable {τ α β γ : Type}

/-- The classes of objects that are updated after they have been created: `OpItem`, `Repair`, `Ok`, and
`Error` together with `Recovered`. -/
inductive Cls where
  | op | rep | ok | fail
deriving DecidableEq

/-- Their attributes that are assigned to. -/
abbrev Cell (τ : Type) : Cls → Type
  | .op => OpCell
  | .rep => RepCell τ
  | .ok => OkCell τ
  | .fail => FailCell

/-- A piece of Python code, as a tree of atomic steps. -/
inductive Prog (τ : Type) (α : Type) where
  /-- it has returned -/
  | ret (a : α)
  /-- it has raised an exception -/
  | raise (e : Exn)
  /-- it has run out of fuel (as `diverge` in the other models) -/
  | diverge
  /-- create an object with these attributes, and go on with its address -/
  | new (c : Cls) (x : Cell τ c) (k : Nat → Prog τ α)
  /-- read (one of) the attributes of the object at an address -/
  | get (c : Cls) (a : Nat) (k : Cell τ c → Prog τ α)
  /-- assign to an attribute of the object at an address -/
  | set (c : Cls) (a : Nat) (f : Cell τ c → Cell τ c) (k : Prog τ α)

namespace Prog

/-- Sequencing. -/
protected def bind : Prog τ α → (α → Prog τ β) → Prog τ β
  | .ret a, f => f a
  | .raise e, _ => .raise e
  | .diverge, _ => .diverge
  | .new c x k, f => .new c x fun a => (k a).bind f
  | .get c a k, f => .get c a fun x => (k x).bind f
  | .set c a g k, f => .set c a g (k.bind f)

instance : Monad (Prog τ) where
  pure := .ret
  bind := Prog.bind

/-- Call a user callback, which may raise. -/
def ofExcept : Except Exn α → Prog τ α
  | .ok a => .ret a
  | .error e => .raise e

end Prog

/-! ### Reading an attribute -/

def opExpected (a : Nat) : Prog τ (List String) := .get .op a fun c => .ret c.expected
def opConsumed (a : Nat) : Prog τ Bool := .get .op a fun c => .ret c.consumed
def repPrio (a : Nat) : Prog τ (Option Nat) := .get .rep a fun c => .ret c.prio
def repCtx (a : Nat) : Prog τ (Ctx τ) := .get .rep a fun c => .ret c.ctx
def repExpected (a : Nat) : Prog τ (List String) := .get .rep a fun c => .ret c.expected
def repConsumed (a : Nat) : Prog τ Bool := .get .rep a fun c => .ret c.consumed
def okCtx (a : Nat) : Prog τ (Ctx τ) := .get .ok a fun c => .ret c.ctx
def okExpected (a : Nat) : Prog τ (List String) := .get .ok a fun c => .ret c.expected
def okConsumed (a : Nat) : Prog τ Bool := .get .ok a fun c => .ret c.consumed
def failExpected (a : Nat) : Prog τ (List String) := .get .fail a fun c => .ret c.expected
def failConsumed (a : Nat) : Prog τ Bool := .get .fail a fun c => .ret c.consumed

/-! ### Assigning to an attribute -/

def setOpExpected (a : Nat) (e : List String) : Prog τ Unit :=
  .set .op a (fun c => { c with expected := e }) (.ret ())
def setOpConsumed (a : Nat) (b : Bool) : Prog τ Unit :=
  .set .op a (fun c => { c with consumed := b }) (.ret ())
def setRepPrio (a : Nat) (p : Option Nat) : Prog τ Unit :=
  .set .rep a (fun c => { c with prio := p }) (.ret ())
def setRepCtx (a : Nat) (ctx : Ctx τ) : Prog τ Unit :=
  .set .rep a (fun c => { c with ctx := ctx }) (.ret ())
def setRepExpected (a : Nat) (e : List String) : Prog τ Unit :=
  .set .rep a (fun c => { c with expected := e }) (.ret ())
def setRepConsumed (a : Nat) (b : Bool) : Prog τ Unit :=
  .set .rep a (fun c => { c with consumed := b }) (.ret ())
def setOkCtx (a : Nat) (ctx : Ctx τ) : Prog τ Unit :=
  .set .ok a (fun c => { c with ctx := ctx }) (.ret ())
def setOkExpected (a : Nat) (e : List String) : Prog τ Unit :=
  .set .ok a (fun c => { c with expected := e }) (.ret ())
def setOkConsumed (a : Nat) (b : Bool) : Prog τ Unit :=
  .set .ok a (fun c => { c with consumed := b }) (.ret ())
def setFailExpected (a : Nat) (e : List String) : Prog τ Unit :=
  .set .fail a (fun c => { c with expected := e }) (.ret ())
def setFailConsumed (a : Nat) (b : Bool) : Prog τ Unit :=
  .set .fail a (fun c => { c with consumed := b }) (.ret ())

/-! ### Creating objects -/

/-- `OpItem(op, loc, expected, consumed)`, `core/repair.py:29-34`. -/
def newOp (op : RepairOp) (loc : Loc) (expected : List String) (consumed : Bool) : Prog τ HOp :=
  .new .op ⟨expected, consumed⟩ fun a => .ret ⟨a, op, loc⟩

/-- `Repair(cost, prio, ins, ops, value, pos, ctx, expected, consumed)`,
`core/repair.py:37-47`. -/
def newRepair (cost : Nat) (prio : Option Nat) (ins : Int) (ops : List HOp) (value : α)
    (pos : Nat) (ctx : Ctx τ) (expected : List String) (consumed : Bool) : Prog τ (HRepair α) :=
  .new .rep ⟨prio, ctx, expected, consumed⟩ fun a => .ret ⟨a, cost, ins, ops, value, pos⟩

/-- `Ok(value, pos, ctx, expected, consumed)`, `core/result.py:18-26`. -/
def newOk (value : α) (pos : Nat) (ctx : Ctx τ) (expected : List String := [])
    (consumed : Bool := false) : Prog τ (HOk α) :=
  .new .ok ⟨ctx, expected, consumed⟩ fun a => .ret ⟨a, value, pos⟩

/-- `Error(loc, expected, consumed)`, `core/result.py:58-64`. -/
def newErr (loc : Loc) (expected : List String := []) (consumed : Bool := false) : Prog τ HErr :=
  .new .fail ⟨expected, consumed⟩ fun a => .ret ⟨a, loc⟩

/-- `Recovered(repairs, min_prio, loc, expected, consumed)`, `core/result.py:93-101`. -/
def newRecovered (repairs : List (HRepair α)) (minPrio : Option Nat) (loc : Loc)
    (expected : List String := []) (consumed : Bool := false) : Prog τ (HRecovered α) :=
  .new .fail ⟨expected, consumed⟩ fun a => .ret ⟨a, repairs, minPrio, loc⟩

/-- Models `make_insert`, `core/repair.py:64-70`. -/
def makeInsert (rem : Int) (value : α) (pos : Nat) (ctx : Ctx τ) (loc : Loc) (label : String)
    (expected : List String := []) : Prog τ (HRepair α) := do
  let i ← newOp (.insert label) loc expected false
  newRepair 1 none (rem - 1) [i] value pos ctx [] true

/-- Models `make_user_insert`, `core/repair.py:73-79`. -/
def makeUserInsert (rem : Int) (value : α) (pos : Nat) (ctx : Ctx τ) (loc : Loc)
    (label : String) (expected : List String := []) : Prog τ (HRepair α) := do
  let i ← newOp (.insert label) loc expected false
  newRepair 1 (some 0) (rem - 1) [i] value pos ctx [] true

/-- Models `make_skip`, `core/repair.py:82-88`. -/
def makeSkip (ins : Int) (value : α) (pos : Nat) (ctx : Ctx τ) (loc : Loc) (skip : Nat)
    (expected : List String := []) : Prog τ (HRepair α) := do
  let i ← newOp (.skip skip) loc expected false
  newRepair skip (some 0) ins [i] value pos ctx [] true

/-- Models `make_pending_skip`, `core/repair.py:91-96`. -/
def makePendingSkip (ins : Int) (value : α) (pos : Nat) (ctx : Ctx τ) (loc : Loc) (skip : Nat)
    (expected : List String := []) : Prog τ (HRepair α) := do
  let i ← newOp (.skip skip) loc expected false
  newRepair skip (some 0) ins [i] value pos ctx [] false

/-! ### Updating objects -/

/-- Models `ops_set_expected`, `core/repair.py:50-53`. -/
def opsSetExpected (expected : List String) : List HOp → Prog τ Unit
  | [] => return ()
  | o :: os => do
    if ← opConsumed o.addr then
      opsSetExpected expected os
    else
      setOpExpected o.addr expected
      opsSetExpected expected os

/-- Models `ops_prepend_expected`, `core/repair.py:56-61`; `op.consumed |= consumed` is a read and an
assignment. -/
def opsPrependExpected (expected : List String) (consumed : Bool) : List HOp → Prog τ Unit
  | [] => return ()
  | o :: os => do
    if ← opConsumed o.addr then
      opsPrependExpected expected consumed os
    else
      setOpExpected o.addr (expected ++ (← opExpected o.addr))
      setOpConsumed o.addr ((← opConsumed o.addr) || consumed)
      opsPrependExpected expected consumed os

/-- The loop of `Recovered.set_ctx`, `core/result.py:124-125`. -/
def repsSetCtx (ctx : Ctx τ) : List (HRepair α) → Prog τ Unit
  | [] => return ()
  | r :: rs => do
    setRepCtx r.addr ctx
    repsSetCtx ctx rs

/-- Models `set_ctx` of `Ok` and `Error`, `core/result.py:38-40,74-75`. -/
def simpleSetCtx (ctx : Ctx τ) : HSimple α → Prog τ (HSimple α)
  | .ok r => do
    setOkCtx r.addr ctx
    return .ok r
  | .error e => return .error e

/-- Models `set_ctx`, `core/result.py:38-40,74-75,123-126`. -/
def resultSetCtx (ctx : Ctx τ) : HResult α → Prog τ (HResult α)
  | .ok r => do
    setOkCtx r.addr ctx
    return .ok r
  | .error e => return .error e
  | .recovered r => do
    repsSetCtx ctx r.repairs
    return .recovered r

/-- Models `Ok.set_expected`, `core/result.py:42-45`. -/
def okSetExpected (expected : List String) (r : HOk α) : Prog τ (HOk α) := do
  if ← okConsumed r.addr then return r
  else
    setOkExpected r.addr expected
    return r

/-- Models `Error.set_expected`, `core/result.py:77-80`, and `:129-130` of
`Recovered.set_expected`. -/
def failSetExpected (expected : List String) (a : Nat) : Prog τ Unit := do
  if ← failConsumed a then return ()
  else setFailExpected a expected

/-- The loop of `Recovered.set_expected`, `core/result.py:131-134`. -/
def repsSetExpected (expected : List String) : List (HRepair α) → Prog τ Unit
  | [] => return ()
  | r :: rs => do
    if ← repConsumed r.addr then
      opsSetExpected expected r.ops
      repsSetExpected expected rs
    else
      setRepExpected r.addr expected
      opsSetExpected expected r.ops
      repsSetExpected expected rs

/-- Models `Recovered.set_expected`, `core/result.py:128-135`. -/
def recoveredSetExpected (expected : List String) (r : HRecovered α) : Prog τ (HRecovered α) := do
  failSetExpected expected r.addr
  repsSetExpected expected r.repairs
  return r

/-- Models `set_expected`, `core/result.py:42-45,77-80`. -/
def simpleSetExpected (expected : List String) : HSimple α → Prog τ (HSimple α)
  | .ok r => do
    let r ← okSetExpected expected r
    return .ok r
  | .error e => do
    failSetExpected expected e.addr
    return .error e

/-- Models `set_expected`, `core/result.py:42-45,77-80,128-135`. -/
def resultSetExpected (expected : List String) : HResult α → Prog τ (HResult α)
  | .ok r => do
    let r ← okSetExpected expected r
    return .ok r
  | .error e => do
    failSetExpected expected e.addr
    return .error e
  | .recovered r => do
    let r ← recoveredSetExpected expected r
    return .recovered r

/-- Models `Ok.prepend_expected`, `core/result.py:47-52`. -/
def okPrependExpected (expected : List String) (consumed : Bool) (a : Nat) : Prog τ Unit := do
  if ← okConsumed a then return ()
  else
    setOkExpected a (expected ++ (← okExpected a))
    setOkConsumed a ((← okConsumed a) || consumed)

/-- Models `Error.prepend_expected`, `core/result.py:82-87`, and `:140-142` of
`Recovered.prepend_expected`. -/
def failPrependExpected (expected : List String) (consumed : Bool) (a : Nat) : Prog τ Unit := do
  if ← failConsumed a then return ()
  else
    setFailExpected a (expected ++ (← failExpected a))
    setFailConsumed a ((← failConsumed a) || consumed)

/-- The loop of `Recovered.prepend_expected`, `core/result.py:143-147`. -/
def repsPrependExpected (expected : List String) (consumed : Bool) :
    List (HRepair α) → Prog τ Unit
  | [] => return ()
  | r :: rs => do
    if ← repConsumed r.addr then
      opsPrependExpected expected consumed r.ops
      repsPrependExpected expected consumed rs
    else
      setRepExpected r.addr (expected ++ (← repExpected r.addr))
      setRepConsumed r.addr ((← repConsumed r.addr) || consumed)
      opsPrependExpected expected consumed r.ops
      repsPrependExpected expected consumed rs

/-- Models `prepend_expected`, `core/result.py:47-52,82-87`. -/
def simplePrependExpected (expected : List String) (consumed : Bool) :
    HSimple α → Prog τ (HSimple α)
  | .ok r => do
    okPrependExpected expected consumed r.addr
    return .ok r
  | .error e => do
    failPrependExpected expected consumed e.addr
    return .error e

/-- Models `prepend_expected`, `core/result.py:47-52,82-87,137-148`. -/
def resultPrependExpected (expected : List String) (consumed : Bool) :
    HResult α → Prog τ (HResult α)
  | .ok r => do
    okPrependExpected expected consumed r.addr
    return .ok r
  | .error e => do
    failPrependExpected expected consumed e.addr
    return .error e
  | .recovered r => do
    failPrependExpected expected consumed r.addr
    repsPrependExpected expected consumed r.repairs
    return .recovered r

/-! ### `fmap` -/

/-- Models `Ok.fmap`, `core/result.py:33-36`: a new object. -/
def okFmap (fn : α → Except Exn β) (r : HOk α) : Prog τ (HOk β) := do
  let v ← Prog.ofExcept (fn r.value)
  newOk v r.pos (← okCtx r.addr) (← okExpected r.addr) (← okConsumed r.addr)

/-- The comprehension body in `Recovered.fmap`, `core/result.py:114-117`; the list `r.ops` is
shared. -/
def repairFmap (fn : α → Except Exn β) (r : HRepair α) : Prog τ (HRepair β) := do
  let prio ← repPrio r.addr
  let v ← Prog.ofExcept (fn r.value)
  newRepair r.cost prio r.ins r.ops v r.pos (← repCtx r.addr) (← repExpected r.addr)
    (← repConsumed r.addr)

/-- The list comprehension in `Recovered.fmap`, `core/result.py:113-119`. -/
def repairsFmap (fn : α → Except Exn β) : List (HRepair α) → Prog τ (List (HRepair β))
  | [] => return []
  | r :: rs => do
    let r' ← repairFmap fn r
    let rs' ← repairsFmap fn rs
    return r' :: rs'

/-- Models `fmap` of `Ok` and `Error`, `core/result.py:33-36,71-72`. -/
def simpleFmap (fn : α → Except Exn β) : HSimple α → Prog τ (HSimple β)
  | .ok r => do
    let r' ← okFmap fn r
    return .ok r'
  | .error e => return .error e

/-- Models `fmap`, `core/result.py:33-36,71-72,111-121`. -/
def resultFmap (fn : α → Except Exn β) : HResult α → Prog τ (HResult β)
  | .ok r => do
    let r' ← okFmap fn r
    return .ok r'
  | .error e => return .error e
  | .recovered r => do
    let reps ← repairsFmap fn r.repairs
    let r' ← newRecovered reps r.minPrio r.loc (← failExpected r.addr) (← failConsumed r.addr)
    return .recovered r'

/-! ### `core/recovery.py` -/

/-- The list comprehension in `_join_ops`, `core/recovery.py:72`. -/
def copyOps : List HOp → Prog τ (List HOp)
  | [] => return []
  | i :: is => do
    let i' ← newOp i.op i.loc (← opExpected i.addr) (← opConsumed i.addr)
    let is' ← copyOps is
    return i' :: is'

/-- Models `_join_ops`, `core/recovery.py:71-75`. -/
def joinOps (rep : HRepair α) (repb : HRepair β) : Prog τ (List HOp) := do
  let ops ← copyOps rep.ops
  opsPrependExpected (← repExpected rep.addr) (← repConsumed rep.addr) repb.ops
  return ops ++ repb.ops

/-- Models `_append_expected`, `core/recovery.py:78-83`. -/
def appendExpected (ra : HRepair α) (expected : List String) (consumed : Bool) :
    Prog τ (List String) := do
  if consumed then return expected
  else return (← repExpected ra.addr) ++ expected

/-- The inner loop of `continue_parse`, `core/recovery.py:35-43`; `merge` does not raise. -/
def contInner (merge : α → β → γ) (r : HRepair α) :
    List (HRepair β) → Prog τ (List (HRepair γ))
  | [] => return []
  | rr :: rrs => do
    let prio ← repPrio r.addr
    let ops ← joinOps r rr
    let ctx ← repCtx rr.addr
    let expected ← appendExpected r (← repExpected rr.addr) (← repConsumed rr.addr)
    if ← repConsumed r.addr then
      let x ← newRepair (r.cost + rr.cost) prio rr.ins ops (merge r.value rr.value) rr.pos ctx
        expected true
      let xs ← contInner merge r rrs
      return x :: xs
    else
      let x ← newRepair (r.cost + rr.cost) prio rr.ins ops (merge r.value rr.value) rr.pos ctx
        expected (← repConsumed rr.addr)
      let xs ← contInner merge r rrs
      return x :: xs

/-- The loop body of `continue_parse`, `core/recovery.py:25-43`. -/
def contOne (ins : Int) (merge : α → β → γ) (r : HRepair α) :
    HResult β → Prog τ (List (HRepair γ))
  | .ok rb => do
    let prio ← repPrio r.addr
    let ctx ← okCtx rb.addr
    let expected ← appendExpected r (← okExpected rb.addr) (← okConsumed rb.addr)
    if ← repConsumed r.addr then
      let x ← newRepair r.cost prio (if r.pos = rb.pos then r.ins else ins) r.ops
        (merge r.value rb.value) rb.pos ctx expected true
      return [x]
    else
      let x ← newRepair r.cost prio (if r.pos = rb.pos then r.ins else ins) r.ops
        (merge r.value rb.value) rb.pos ctx expected (← okConsumed rb.addr)
      return [x]
  | .error _ => return []
  | .recovered rb => contInner merge r rb.repairs

/-- The loop of `continue_parse`, `core/recovery.py:22-43`. -/
def contReps (ins : Int) (parse : α → Nat → Ctx τ → Int → Prog τ (HResult β))
    (merge : α → β → γ) : List (HRepair α) → Prog τ (List (HRepair γ))
  | [] => return []
  | r :: rs => do
    let rb ← parse r.value r.pos (← repCtx r.addr) r.ins
    let xs ← contOne ins merge r rb
    let rest ← contReps ins parse merge rs
    return xs ++ rest

/-- Models `continue_parse`, `core/recovery.py:18-45`. -/
def continueParse (ra : HRecovered α) (ins : Int)
    (parse : α → Nat → Ctx τ → Int → Prog τ (HResult β)) (merge : α → β → γ) :
    Prog τ (HResult γ) := do
  let reps ← contReps ins parse merge ra.repairs
  let r ← newRecovered reps ra.minPrio ra.loc (← failExpected ra.addr) (← failConsumed ra.addr)
  return .recovered r

/-- `(r for r in rb.repairs if r.prio is not None and r.prio < min_prio)`, `core/recovery.py:54`:
`r.prio` is read once or twice. -/
def filterBelow (m : Nat) : List (HRepair α) → Prog τ (List (HRepair α))
  | [] => return []
  | r :: rs => do
    match ← repPrio r.addr with
    | none => filterBelow m rs
    | some _ =>
      match ← repPrio r.addr with
      | none => filterBelow m rs
      | some p =>
        if p < m then
          let rest ← filterBelow m rs
          return r :: rest
        else filterBelow m rs

/-- `(r for r in rb.repairs if r.prio is not None)`, `core/recovery.py:59`. -/
def filterSome : List (HRepair α) → Prog τ (List (HRepair α))
  | [] => return []
  | r :: rs => do
    match ← repPrio r.addr with
    | none => filterSome rs
    | some _ =>
      let rest ← filterSome rs
      return r :: rest

/-- `reps` in `join_repairs`, `core/recovery.py:50-59`. -/
def joinReps (ra rb : HRecovered α) : Prog τ (List (HRepair α)) := do
  match ra.minPrio with
  | some m =>
    let rest ← filterBelow m rb.repairs
    return ra.repairs ++ rest
  | none =>
    let rest ← filterSome rb.repairs
    return ra.repairs ++ rest

/-- Models `join_repairs`, `core/recovery.py:48-68`. (`ra.consumed or rb.consumed` at `:67` reads
`rb.consumed` only if the first is false, which it is.) -/
def joinRepairs (ra rb : HRecovered α) : Prog τ (HRecovered α) := do
  let reps ← joinReps ra rb
  let minPrio := Heaped.joinMinPrio ra rb
  if ← failConsumed ra.addr then
    newRecovered reps minPrio ra.loc (← failExpected ra.addr) true
  else if ← failConsumed rb.addr then
    newRecovered reps minPrio rb.loc (← failExpected rb.addr) true
  else
    newRecovered reps minPrio ra.loc ((← failExpected ra.addr) ++ (← failExpected rb.addr))
      ((← failConsumed ra.addr) || (← failConsumed rb.addr))

/-! ### Parsing functions -/

/-- Models `ParseFastFn`, `core/parser.py:14-17`. -/
abbrev TFastFn (τ α : Type) := List τ → Nat → Ctx τ → Prog τ (HSimple α)

/-- Models `ParseFn`, `core/parser.py:18-21`. -/
abbrev TFn (τ α : Type) := List τ → Nat → Ctx τ → Int → Option Int → Prog τ (HResult α)

/-- Models `ParseFns`, `core/parser.py:24-29`. -/
structure TFns (τ α : Type) where
  fast : TFastFn τ α
  fn : TFn τ α

/-- `return Ok(...)` from a `ParseFastFn`. -/
def retOkS (value : α) (pos : Nat) (ctx : Ctx τ) (expected : List String := [])
    (consumed : Bool := false) : Prog τ (HSimple α) := do
  let r ← newOk value pos ctx expected consumed
  return .ok r

/-- `return Error(...)` from a `ParseFastFn`. -/
def retErrS (loc : Loc) (expected : List String := []) : Prog τ (HSimple α) := do
  let e ← newErr loc expected
  return .error e

/-- `return Ok(...)` from a `ParseFn`. -/
def retOk (value : α) (pos : Nat) (ctx : Ctx τ) (expected : List String := [])
    (consumed : Bool := false) : Prog τ (HResult α) := do
  let r ← newOk value pos ctx expected consumed
  return .ok r

/-- `return Error(...)` from a `ParseFn`. -/
def retErr (loc : Loc) (expected : List String := []) : Prog τ (HResult α) := do
  let e ← newErr loc expected
  return .error e

/-- `return Recovered(...)` from a `ParseFn`. -/
def retRec (repairs : List (HRepair α)) (minPrio : Option Nat) (loc : Loc)
    (expected : List String := []) : Prog τ (HResult α) := do
  let r ← newRecovered repairs minPrio loc expected
  return .recovered r

/-! ### `core/primitive.py` -/

/-- Models `Pure`, `core/primitive.py:11-23`. -/
def pureFns (x : α) : TFns τ α where
  fast _ pos ctx := retOkS x pos ctx
  fn _ pos ctx _ _ := retOk x pos ctx

/-- Models `PureFn`, `core/primitive.py:26-38`. -/
def pureFnFns (x : Except Exn α) : TFns τ α where
  fast _ pos ctx := do
    let v ← Prog.ofExcept x
    retOkS v pos ctx
  fn _ pos ctx _ _ := do
    let v ← Prog.ofExcept x
    retOk v pos ctx

/-- Models `unexpected`, `core/primitive.py:41-60`. -/
def unexpectedFns (expected : String) : TFns τ Unit where
  fast stream pos ctx := retErrS (ctx.getLoc stream pos) [expected]
  fn stream pos ctx _ _ := retErr (ctx.getLoc stream pos) [expected]

/-! ### `core/sequence.py` -/

/-- Models `eof`, `core/sequence.py:11-44`. -/
def eofFns : TFns τ Unit where
  fast stream pos ctx :=
    if pos = stream.length then retOkS () pos ctx
    else retErrS (ctx.getLoc stream pos) ["end of file"]
  fn stream pos ctx ins rem :=
    if pos = stream.length then retOk () pos ctx
    else match rem with
      | none => retErr (ctx.getLoc stream pos) ["end of file"]
      | some _ => do
        let loc := ctx.getLoc stream pos
        let sl := stream.length
        let x ← makePendingSkip ins () sl ctx loc (sl - pos) ["end of file"]
        retRec [x] none loc ["end of file"]

/-- Models `satisfy`, `core/sequence.py:47-90`. -/
def satisfyFns (test : τ → Except Exn Bool) : TFns τ τ where
  fast stream pos ctx := do
    match ← Prog.ofExcept (testAt test stream pos) with
    | some t => retOkS t (pos + 1) ctx [] true
    | none => retErrS (ctx.getLoc stream pos)
  fn stream pos ctx ins rem := do
    match ← Prog.ofExcept (testAt test stream pos) with
    | some t => retOk t (pos + 1) ctx [] true
    | none =>
      match rem with
      | none => retErr (ctx.getLoc stream pos)
      | some _ =>
        let loc := ctx.getLoc stream pos
        match ← Prog.ofExcept
            (scan (testAt test stream) (stream.length - (pos + 1)) (pos + 1)) with
        | some (cur, t) =>
          let x ← makeSkip ins t (cur + 1) (ctx.updateLoc stream (cur + 1)) loc (cur - pos)
          retRec [x] (some (cur - pos)) loc
        | none => retErr loc

/-- The list `reps` of `core/sequence.py:116-118`, `core/scannerless.py:49-51`. -/
def insertReps (rem : Int) (value : α) (pos : Nat) (ctx : Ctx τ) (loc : Loc) (label : String)
    (expected : List String) : Prog τ (List (HRepair α)) :=
  if rem ≠ 0 then do
    let x ← makeInsert rem value pos ctx loc label expected
    return [x]
  else return []

/-- Models `sym`, `core/sequence.py:93-144`. -/
def symFns [BEq τ] (s : τ) (label : String) : TFns τ τ where
  fast stream pos ctx :=
    match symAt s stream pos with
    | some t => retOkS t (pos + 1) ctx [] true
    | none => retErrS (ctx.getLoc stream pos) [label]
  fn stream pos ctx ins rem :=
    match symAt s stream pos with
    | some t => retOk t (pos + 1) ctx [] true
    | none =>
      match rem with
      | none => retErr (ctx.getLoc stream pos) [label]
      | some rem => do
        let loc := ctx.getLoc stream pos
        let reps ← insertReps rem s pos ctx loc label [label]
        match ← Prog.ofExcept (scan (fun cur => .ok (symAt s stream cur))
            (stream.length - (pos + 1)) (pos + 1)) with
        | some (cur, t) =>
          let x ← makeSkip ins t (cur + 1) (ctx.updateLoc stream (cur + 1)) loc (cur - pos)
            [label]
          retRec (reps ++ [x]) (some (cur - pos)) loc [label]
        | none => retRec reps none loc [label]

/-! ### `core/scannerless.py` -/

/-- Models `literal`, `core/scannerless.py:23-72`. -/
def literalFns [BEq τ] (s : List τ) (ss : String) : TFns τ (List τ) where
  fast stream pos ctx :=
    if startsWith s stream pos then
      retOkS s (pos + s.length) (ctx.updateLoc stream (pos + s.length)) [] true
    else retErrS (ctx.getLoc stream pos) [ss]
  fn stream pos ctx ins rem :=
    if startsWith s stream pos then
      retOk s (pos + s.length) (ctx.updateLoc stream (pos + s.length)) [] true
    else match rem with
      | none => retErr (ctx.getLoc stream pos) [ss]
      | some rem => do
        let loc := ctx.getLoc stream pos
        let reps ← insertReps rem s pos ctx loc ss [ss]
        match ← Prog.ofExcept (scan
            (fun cur => .ok (if startsWith s stream cur then some () else none))
            (stream.length - (pos + 1)) (pos + 1)) with
        | some (cur, _) =>
          let x ← makeSkip ins s (cur + s.length) (ctx.updateLoc stream (cur + s.length)) loc
            (cur - pos) [ss]
          retRec (reps ++ [x]) (some (cur - pos)) loc [ss]
        | none => retRec reps none loc [ss]

/-- Models `regexp`, `core/scannerless.py:75-129`. -/
def regexpFns (m : Matcher τ β) : TFns τ β where
  fast stream pos ctx := do
    match ← Prog.ofExcept (m.at stream pos) with
    | some (e, v) => retOkS v e (ctx.updateLoc stream e) [] (decide (e ≠ pos))
    | none => retErrS (ctx.getLoc stream pos)
  fn stream pos ctx ins rem := do
    match ← Prog.ofExcept (m.at stream pos) with
    | some (e, v) => retOk v e (ctx.updateLoc stream e) [] (decide (e ≠ pos))
    | none =>
      match rem with
      | none => retErr (ctx.getLoc stream pos)
      | some _ =>
        let loc := ctx.getLoc stream pos
        match ← Prog.ofExcept
            (scan (m.at stream) (stream.length - (pos + 1)) (pos + 1)) with
        | some (cur, (e, v)) =>
          let x ← makeSkip ins v e (ctx.updateLoc stream e) loc (cur - pos)
          retRec [x] (some (cur - pos)) loc
        | none => retErr loc

/-! ### `core/combinators.py` -/

/-- Models `fmap`, `core/combinators.py:16-37`. -/
def fmapFns (p : TFns τ α) (fn : α → Except Exn β) : TFns τ β where
  fast stream pos ctx := do
    let r ← p.fast stream pos ctx
    simpleFmap fn r
  fn stream pos ctx ins rem := do
    let r ← p.fn stream pos ctx ins rem
    resultFmap fn r

/-- Models `_alt_fast`, `core/combinators.py:40-58`. -/
def altFast (p q : TFns τ α) : TFastFn τ α := fun stream pos ctx => do
  match ← p.fast stream pos ctx with
  | .ok ra => return .ok ra
  | .error ea =>
    if ← failConsumed ea.addr then return .error ea
    else
      match ← q.fast stream pos ctx with
      | .ok rb =>
        if ← okConsumed rb.addr then return .ok rb
        else
          let rb ← okSetExpected ((← failExpected ea.addr) ++ (← okExpected rb.addr)) rb
          return .ok rb
      | .error eb =>
        if ← failConsumed eb.addr then return .error eb
        else retErrS ea.loc ((← failExpected ea.addr) ++ (← failExpected eb.addr))

/-- Models lines 79-88 of `_alt`, `core/combinators.py`. -/
def altRecover (p q : TFns τ α) (stream : List τ) (pos : Nat) (ctx : Ctx τ) (ins : Int)
    (rem : Option Int) (loc : Loc) (expected : List String) : Prog τ (HResult α) :=
  match rem with
  | none => retErr loc expected
  | some rem => do
    let rra ← p.fn stream pos ctx ins (some rem)
    let rrb ← q.fn stream pos ctx ins (some rem)
    match rra, rrb with
    | .recovered rra, .recovered rrb =>
      let r ← joinRepairs rra rrb
      let r ← recoveredSetExpected expected r
      return .recovered r
    | .recovered rra, _ =>
      let r ← recoveredSetExpected expected rra
      return .recovered r
    | _, .recovered rrb =>
      let r ← recoveredSetExpected expected rrb
      return .recovered r
    | _, _ => retErr loc expected

/-- Models lines 73-78 of `_alt`, `core/combinators.py`. -/
def altSecond (p q : TFns τ α) (stream : List τ) (pos : Nat) (ctx : Ctx τ) (ins : Int)
    (rem : Option Int) (loc : Loc) (addr : Nat) : Prog τ (HResult α) := do
  match ← q.fn stream pos ctx ins none with
  | .ok rb =>
    if ← okConsumed rb.addr then return .ok rb
    else
      let rb ← okSetExpected ((← failExpected addr) ++ (← okExpected rb.addr)) rb
      return .ok rb
  | .error eb =>
    if ← failConsumed eb.addr then return .error eb
    else
      let expected := (← failExpected addr) ++ (← failExpected eb.addr)
      altRecover p q stream pos ctx ins rem loc expected
  | .recovered rb =>
    if ← failConsumed rb.addr then return .recovered rb
    else
      let expected := (← failExpected addr) ++ (← failExpected rb.addr)
      altRecover p q stream pos ctx ins rem loc expected

/-- Models `_alt`, `core/combinators.py:61-90`. -/
def altFn (p q : TFns τ α) : TFn τ α := fun stream pos ctx ins rem => do
  match ← p.fn stream pos ctx ins none with
  | .ok ra => return .ok ra
  | .error ea =>
    if ← failConsumed ea.addr then return .error ea
    else altSecond p q stream pos ctx ins rem ea.loc ea.addr
  | .recovered ra =>
    if ← failConsumed ra.addr then return .recovered ra
    else altSecond p q stream pos ctx ins rem ra.loc ra.addr

/-- Models `alt`, `core/combinators.py:93-99`. -/
def altFns (p q : TFns τ α) : TFns τ α := ⟨altFast p q, altFn p q⟩

/-- Models `_bind_fast`, `core/combinators.py:102-115`. -/
def bindFast (p : TFns τ α) (fn : α → TFns τ β) : TFastFn τ β := fun stream pos ctx => do
  match ← p.fast stream pos ctx with
  | .error e => return .error e
  | .ok ra =>
    let rb ← (fn ra.value).fast stream ra.pos (← okCtx ra.addr)
    simplePrependExpected (← okExpected ra.addr) (← okConsumed ra.addr) rb

/-- Models `_bind`, `core/combinators.py:118-143`. -/
def bindFn (p : TFns τ α) (fn : α → TFns τ β) : TFn τ β := fun stream pos ctx ins rem => do
  match ← p.fn stream pos ctx ins rem with
  | .error e => return .error e
  | .recovered ra =>
    continueParse ra ins (fun v p c r => (fn v).fn stream p c ins (some r)) (fun _ v => v)
  | .ok ra =>
    if ← okConsumed ra.addr then
      let rb ← (fn ra.value).fn stream ra.pos (← okCtx ra.addr) ins (some ins)
      resultPrependExpected (← okExpected ra.addr) (← okConsumed ra.addr) rb
    else
      let rb ← (fn ra.value).fn stream ra.pos (← okCtx ra.addr) ins rem
      resultPrependExpected (← okExpected ra.addr) (← okConsumed ra.addr) rb

/-- Models `bind`, `core/combinators.py:146-149`. -/
def bindFns (p : TFns τ α) (fn : α → TFns τ β) : TFns τ β := ⟨bindFast p fn, bindFn p fn⟩

/-- Models `_seq_h_fast`, `core/combinators.py:152-169`. -/
def seqFast (p : TFns τ α) (q : TFns τ β) (merge : α → β → γ) : TFastFn τ γ :=
  fun stream pos ctx => do
  match ← p.fast stream pos ctx with
  | .error e => return .error e
  | .ok ra =>
    let va := ra.value
    let rb ← q.fast stream ra.pos (← okCtx ra.addr)
    let rc ← simpleFmap (fun vb => .ok (merge va vb)) rb
    simplePrependExpected (← okExpected ra.addr) (← okConsumed ra.addr) rc

/-- Models `_seq_h`, `core/combinators.py:172-196`. -/
def seqFn (p : TFns τ α) (q : TFns τ β) (merge : α → β → γ) : TFn τ γ :=
  fun stream pos ctx ins rem => do
  match ← p.fn stream pos ctx ins rem with
  | .error e => return .error e
  | .recovered ra =>
    continueParse ra ins (fun _ p c r => q.fn stream p c ins (some r)) merge
  | .ok ra =>
    let va := ra.value
    let c ← okCtx ra.addr
    let consumed ← okConsumed ra.addr
    let rb ← q.fn stream ra.pos c ins (if consumed then some ins else rem)
    let rc ← resultFmap (fun vb => .ok (merge va vb)) rb
    resultPrependExpected (← okExpected ra.addr) (← okConsumed ra.addr) rc

/-- Models `_seq`, `core/combinators.py:199-205`. -/
def seqFns (p : TFns τ α) (q : TFns τ β) (merge : α → β → γ) : TFns τ γ :=
  ⟨seqFast p q merge, seqFn p q merge⟩

/-- Models `maybe`, `core/combinators.py:293-321`. -/
def maybeFns (p : TFns τ α) : TFns τ (Option α) where
  fast stream pos ctx := do
    match ← p.fast stream pos ctx with
    | .ok r => return .ok r.asOption
    | .error e =>
      if ← failConsumed e.addr then return .error e
      else retOkS none pos ctx (← failExpected e.addr)
  fn stream pos ctx ins _rem := do
    match ← p.fn stream pos ctx ins none with
    | .ok r => return .ok r.asOption
    | .error e =>
      if ← failConsumed e.addr then return .error e
      else retOk none pos ctx (← failExpected e.addr)
    | .recovered r =>
      if ← failConsumed r.addr then return .recovered r.asOption
      else retOk none pos ctx (← failExpected r.addr)

/-- The loop of `_many_fast`, `core/combinators.py:327-341`. -/
def manyFastLoop (p : TFastFn τ α) (stream : List τ) :
    (fuel : Nat) → Nat → Ctx τ → Bool → List α → Prog τ (HSimple (List α))
  | 0, _, _, _, _ => .diverge
  | fuel + 1, pos, ctx, consumed, value => do
    match ← p stream pos ctx with
    | .ok r =>
      if ← okConsumed r.addr then
        manyFastLoop p stream fuel r.pos (← okCtx r.addr) true (value ++ [r.value])
      else .raise manyExn
    | .error e =>
      if ← failConsumed e.addr then return .error e
      else retOkS value pos ctx (← failExpected e.addr) consumed

/-- The loop of `_many`, `core/combinators.py:349-370`. -/
def manyLoop (p : TFn τ α) (stream : List τ) (ins : Int) :
    (fuel : Nat) → Nat → Ctx τ → Bool → List α → Prog τ (HResult (List α))
  | 0, _, _, _, _ => .diverge
  | fuel + 1, pos, ctx, consumed, value => do
    match ← p stream pos ctx ins none with
    | .ok r =>
      if ← okConsumed r.addr then
        manyLoop p stream ins fuel r.pos (← okCtx r.addr) true (value ++ [r.value])
      else .raise manyExn
    | .recovered r =>
      continueParse r ins (fun _ p' c _ => manyLoop p stream ins fuel p' c false [])
        (fun a b => value ++ a :: b)
    | .error e =>
      if ← failConsumed e.addr then return .error e
      else retOk value pos ctx (← failExpected e.addr) consumed

/-- Models `many`, `core/combinators.py:375-376`. -/
def manyFns (fuel : Nat) (p : TFns τ α) : TFns τ (List α) where
  fast stream pos ctx := manyFastLoop p.fast stream fuel pos ctx false []
  fn stream pos ctx ins _rem := manyLoop p.fn stream ins fuel pos ctx false []

/-- Models `attempt`, `core/combinators.py:379-409`. -/
def attemptFns (p : TFns τ α) : TFns τ α where
  fast stream pos ctx := do
    match ← p.fast stream pos ctx with
    | .error e => retErrS e.loc (← failExpected e.addr)
    | .ok r => return .ok r
  fn stream pos ctx ins rem :=
    match rem with
    | some rem => p.fn stream pos ctx ins (some rem)
    | none => do
      match ← p.fast stream pos ctx with
      | .error e => retErr e.loc (← failExpected e.addr)
      | .ok r => return .ok r

/-- Models `label`, `core/combinators.py:412-440`. -/
def labelFns (p : TFns τ α) (x : String) : TFns τ α where
  fast stream pos ctx := do
    let r ← p.fast stream pos ctx
    simpleSetExpected [x] r
  fn stream pos ctx ins rem := do
    let r ← p.fn stream pos ctx ins rem
    resultSetExpected [x] r

/-- The loop of `_recover`, `core/combinators.py:455-457`. -/
def promoteReps : List (HRepair α) → Prog τ Unit
  | [] => return ()
  | r :: rs => do
    match ← repPrio r.addr with
    | none =>
      setRepPrio r.addr (some 0)
      promoteReps rs
    | some _ => promoteReps rs

/-- Models `recover`, `core/combinators.py:443-464`. -/
def recoverFns (p : TFns τ α) : TFns τ α where
  fast := p.fast
  fn stream pos ctx ins rem := do
    match ← p.fn stream pos ctx ins rem with
    | .recovered r =>
      promoteReps r.repairs
      return .recovered r
    | .ok r => return .ok r
    | .error e => return .error e

/-- Models `recover_with`, `core/combinators.py:467-502`. -/
def recoverWithFns (p : TFns τ α) (x : α) (vs : String) : TFns τ α where
  fast := p.fast
  fn stream pos ctx ins rem :=
    match rem with
    | none => p.fn stream pos ctx ins none
    | some rem => do
      match ← p.fn stream pos ctx ins (some rem) with
      | .ok r => return .ok r
      | .error e =>
        if ← failConsumed e.addr then return .error e
        else if rem ≠ 0 then
          let loc := ctx.getLoc stream pos
          let rep ← makeUserInsert rem x pos ctx loc vs (← failExpected e.addr)
          retRec [rep] none loc
        else return .error e
      | .recovered r =>
        if ← failConsumed r.addr then return .recovered r
        else if rem ≠ 0 then
          let loc := ctx.getLoc stream pos
          let rep ← makeUserInsert rem x pos ctx loc vs (← failExpected r.addr)
          retRec (rep :: r.repairs) r.minPrio loc (← failExpected r.addr)
        else return .recovered r

/-- Models `recover_with_fn`, `core/combinators.py:505-543`. -/
def recoverWithFnFns (p : TFns τ α) (fn : List τ → Nat → Except Exn α) (lbl : α → String) :
    TFns τ α where
  fast := p.fast
  fn stream pos ctx ins rem :=
    match rem with
    | none => p.fn stream pos ctx ins none
    | some rem => do
      match ← p.fn stream pos ctx ins (some rem) with
      | .ok r => return .ok r
      | .error e =>
        if ← failConsumed e.addr then return .error e
        else if rem ≠ 0 then
          let x ← Prog.ofExcept (fn stream pos)
          let loc := ctx.getLoc stream pos
          let rep ← makeUserInsert rem x pos ctx loc (lbl x) (← failExpected e.addr)
          retRec [rep] none loc
        else return .error e
      | .recovered r =>
        if ← failConsumed r.addr then return .recovered r
        else if rem ≠ 0 then
          let x ← Prog.ofExcept (fn stream pos)
          let loc := ctx.getLoc stream pos
          let rep ← makeUserInsert rem x pos ctx loc (lbl x) (← failExpected r.addr)
          retRec (rep :: r.repairs) r.minPrio loc (← failExpected r.addr)
        else return .recovered r

/-! ### `core/layout.py` -/

/-- Models `block`, `core/layout.py:12-37`. -/
def blockFns (p : TFns τ α) : TFns τ α where
  fast stream pos ctx := do
    let ctx := ctx.updateLoc stream pos
    let r ← p.fast stream pos (ctx.setMark ctx.loc.col)
    simpleSetCtx ctx r
  fn stream pos ctx ins rem := do
    let ctx := ctx.updateLoc stream pos
    let r ← p.fn stream pos (ctx.setMark ctx.loc.col) ins rem
    resultSetCtx ctx r

/-- Models `aligned`, `core/layout.py:40-67`. -/
def alignedFns (p : TFns τ α) : TFns τ α where
  fast stream pos ctx :=
    let ctx := ctx.updateLoc stream pos
    if ctx.mark = ctx.loc.col then p.fast stream pos ctx
    else retErrS ctx.loc ["indentation"]
  fn stream pos ctx ins rem :=
    let ctx := ctx.updateLoc stream pos
    if ctx.mark = ctx.loc.col then p.fn stream pos ctx ins rem
    else retErr ctx.loc ["indentation"]

/-- Models `indented`, `core/layout.py:70-104`. -/
def indentedFns (delta : Int) (p : TFns τ α) : TFns τ α where
  fast stream pos ctx :=
    let ctx := ctx.updateLoc stream pos
    let level := ctx.loc.col
    if (ctx.mark : Int) + delta = level then do
      let r ← p.fast stream pos (ctx.setMark level)
      simpleSetCtx ctx r
    else retErrS ctx.loc ["indentation"]
  fn stream pos ctx ins rem :=
    let ctx := ctx.updateLoc stream pos
    let level := ctx.loc.col
    if (ctx.mark : Int) + delta = level then do
      let r ← p.fn stream pos (ctx.setMark level) ins rem
      resultSetCtx ctx r
    else retErr ctx.loc ["indentation"]

/-! ### Parser objects -/

variable {ρ : Type} {Γ : ρ → Type}

/-- Running out of fuel. -/
def divergeFns : TFns τ α := ⟨fun _ _ _ => .diverge, fun _ _ _ _ _ => .diverge⟩

/-- The functions of a `Delay` object that has not been defined, `parser.py:755-766`. -/
def undefinedFns : TFns τ α :=
  ⟨fun _ _ _ => .raise undefinedExn, fun _ _ _ _ _ => .raise undefinedExn⟩

/-- The functions of a parser object, as `denoteWith` in `Model/Parser.lean`. -/
def denoteWith [BEq τ] (fuel : Nat) (tbl : (i : ρ) → TFns τ (Γ i)) :
    {α : Type} → P τ ρ Γ α → TFns τ α
  | _, .pure x => pureFns x
  | _, .pureFn x => pureFnFns x
  | _, .unexpected x => unexpectedFns x
  | _, .eof => eofFns
  | _, .satisfy test => satisfyFns test
  | _, .sym s l => symFns s l
  | _, .literal s ss _ => literalFns s ss
  | _, .regexp m => regexpFns m
  | _, .fmap p fn => fmapFns (denoteWith fuel tbl p) fn
  | _, .alt p q => altFns (denoteWith fuel tbl p) (denoteWith fuel tbl q)
  | _, .bind p fn => bindFns (denoteWith fuel tbl p) (fun a => denoteWith fuel tbl (fn a))
  | _, .seqWith p q merge => seqFns (denoteWith fuel tbl p) (denoteWith fuel tbl q) merge
  | _, .maybe p => maybeFns (denoteWith fuel tbl p)
  | _, .many p => manyFns fuel (denoteWith fuel tbl p)
  | _, .attempt p => attemptFns (denoteWith fuel tbl p)
  | _, .label p x => labelFns (denoteWith fuel tbl p) x
  | _, .recover p => recoverFns (denoteWith fuel tbl p)
  | _, .recoverWith p x vs => recoverWithFns (denoteWith fuel tbl p) x vs
  | _, .recoverWithFn p fn lbl => recoverWithFnFns (denoteWith fuel tbl p) fn lbl
  | _, .block p => blockFns (denoteWith fuel tbl p)
  | _, .aligned p => alignedFns (denoteWith fuel tbl p)
  | _, .indented delta p => indentedFns delta (denoteWith fuel tbl p)
  | _, .ref i => tbl i

/-- The functions of the `Delay` objects, `parser.py:793-806`: they have been defined (or not) before the
threads start, `define` is not called while they run. -/
def table [BEq τ] (env : Env τ ρ Γ) : (fuel : Nat) → (i : ρ) → TFns τ (Γ i)
  | 0, _ => divergeFns
  | fuel + 1, i =>
    match env i with
    | none => undefinedFns
    | some p => denoteWith fuel (table env fuel) p

/-- The two functions of a parser object (`to_fns`). -/
def denote [BEq τ] (env : Env τ ρ Γ) (fuel : Nat) (p : P τ ρ Γ α) : TFns τ α :=
  denoteWith fuel (table env fuel) p

/-- Models `Parser.parse`, `parser.py:30-55`. -/
def parse [BEq τ] (env : Env τ ρ Γ) (fuel : Nat) (p : P τ ρ Γ α) (stream : List τ)
    (recover : Bool) (maxInsertions : Int) (getLoc : Loc → List τ → Nat → Loc) :
    Prog τ (HResult α) :=
  if recover then
    (denote env fuel p).fn stream 0 (initCtx getLoc) maxInsertions (some maxInsertions)
  else do
    let r ← (denote env fuel p).fast stream 0 (initCtx getLoc)
    return r.toResult

end Reparsec.Thr
