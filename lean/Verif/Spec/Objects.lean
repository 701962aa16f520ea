import Verif.Model.Heap
import Verif.Spec.Run

/-!
# Programs that use the library several times

A client program parses, unwraps results and maps functions over results, in any order and as
often as it likes; it keeps all results it gets.  What it can observe is what these calls return
or raise.  `heapSession` runs such a program against the model with objects on a heap, where
parsing assigns to attributes of objects; `pureSession` runs it against the model in which
results are values, so that no call can have an effect on a result it is not given.
-/

namespace Reparsec

variable {τ ρ : Type} {Γ : ρ → Type} {α β : Type}

/-- The objects below a result handle have been allocated. -/
def Heaped.HResult.Exists (h : Heaped.Heap τ) : Heaped.HResult α → Prop
  | .ok r => r.addr < h.nOks
  | .error e => e.addr < h.nFails
  | .recovered r => r.addr < h.nFails ∧
      ∀ rep ∈ r.repairs, rep.addr < h.nReps ∧ ∀ o ∈ rep.ops, o.addr < h.nOps

/-- A heap with nothing in it. -/
def Heaped.Heap.empty : Heaped.Heap τ :=
  ⟨0, fun _ => ⟨[], false⟩, 0, fun _ => ⟨none, initCtx fun l _ _ => l, [], false⟩,
    0, fun _ => ⟨initCtx fun l _ _ => l, [], false⟩, 0, fun _ => ⟨[], false⟩⟩

/-- A call made by the client program. Results are referred to by number, in the order in which
they were returned. (Python values all have one type, here `α`.) -/
inductive Call (τ ρ : Type) (Γ : ρ → Type) (α : Type) where
  /-- `p.parse(s, ..)` -/
  | parse (p : P τ ρ Γ α) (s : List τ) (o : Opts τ)
  /-- `results[k].unwrap(recover)` -/
  | unwrap (k : Nat) (recover : Bool)
  /-- `results[k].fmap(fn)` -/
  | fmap (k : Nat) (fn : α → Except Exn α)

/-- What the client program sees of a call. -/
inductive Observed (α : Type) where
  /-- a result object was returned -/
  | result
  /-- an exception was raised -/
  | raised (e : Exn)
  /-- the call did not return within the given number of steps -/
  | none
  /-- `unwrap` returned a value or raised a `ParseError` -/
  | unwrapped (x : Except ParseError α)

/-- The calls of a client program, with results as values. `fuel` is given to each call. -/
def pureSession [BEq τ] (env : Env τ ρ Γ) (fuel : Nat) (fmtLoc : Loc → String) :
    List (Call τ ρ Γ α) → List (Result τ α) → List (Observed α)
  | [], _ => []
  | c :: cs, rs =>
    match c with
    | .parse p s o =>
      match parse env fuel p s o.recover o.maxInsertions o.getLoc with
      | .ret r => .result :: pureSession env fuel fmtLoc cs (rs ++ [r])
      | .raise e => .raised e :: pureSession env fuel fmtLoc cs rs
      | .diverge => .none :: pureSession env fuel fmtLoc cs rs
    | .unwrap k b =>
      match rs[k]? with
      | some r => .unwrapped (r.unwrap fmtLoc b) :: pureSession env fuel fmtLoc cs rs
      | none => .none :: pureSession env fuel fmtLoc cs rs
    | .fmap k fn =>
      match rs[k]? with
      | some r =>
        match r.fmapM fn with
        | .ret r => .result :: pureSession env fuel fmtLoc cs (rs ++ [r])
        | .raise e => .raised e :: pureSession env fuel fmtLoc cs rs
        | .diverge => .none :: pureSession env fuel fmtLoc cs rs
      | none => .none :: pureSession env fuel fmtLoc cs rs

/-- The calls of a client program, with objects on a heap. -/
def heapSession [BEq τ] (env : Env τ ρ Γ) (fuel : Nat) (fmtLoc : Loc → String) :
    List (Call τ ρ Γ α) → List (Heaped.HResult α) → Heaped.Heap τ → List (Observed α)
  | [], _, _ => []
  | c :: cs, rs, h =>
    match c with
    | .parse p s o =>
      match Heaped.parse env fuel p s o.recover o.maxInsertions o.getLoc h with
      | (.ret r, h) => .result :: heapSession env fuel fmtLoc cs (rs ++ [r]) h
      | (.raise e, h) => .raised e :: heapSession env fuel fmtLoc cs rs h
      | (.diverge, h) => .none :: heapSession env fuel fmtLoc cs rs h
    | .unwrap k b =>
      match rs[k]? with
      | some r =>
        match Heaped.unwrap fmtLoc b r h with
        | (.ret x, h) => .unwrapped x :: heapSession env fuel fmtLoc cs rs h
        | (.raise e, h) => .raised e :: heapSession env fuel fmtLoc cs rs h
        | (.diverge, h) => .none :: heapSession env fuel fmtLoc cs rs h
      | none => .none :: heapSession env fuel fmtLoc cs rs h
    | .fmap k fn =>
      match rs[k]? with
      | some r =>
        match r.fmapM fn h with
        | (.ret r, h) => .result :: heapSession env fuel fmtLoc cs (rs ++ [r]) h
        | (.raise e, h) => .raised e :: heapSession env fuel fmtLoc cs rs h
        | (.diverge, h) => .none :: heapSession env fuel fmtLoc cs rs h
      | none => .none :: heapSession env fuel fmtLoc cs rs h

end Reparsec
