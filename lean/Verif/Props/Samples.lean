import Verif.Props.Run

/-!
# Small parsers used to show that hypotheses of the theorems are met

Also tests of the model: the kernel evaluates it on them.
-/

namespace Reparsec.Samples

open Reparsec

/-- A recursive grammar, `e = Delay(); e.define(sym("(") >> e << sym(")") | sym("x"))`, returning
the nesting depth. -/
def nestEnv : Env Char Unit (fun _ => Nat) := fun _ =>
  some (.alt (.map (.seqr (.sym '(' "'('") (.seql (.ref ()) (.sym ')' "')'"))) (· + 1))
    (.map (.sym 'x' "'x'") fun _ => 0))

/-- The grammar as a parser, up to the end of the input. -/
def nest : P Char Unit (fun _ => Nat) Nat := .seql (.ref ()) .eof

/-- No `Delay` objects. -/
def noEnv : Env Char Empty (fun _ => Unit) := fun i => i.elim

/-- `sym("a") + sym("b")` -/
def ab : P Char Empty (fun _ => Unit) (Char × Char) := .seq (.sym 'a' "'a'") (.sym 'b' "'b'")

/-- `sym("a").sep_by(sym(",")) << eof()` -/
def list : P Char Empty (fun _ => Unit) (List Char) :=
  .seql (.sepBy (.sym 'a' "'a'") (.sym ',' "','")) .eof

/-- A callback that raises. -/
def boom : P Char Empty (fun _ => Unit) Unit := .fmap (.sym 'a' "'a'") fun _ => .error (.user "boom")

/-- Left recursion: `e = Delay(); e.define(e.label("e"))`. -/
def loopEnv : Env Char Unit (fun _ => Unit) := fun _ => some (.label (.ref ()) "e")

/-- What `parse(..).unwrap(b)` gives, for tests. -/
def run {ρ : Type} {Γ : ρ → Type} {α : Type} (env : Env Char ρ Γ) (p : P Char ρ Γ α) (s : String)
    (recover : Bool) (b : Bool) (k : Int := 5) : Out (Except ParseError α) := do
  let r ← parse env 30 p s.toList recover k defaultGetLoc
  return r.unwrap defaultFmtLoc b

example : run nestEnv nest "((x))" false false = .ret (.ok 2) := rfl
example : run nestEnv nest "((x))" true false = .ret (.ok 2) := rfl
example : run nestEnv nest "((x)" false false
    = .ret (.error ⟨[⟨⟨4, 0, 0⟩, "4", ["')'"], none⟩]⟩) := rfl
example : run nestEnv nest "((x)" true false
    = .ret (.error ⟨[⟨⟨4, 0, 0⟩, "4", ["')'"], some (.insert "')'")⟩]⟩) := rfl
example : run nestEnv nest "((x)" true true = .ret (.ok 2) := rfl
example : run noEnv list "a,b,a" true true = .ret (.ok ['a', 'a']) := rfl
example : run noEnv boom "a" true true = .raise (.user "boom") := rfl

end Reparsec.Samples
