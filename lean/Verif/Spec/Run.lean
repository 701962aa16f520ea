import Verif.Model.Lexer

/-!
# Running a parser, without mentioning fuel

`Returns`, `Raises` and `Hangs` are the three things a call of `parse` can do.  Exactly one of
them holds (`Props/Run.lean`).
-/

namespace Reparsec

variable {τ ρ : Type} {Γ : ρ → Type} {α : Type} [BEq τ]

/-- The arguments of `Parser.parse` besides the stream (`parser.py:30-35`). -/
structure Opts (τ : Type) where
  recover : Bool
  maxInsertions : Int := 5
  getLoc : Loc → List τ → Nat → Loc

/-- `p.parse(s, ..)` returns `r`. -/
def Returns (env : Env τ ρ Γ) (p : P τ ρ Γ α) (s : List τ) (o : Opts τ) (r : Result τ α) : Prop :=
  ∃ fuel, parse env fuel p s o.recover o.maxInsertions o.getLoc = .ret r

/-- `p.parse(s, ..)` raises `e`. -/
def Raises (env : Env τ ρ Γ) (p : P τ ρ Γ α) (s : List τ) (o : Opts τ) (e : Exn) : Prop :=
  ∃ fuel, parse env fuel p s o.recover o.maxInsertions o.getLoc = .raise e

/-- `p.parse(s, ..)` does not return. (In Python: a `RecursionError`, or running forever.) -/
def Hangs (env : Env τ ρ Γ) (p : P τ ρ Γ α) (s : List τ) (o : Opts τ) : Prop :=
  ∀ fuel, parse env fuel p s o.recover o.maxInsertions o.getLoc = .diverge

/-- What a computation, given as its results for each amount of fuel, does in the end. -/
def Yields {β : Type} (f : Nat → Out β) : Out β → Prop
  | .diverge => ∀ n, f n = .diverge
  | .raise e => ∃ n, f n = .raise e
  | .ret a => ∃ n, f n = .ret a

/-- The same outcome, with a returned value changed by `f`. -/
def Out.map {β γ : Type} (f : β → γ) : Out β → Out γ
  | .diverge => .diverge
  | .raise e => .raise e
  | .ret a => .ret (f a)

/-- Running the parser `p` without recovery at position `pos` of `s`, in context `ctx`, ends in
`o`: returns a success or an error, raises, or does not return. -/
def RunPlain (env : Env τ ρ Γ) (p : P τ ρ Γ α) (s : List τ) (pos : Nat) (ctx : Ctx τ)
    (o : Out (Simple τ α)) : Prop :=
  Yields (fun n => (denote env n p).fast s pos ctx) o

/-- The same with recovery: `ins` is `max_insertions`; `rem` is how many insertions are still
allowed here, or `none` while alternatives are being tried. -/
def RunRec (env : Env τ ρ Γ) (p : P τ ρ Γ α) (s : List τ) (pos : Nat) (ctx : Ctx τ) (ins : Int)
    (rem : Option Int) (o : Out (Result τ α)) : Prop :=
  Yields (fun n => (denote env n p).fn s pos ctx ins rem) o

/-- `Reads env p s pos ctx v pos' ctx'`: without recovery `p`, run at `pos`, succeeds with value `v`
and ends at `pos'`. -/
def Reads (env : Env τ ρ Γ) (p : P τ ρ Γ α) (s : List τ) (pos : Nat) (ctx : Ctx τ) (v : α)
    (pos' : Nat) (ctx' : Ctx τ) : Prop :=
  ∃ ex c, RunPlain env p s pos ctx (.ret (.ok ⟨v, pos', ctx', ex, c⟩))

/-- Without recovery `p`, run at `pos`, fails with error `e`. -/
def Fails (env : Env τ ρ Γ) (p : P τ ρ Γ α) (s : List τ) (pos : Nat) (ctx : Ctx τ) (e : Err) : Prop :=
  RunPlain env p s pos ctx (.ret (.error e))

/-- The two parsers behave in the same way, on every input, from every position, in every context,
with every budget, in both modes: same success or failure, same value, end position, expected
list and candidate repairs, same exceptions. -/
structure Same (env : Env τ ρ Γ) (p q : P τ ρ Γ α) : Prop where
  plain : ∀ s pos ctx o, RunPlain env p s pos ctx o ↔ RunPlain env q s pos ctx o
  recovering : ∀ s pos ctx ins rem o,
    RunRec env p s pos ctx ins rem o ↔ RunRec env q s pos ctx ins rem o

/-- As `Same`, but with recovery only for positions within the input and for runs that return:
which of several exceptions is raised first may differ. -/
structure SameReturns (env : Env τ ρ Γ) (p q : P τ ρ Γ α) : Prop where
  plain : ∀ s pos ctx o, RunPlain env p s pos ctx o ↔ RunPlain env q s pos ctx o
  recovering : ∀ s pos ctx ins rem r, pos ≤ s.length →
    (RunRec env p s pos ctx ins rem (.ret r) ↔ RunRec env q s pos ctx ins rem (.ret r))

/-- The arguments for the plain mode. -/
def plain (getLoc : Loc → List τ → Nat → Loc) : Opts τ := { recover := false, getLoc := getLoc }

/-- The arguments for the recovery mode. -/
def recovering (k : Int) (getLoc : Loc → List τ → Nat → Loc) : Opts τ :=
  { recover := true, maxInsertions := k, getLoc := getLoc }

end Reparsec
