import Verif.Lemmas.Fixable
import Verif.Props.Language
import Verif.Props.Termination
import Verif.Props.Samples

/-!
# C56: grammars that can always be repaired

Recovery may find no repair at all: then `unwrap(recover=True)` raises `ParseError`.  `Spec/Fixable.lean`
gives a condition on the grammar, and a bound on the insertions that it needs at one place of the
input, under which this does not happen.
-/

namespace Reparsec

variable {τ ρ : Type} {Γ : ρ → Type} {α β : Type} [BEq τ]

/-- C56. A grammar that needs at most `k` insertions at each place is repaired on every input, if
`max_insertions` is at least `k`: `unwrap(recover=True)` does not raise. -/
theorem C56_always_repaired {env : Env τ ρ Γ} {p : P τ ρ Γ α} {k : Nat} (hp : AlwaysFixable env k p)
    {K : Int} (hK : k ≤ K) {gl : Loc → List τ → Nat → Loc} {s : List τ} {r : Result τ α}
    (h : Returns env p s (recovering K gl) r) (fmt : Loc → String) :
    ∃ v, r.unwrap fmt true = .ok v := by
  obtain ⟨n, h⟩ := returns_recovering h
  obtain ⟨T, hT, hp⟩ := hp
  have hf := fixes_denote hT n p hp hK
  cases r with
  | ok o => exact ⟨_, rfl⟩
  | error e => exact absurd h (hf.never rfl s 0 _ K e (Nat.zero_le _) hK)
  | recovered rr =>
    obtain ⟨x, hx, _⟩ := hf.within s 0 _ K rr (Nat.zero_le _) hK h
    simp only [Result.unwrap]
    cases hr : rr.repairs with
    | nil => rw [hr] at hx; cases hx
    | cons y ys => exact ⟨_, rfl⟩

/-- C56, C23. Without left recursion such a parser, called with recovery on any input, gives a value,
unless a callback or a repetition of an empty parser raises. -/
theorem C56_total {env : Env τ ρ Γ} (hwf : WellFounded fun j i => LeftCalls env i j) {p : P τ ρ Γ α}
    {k : Nat} (hp : AlwaysFixable env k p) {K : Int} (hK : k ≤ K) (gl : Loc → List τ → Nat → Loc)
    (s : List τ) (fmt : Loc → String) :
    (∃ r v, Returns env p s (recovering K gl) r ∧ r.unwrap fmt true = .ok v) ∨
      ∃ e, Raises env p s (recovering K gl) e := by
  rcases C23_terminates env hwf p s (recovering K gl) (show 0 ≤ K by omega) with ⟨r, h⟩ | h
  · obtain ⟨v, hv⟩ := C56_always_repaired hp hK h fmt
    exact .inl ⟨r, v, h, hv⟩
  · exact .inr h

namespace Samples

/-- `((sym("a") | sym("b")) << sym(";")).many() << eof()` -/
def stmts : P Char Empty (fun _ => Unit) (List Char) :=
  .seql (.many (.seql (.alt (.sym 'a' "'a'") (.sym 'b' "'b'")) (.sym ';' "';'"))) .eof

def noTable : FixTable Empty := ⟨fun i => i.elim, fun i => i.elim, fun i => i.elim⟩

/-- One insertion is enough: the semicolon. -/
theorem stmts_fixable : AlwaysFixable noEnv 1 stmts := by
  refine ⟨noTable, fun i => i.elim, 0, 0, 1, 0, by omega, by omega, by omega, ⟨true, 2, ?_⟩, trivial⟩
  refine ⟨1, 1, 0, 0, by omega, by omega, by omega, .inl ⟨Nat.le_refl 1, true, 1, Nat.le_refl 1⟩,
    Nat.le_refl 1⟩

/-- So every text is repaired. -/
example (s : List Char) (r : Result Char (List Char))
    (h : Returns noEnv stmts s (recovering 5 defaultGetLoc) r) :
    ∃ v, r.unwrap defaultFmtLoc true = .ok v :=
  C56_always_repaired stmts_fixable (by decide) h _

example : run noEnv stmts "a;b" true true = .ret (.ok ['a', 'b']) := rfl
example : run noEnv stmts "a;b" true false
    = .ret (.error ⟨[⟨⟨3, 0, 0⟩, "3", ["';'"], some (.insert "';'")⟩]⟩) := rfl
example : run noEnv stmts "xyz" true true = .ret (.ok []) := rfl

/-- `sym("[") >> sym("a").sep_by(sym(",")) << sym("]") << eof()` -/
def bracketed : P Char Empty (fun _ => Unit) (List Char) :=
  .seql (.seql (.seqr (.sym '[' "'['") (.sepBy (.sym 'a' "'a'") (.sym ',' "','"))) (.sym ']' "']'"))
    .eof

/-- Two insertions: an item and the closing bracket, or both brackets. -/
theorem bracketed_fixable : AlwaysFixable noEnv 2 bracketed := by
  refine ⟨noTable, fun i => i.elim, 2, 0, 2, 0, by omega, by omega, by omega, ?_, trivial⟩
  refine ⟨1, 1, 1, 0, by omega, by omega, by omega, ?_, Nat.le_refl 1⟩
  refine ⟨1, 0, 0, 1, by omega, by omega, by omega, Nat.le_refl 1, ?_⟩
  refine ⟨true, 1, 1, 0, 0, 1, by omega, by omega, by omega, Nat.le_refl 1, true, 2, ?_⟩
  exact ⟨1, 1, 0, 0, by omega, by omega, by omega, Nat.le_refl 1, Nat.le_refl 1⟩

example : run noEnv bracketed "[a," true true = .ret (.ok ['a', 'a']) := rfl

/-- A recursive grammar, `e = Delay(); e.define((sym("a") >> sym(";") >> e).maybe())`: one insertion
is enough. -/
def tailEnv : Env Char Unit (fun _ => Option Nat) := fun _ =>
  some (.maybe (.map (.seqr (.sym 'a' "'a'") (.seqr (.sym ';' "';'") (.ref ())))
    fun v => match v with | some n => n + 1 | none => 1))

theorem tail_fixable : AlwaysFixable tailEnv 1 (.seql (.ref ()) .eof) := by
  refine ⟨⟨fun _ => true, fun _ => 0, fun _ => 1⟩, ?_, 0, 0, 1, 0, by omega, by omega, by omega,
    ⟨fun _ => rfl, Nat.le_refl 0, Nat.le_refl 1⟩, trivial⟩
  rintro x q ⟨⟩
  refine ⟨true, 2, 1, 1, 0, 1, by decide, Nat.le_refl 1, Nat.le_refl 1, Nat.le_refl 1, ?_⟩
  exact ⟨1, 0, 0, 1, by omega, by omega, by omega, Nat.le_refl 1, fun _ => rfl, Nat.le_refl 0,
    Nat.le_refl 1⟩

example : run tailEnv (.seql (.ref ()) .eof) "aa;a" true true = .ret (.ok (some 2)) := rfl

/-- `x` as the first alternative: `e = Delay(); e.define(sym("x") | sym("(") >> e << sym(")"))` -/
def nestXEnv : Env Char Unit (fun _ => Nat) := fun _ =>
  some (.alt (.map (.sym 'x' "'x'") fun _ => 0)
    (.map (.seqr (.sym '(' "'('") (.seql (.ref ()) (.sym ')' "')'"))) (· + 1)))

end Samples

/-- C56, the bound is needed: `sym("[") >> sym("a").sep_by(sym(",")) << sym("]") << eof()` needs two
insertions at the end of "[a,"; with `max_insertions=1` recovery gives up. -/
theorem C56_needs_budget : ∃ pe,
    Samples.run Samples.noEnv Samples.bracketed "[a," true true 1 = .ret (.error pe) ∧
    Samples.run Samples.noEnv Samples.bracketed "[a," true true 2 = .ret (.ok ['a', 'a']) :=
  ⟨_, rfl, rfl⟩

/-- C56, nested brackets have no such bound: with the default `max_insertions=5`, five brackets left
open are closed and six are not. -/
theorem C56_nesting_unbounded : ∃ pe,
    Samples.run Samples.nestXEnv (.seql (.ref ()) .eof) "(((((x" true true = .ret (.ok 5) ∧
    Samples.run Samples.nestXEnv (.seql (.ref ()) .eof) "((((((x" true true = .ret (.error pe) :=
  ⟨_, rfl, rfl⟩

/-- C56, and no table is right for them. -/
theorem C56_nesting_not_fixable (k : Nat) :
    ¬ AlwaysFixable Samples.nestXEnv k (.seql (.ref ()) .eof) := by
  rintro ⟨T, hT, -⟩
  have h := hT () _ rfl
  have key : ∀ n a t, (P.map (.seqr (.sym '(' "'('") (.seql (.ref ()) (.sym ')' "')'"))) (· + 1) :
      P Char Unit (fun _ => Nat) Nat).Fixable T n a t → T.rest () < t := by
    rintro n a t ⟨f1, f2, r1, r2, h1, h2, h3, -, g1, g2, s1, s2, h4, h5, h6, h7, h8⟩
    have h8 : 1 ≤ g2 := h8
    have h9 := h7.2.2
    omega
  rcases h with ⟨_, n', a', h⟩ | ⟨_, h⟩
  · exact Nat.lt_irrefl _ (key _ _ _ h)
  · exact Nat.lt_irrefl _ (key _ _ _ h)

/-- C56, the order of alternatives matters: with the recursive alternative first, as in
`Samples.nestEnv`, the empty input is not repaired, although inserting `x` repairs it: the repairs
that the second alternative finds by inserting are dropped as soon as the first alternative has
been tried with recovery, even if it found none. With `x` as the first alternative it is repaired. -/
theorem C56_order_matters : ∃ pe,
    Samples.run Samples.nestEnv Samples.nest "" true true = .ret (.error pe) ∧
    Samples.run Samples.nestXEnv (.seql (.ref ()) .eof) "" true true = .ret (.ok 0) :=
  ⟨_, rfl, rfl⟩

end Reparsec
