import Verif.Props.Locations
import Verif.Props.Samples
import Verif.Lemmas.FirstErrorAll

/-!
# C42: the first error is the same with and without recovery
-/

namespace Reparsec

variable {τ ρ : Type} {Γ : ρ → Type} {α : Type}

/-- `parse(s)` gave `plainRes`, `parse(s, recover=True)` gave `recRes`; the first error is the same.
`exact`: also when recovery was possible in principle, but no candidate repair is left. -/
structure SameFirstError (exact : Prop) (plainRes recRes : Result τ α) : Prop where
  /-- The error without recovery, if there is one, ... -/
  error : ∀ e, plainRes = .error e →
    /- is the error with recovery, ... -/
    recRes = .error e ∨
    /- or every candidate repair starts with an operation that has its location and expected list,
    and so has the result itself. -/
    ∃ rr, recRes = .recovered rr ∧ rr.loc = e.loc ∧ (exact → rr.expected = e.expected) ∧
      ∀ x ∈ rr.repairs, ∃ o rest, x.ops = o :: rest ∧ o.loc = e.loc ∧ o.expected = e.expected

/-- In terms of the exceptions that `unwrap` raises: same location; same expected list, unless there
is no repair to show. -/
theorem SameFirstError.errors {exact : Prop} {a b : Result τ α} (h : SameFirstError exact a b)
    (fmt : Loc → String) {b1 b2 : Bool} {ra : List ErrorItem} {i : ErrorItem} {pe : ParseError}
    (he : ∃ e, a = .error e)
    (ha : a.unwrap fmt b1 = .error ⟨i :: ra⟩) (hb : b.unwrap fmt b2 = .error pe) :
    ra = [] ∧ i.op = none ∧ ∃ j rest, pe.errors = j :: rest ∧ j.loc = i.loc ∧ j.locStr = i.locStr ∧
      (exact ∨ j.op ≠ none → j.expected = i.expected) := by
  obtain ⟨e, rfl⟩ := he
  simp only [Result.unwrap, Except.error.injEq, ParseError.mk.injEq, List.cons.injEq] at ha
  obtain ⟨rfl, rfl⟩ := ha
  refine ⟨rfl, rfl, ?_⟩
  rcases h.error e rfl with rfl | ⟨rr, rfl, h1, h2, h3⟩
  · simp only [Result.unwrap, Except.error.injEq] at hb
    subst hb
    exact ⟨_, _, rfl, rfl, rfl, fun _ => rfl⟩
  · simp only [Result.unwrap] at hb
    cases hr : rr.repairs with
    | nil =>
      simp only [hr, Except.error.injEq] at hb
      subst hb
      refine ⟨_, _, rfl, h1, by rw [h1], ?_⟩
      rintro (h | h)
      · exact h2 h
      · exact absurd rfl h
    | cons y ys =>
      cases b2 with
      | true => simp [hr] at hb
      | false =>
        simp only [hr, Bool.false_eq_true, if_false, Except.error.injEq] at hb
        subst hb
        obtain ⟨o, rest, h4, h5, h6⟩ := h3 (minRepair y ys) (by rw [hr]; exact minRepair_mem y ys)
        simp only [errorItems, h4, List.map_cons]
        exact ⟨_, _, rfl, h5, by rw [h5], fun _ => h6⟩

section
variable [BEq τ] {env : Env τ ρ Γ} {p : P τ ρ Γ α} {s : List τ}

theorem sameFirstError (D : LocDisc s) (hc : CtxOK D (initCtx D.g) 0)
    (hD : ∀ q l l', D.rel q l → D.rel q l' → l = l')
    (hl : D.layout ∨ Everywhere env P.notLayout p) (ha : Everywhere env (P.plainError env) p)
    {k : Int} {r1 r2 : Result τ α} (h1 : Returns env p s (plain D.g) r1)
    (h2 : Returns env p s (recovering k D.g) r2) :
    SameFirstError (Everywhere env P.notInsert p) r1 r2 := by
  obtain ⟨n1, x, g1, rfl⟩ := returns_plain h1
  obtain ⟨n2, h2⟩ := returns_recovering h2
  have h1' := (mono_fast env p _ _ _).ret (Nat.le_max_left n1 n2) g1
  have h2' := (mono_fn env p _ _ _ _ _).ret (Nat.le_max_right n1 n2) h2
  refine ⟨fun e he => ?_⟩
  cases x with
  | ok r => cases he
  | error e' =>
    simp only [Simple.toResult, Result.error.injEq] at he
    subst he
    have hf := (fe_denote env D (U := Everywhere env P.notInsert p) hD (hl.imp id (·.2)) ha.2
      (fun u => u.2) (max n1 n2) p (hl.imp id (·.1)) ha.1 (fun u => u.1)).same 0 _ e'
      (Nat.zero_le _) hc h1' k (some k) r2 h2'
    cases r2 with
    | ok r => exact absurd h2' ((sim_denote env _ p).not_ok h1')
    | error e2 => exact .inl (congrArg Result.error hf)
    | recovered rr =>
      obtain ⟨f1, f2, f3, f4⟩ := hf
      refine .inr ⟨rr, rfl, f1, fun u => f4 ?_, fun x hx => ?_⟩
      · split
        · exact u
        · exact not_startsWithInsert u
      · obtain ⟨o, rest, g1, g2, g3, -⟩ := f3 x hx
        exact ⟨o, rest, g1, g2, g3⟩

/-- C42, `Parser.parse` with the default `get_loc`. -/
theorem C42_default (ha : Everywhere env (P.plainError env) p) {k : Int} {r1 r2 : Result τ α}
    (h1 : Returns env p s (plain defaultGetLoc) r1)
    (h2 : Returns env p s (recovering k defaultGetLoc) r2) :
    SameFirstError (Everywhere env P.notInsert p) r1 r2 :=
  sameFirstError (defaultDisc s) defaultDisc_ctx
    (fun _ _ _ h h' => Eq.trans (b := _) h (Eq.symm h')) (.inl trivial) ha h1 h2

end

/-- C42, `scannerless.parse`. -/
theorem C42_text {env : Env Char ρ Γ} {p : P Char ρ Γ α} {s : List Char}
    (ha : Everywhere env (P.plainError env) p) {k : Int} {r1 r2 : Result Char α}
    (h1 : Returns env p s (plain scannerlessGetLoc) r1)
    (h2 : Returns env p s (recovering k scannerlessGetLoc) r2) :
    SameFirstError (Everywhere env P.notInsert p) r1 r2 :=
  sameFirstError (scannerlessDisc s) (scannerlessDisc_ctx s)
    (fun _ _ _ h h' => Eq.trans (b := _) h (Eq.symm h')) (.inl trivial) ha h1 h2

/-- C42, `lexer.parse`, without layout combinators. -/
theorem C42_tokens {env : Env Token ρ Γ} {p : P Token ρ Γ α} {s : List Token}
    (hl : Everywhere env P.notLayout p)
    (ha : Everywhere env (P.plainError env) p) {k : Int} {r1 r2 : Result Token α}
    (h1 : Returns env p s (plain lexerGetLoc) r1)
    (h2 : Returns env p s (recovering k lexerGetLoc) r2) :
    SameFirstError (Everywhere env P.notInsert p) r1 r2 :=
  sameFirstError (lexerDisc s) (lexerDisc_ctx s)
    (fun _ _ _ h h' => Eq.trans (b := _) h (Eq.symm h')) (.inr hl) ha h1 h2

/-- C42 in terms of the exceptions raised by `unwrap`, `Parser.parse` with the default `get_loc`. -/
theorem C42_exceptions [BEq τ] {env : Env τ ρ Γ} {p : P τ ρ Γ α} {s : List τ}
    (ha : Everywhere env (P.plainError env) p) (fmt : Loc → String) {k : Int} {b1 b2 : Bool}
    {r1 r2 : Result τ α} {pe1 pe2 : ParseError}
    (h1 : Returns env p s (plain defaultGetLoc) r1)
    (h2 : Returns env p s (recovering k defaultGetLoc) r2)
    (he1 : r1.unwrap fmt b1 = .error pe1) (he2 : r2.unwrap fmt b2 = .error pe2) :
    ∃ i j rest, pe1.errors = [i] ∧ i.op = none ∧ pe2.errors = j :: rest ∧ j.loc = i.loc ∧
      j.locStr = i.locStr ∧
      (Everywhere env P.notInsert p ∨ j.op ≠ none → j.expected = i.expected) := by
  have h := C42_default ha h1 h2
  obtain ⟨_, x, _, rfl⟩ := returns_plain h1
  cases x with
  | ok o => simp [Simple.toResult, Result.unwrap] at he1
  | error e =>
    obtain ⟨es⟩ := pe1
    cases es with
    | nil => simp [Simple.toResult, Result.unwrap] at he1
    | cons i is =>
      obtain ⟨rfl, g1, j, rest, g2⟩ := h.errors fmt ⟨e, rfl⟩ he1 he2
      exact ⟨i, j, rest, rfl, g1, g2⟩

/-! ### The conditions are needed -/

namespace Samples

/-- `attempt(sym("a") + sym("b")) | sym("c")` -/
def attemptAlt : P Char Empty (fun _ => Unit) Unit :=
  .alt (.map (.attempt ab) fun _ => ()) (.map (.sym 'c' "'c'") fun _ => ())

/-- `digit.recover_with(0).recover_with(1)` -/
def nestedInsert : P Char Empty (fun _ => Unit) Char :=
  .recoverWith (.recoverWith (.label (.satisfy fun c => .ok c.isDigit) "digit") '0' "0") '1' "1"

/-- `digit.recover_with(0) + digit` -/
def twoDigits : P Char Empty (fun _ => Unit) (Char × Char) :=
  .seq (.recoverWith (.label (.satisfy fun c => .ok c.isDigit) "digit") '0' "0")
    (.label (.satisfy fun c => .ok c.isDigit) "digit")

end Samples

open Samples in
/-- With `attempt` C42 is false: the expected list differs. -/
theorem C42_needs_no_attempt :
    run noEnv attemptAlt "ax" false false =
      .ret (.error ⟨[⟨⟨1, 0, 0⟩, "1", ["'b'", "'c'"], none⟩]⟩) ∧
    run noEnv attemptAlt "ax" true false =
      .ret (.error ⟨[⟨⟨1, 0, 0⟩, "1", ["'b'"], some (.insert "'b'")⟩]⟩) := ⟨rfl, rfl⟩

open Samples in
/-- With nested `recover_with` C42 is false: the expected list is lost. -/
theorem C42_needs_no_nesting :
    run noEnv nestedInsert "" false false =
      .ret (.error ⟨[⟨⟨0, 0, 0⟩, "0", ["digit"], none⟩]⟩) ∧
    run noEnv nestedInsert "" true false =
      .ret (.error ⟨[⟨⟨0, 0, 0⟩, "0", [], some (.insert "1")⟩]⟩) := ⟨rfl, rfl⟩

open Samples in
/-- With `recover_with`, if all repairs come to nothing, the expected list is lost. -/
theorem C42_needs_no_insert :
    run noEnv twoDigits "" false false =
      .ret (.error ⟨[⟨⟨0, 0, 0⟩, "0", ["digit"], none⟩]⟩) ∧
    run noEnv twoDigits "" true false =
      .ret (.error ⟨[⟨⟨0, 0, 0⟩, "0", [], none⟩]⟩) := ⟨rfl, rfl⟩

open Samples in
/-- The conditions hold of a recursive grammar, and the input is repaired by three operations. -/
example : Everywhere nestEnv (P.plainError nestEnv) nest ∧ Everywhere nestEnv P.notInsert nest ∧
    run nestEnv nest "((y)x" false false =
      .ret (.error ⟨[⟨⟨2, 0, 0⟩, "2", ["'('", "'x'"], none⟩]⟩) ∧
    run nestEnv nest "((y)x" true false = .ret (.error ⟨[
      ⟨⟨2, 0, 0⟩, "2", ["'('", "'x'"], some (.skip 2)⟩,
      ⟨⟨5, 0, 0⟩, "5", ["')'"], some (.insert "')'")⟩,
      ⟨⟨5, 0, 0⟩, "5", ["')'"], some (.insert "')'")⟩]⟩) := by
  refine ⟨⟨?_, ?_⟩, ⟨?_, ?_⟩, rfl, rfl⟩
  · simp [nest, P.seql, P.All, P.plainError]
  · intro i q h
    simp only [nestEnv, Option.some.injEq] at h; subst h
    simp [P.seqr, P.seql, P.map, P.All, P.plainError]
  · simp [nest, P.seql, P.All, P.notInsert]
  · intro i q h
    simp only [nestEnv, Option.some.injEq] at h; subst h
    simp [P.seqr, P.seql, P.map, P.All, P.notInsert]

open Samples in
/-- They hold of a parser with `recover_with`. -/
example : Everywhere noEnv (P.plainError noEnv) twoDigits := by
  refine ⟨?_, fun i => i.elim⟩
  simp only [twoDigits, P.seq, P.All, P.plainError, true_and, and_true]
  have : ∀ {α : Type} {p : P Char Empty (fun _ => Unit) α} {x : String},
      ¬ StartsWithInsert noEnv (.label p x) := by
    intro α p x h; cases h
  exact this

end Reparsec
