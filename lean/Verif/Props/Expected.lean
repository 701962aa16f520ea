import Verif.Props.Locations
import Verif.Props.Samples
import Verif.Lemmas.Wants

/-!
# C49, C51: the expected list of an error is what was looked for at its position
-/

namespace Reparsec

variable {τ ρ : Type} {Γ : ρ → Type} {α : Type}

/-- The error `e` is located at the position `q`; its expected list is exact. -/
structure ExpectedAt [BEq τ] (env : Env τ ρ Γ) (p : P τ ρ Γ α) (s : List τ) (ctx : Ctx τ)
    (e : Err) (q : Nat) : Prop where
  /-- something was looked for at `q` -/
  wanted : ∃ l, ∀ ends, Wants env s ends p 0 ctx l q
  /-- nothing at all was looked for further on -/
  furthest : ∀ ends l q', Wants env s ends p 0 ctx l q' → q' ≤ q
  /-- the list consists of what was looked for at `q`, other than by accepted items of `many()` at
  their end -/
  exact : ∀ x, x ∈ e.expected ↔ Wants env s false p 0 ctx (some x) q
  /-- and those make no difference if no item of `many()` looks for anything at its end -/
  all : Everywhere env (P.sharpItems env) p → ∀ x, Wants env s true p 0 ctx (some x) q →
    x ∈ e.expected

/-- `ends = true` adds to `ends = false`. -/
theorem Wants.mono [BEq τ] {env : Env τ ρ Γ} {s : List τ} {p : P τ ρ Γ α} {i c l q}
    (h : Wants env s false p i c l q) : Wants env s true p i c l q := by
  induction h with
  | unexpected => exact .unexpected
  | eof h => exact .eof h
  | satisfy h => exact .satisfy h
  | sym h => exact .sym h
  | literal h => exact .literal h
  | regexp h => exact .regexp h
  | fmap _ ih => exact .fmap ih
  | altFirst _ ih => exact .altFirst ih
  | altSecond h1 h2 _ ih => exact .altSecond h1 h2 ih
  | bindFirst _ ih => exact .bindFirst ih
  | bindSecond h1 _ ih => exact .bindSecond h1 ih
  | seqFirst _ ih => exact .seqFirst ih
  | seqSecond h1 _ ih => exact .seqSecond h1 ih
  | maybe _ ih => exact .maybe ih
  | manyFirst _ _ ih => exact .manyFirst ih (by simp)
  | manyLater h1 _ ih => exact .manyLater h1 ih
  | attempt _ ih => exact .attempt ih
  | labelHere _ ih => exact .labelHere ih
  | labelEmpty h => exact .labelEmpty h
  | labelLater _ h ih => exact .labelLater ih h
  | recover _ ih => exact .recover ih
  | recoverWith _ ih => exact .recoverWith ih
  | recoverWithFn _ ih => exact .recoverWithFn ih
  | block _ ih => exact .block ih
  | aligned h _ ih => exact .aligned h ih
  | notAligned h => exact .notAligned h
  | indented h _ ih => exact .indented h ih
  | notIndented h => exact .notIndented h
  | ref h _ ih => exact .ref h ih

section
variable [BEq τ] {env : Env τ ρ Γ} {p : P τ ρ Γ α} {s : List τ}

theorem expectedAt (D : LocDisc s) (hc : CtxOK D (initCtx D.g) 0)
    (hl : D.layout ∨ Everywhere env P.notLayout p) (ha : Everywhere env P.notAttempt p) {e : Err}
    (h : Returns env p s (plain D.g) (.error e)) :
    ∃ q, q ≤ s.length ∧ D.rel q e.loc ∧ ExpectedAt env p s (initCtx D.g) e q := by
  obtain ⟨n, x, h1, h2⟩ := returns_plain h
  cases x with
  | ok r => cases h2
  | error e' =>
    cases h2
    obtain ⟨q, hq⟩ := seen_denote env D (K := Everywhere env (P.sharpItems env) p)
      (hl.imp id (·.2)) ha.2 (fun k => k.2) n p (hl.imp id (·.1)) ha.1 (fun k => k.1) 0 _ _
      (Nat.zero_le _) hc h1
    exact ⟨q, hq.hi, hq.rel, hq.some, fun ends l q' h => (hq.compl ends l q' h).1,
      fun x => ⟨hq.sound false x, fun h => (hq.compl false _ _ h).2 (by simp) x rfl rfl⟩,
      fun k x h => (hq.compl true _ _ h).2 (fun _ => k) x rfl rfl⟩

/-! ### C49 -/

/-- C49, default locations: everything with a description that was looked for at the position of the
error is in the expected list, except what an accepted item of `many()` looked for where it ended;
and nothing was looked for further on. -/
theorem C49_default (ha : Everywhere env P.notAttempt p) {e : Err}
    (h : Returns env p s (plain defaultGetLoc) (.error e)) :
    (∀ x, Wants env s false p 0 (initCtx defaultGetLoc) (some x) e.loc.pos → x ∈ e.expected) ∧
      ∀ l q, Wants env s true p 0 (initCtx defaultGetLoc) l q → q ≤ e.loc.pos := by
  obtain ⟨q, h1, h2, h3⟩ := expectedAt (defaultDisc s) defaultDisc_ctx (.inl trivial) ha h
  have h2 : e.loc = ⟨q, 0, 0⟩ := h2
  rw [h2]
  exact ⟨fun x hx => (h3.exact x).2 hx, h3.furthest true⟩

/-- C49, default locations, without the exception: if every `many(p)` is such that `p` does not look
for anything at the end of what it accepts, then everything that was looked for at the position of
the error is in the expected list. -/
theorem C49_default_sharp (ha : Everywhere env P.notAttempt p)
    (hk : Everywhere env (P.sharpItems env) p) {e : Err}
    (h : Returns env p s (plain defaultGetLoc) (.error e)) :
    ∀ x, Wants env s true p 0 (initCtx defaultGetLoc) (some x) e.loc.pos → x ∈ e.expected := by
  obtain ⟨q, h1, h2, h3⟩ := expectedAt (defaultDisc s) defaultDisc_ctx (.inl trivial) ha h
  have h2 : e.loc = ⟨q, 0, 0⟩ := h2
  rw [h2]
  exact h3.all hk

/-- C51, default locations: every description in the expected list of an error was looked for at the
position of the error. -/
theorem C51_default (ha : Everywhere env P.notAttempt p) {e : Err}
    (h : Returns env p s (plain defaultGetLoc) (.error e)) :
    ∀ x ∈ e.expected, Wants env s true p 0 (initCtx defaultGetLoc) (some x) e.loc.pos := by
  obtain ⟨q, h1, h2, h3⟩ := expectedAt (defaultDisc s) defaultDisc_ctx (.inl trivial) ha h
  have h2 : e.loc = ⟨q, 0, 0⟩ := h2
  rw [h2]
  exact fun x hx => ((h3.exact x).1 hx).mono

/-- C51: an error is always located where something was looked for. -/
theorem C51_somewhere (ha : Everywhere env P.notAttempt p) {e : Err}
    (h : Returns env p s (plain defaultGetLoc) (.error e)) :
    ∃ l, Wants env s true p 0 (initCtx defaultGetLoc) l e.loc.pos := by
  obtain ⟨q, h1, h2, h3⟩ := expectedAt (defaultDisc s) defaultDisc_ctx (.inl trivial) ha h
  have h2 : e.loc = ⟨q, 0, 0⟩ := h2
  rw [h2]
  obtain ⟨l, hl⟩ := h3.wanted
  exact ⟨l, hl true⟩

/-- C49 and C51 together, default locations: the expected list is exactly what was looked for at the
position of the error, other than by accepted items of `many()` where they ended. -/
theorem C51_exact (ha : Everywhere env P.notAttempt p) {e : Err}
    (h : Returns env p s (plain defaultGetLoc) (.error e)) :
    ∀ x, x ∈ e.expected ↔
      Wants env s false p 0 (initCtx defaultGetLoc) (some x) e.loc.pos := by
  obtain ⟨q, h1, h2, h3⟩ := expectedAt (defaultDisc s) defaultDisc_ctx (.inl trivial) ha h
  have h2 : e.loc = ⟨q, 0, 0⟩ := h2
  rw [h2]
  exact h3.exact

end

/-- C49 under `scannerless.parse`. -/
theorem C49_text {env : Env Char ρ Γ} {p : P Char ρ Γ α} {s : List Char}
    (ha : Everywhere env P.notAttempt p) {e : Err}
    (h : Returns env p s (plain scannerlessGetLoc) (.error e)) :
    (∀ x, Wants env s false p 0 (initCtx scannerlessGetLoc) (some x) e.loc.pos → x ∈ e.expected) ∧
      ∀ l q, Wants env s true p 0 (initCtx scannerlessGetLoc) l q → q ≤ e.loc.pos := by
  obtain ⟨q, h1, h2, h3⟩ := expectedAt (scannerlessDisc s) (scannerlessDisc_ctx s) (.inl trivial) ha h
  have h2 : e.loc.pos = q := scannerlessRel _ _ h2
  rw [h2]
  exact ⟨fun x hx => (h3.exact x).2 hx, h3.furthest true⟩

/-- C49 under `scannerless.parse`, without the exception. -/
theorem C49_text_sharp {env : Env Char ρ Γ} {p : P Char ρ Γ α} {s : List Char}
    (ha : Everywhere env P.notAttempt p) (hk : Everywhere env (P.sharpItems env) p) {e : Err}
    (h : Returns env p s (plain scannerlessGetLoc) (.error e)) :
    ∀ x, Wants env s true p 0 (initCtx scannerlessGetLoc) (some x) e.loc.pos → x ∈ e.expected := by
  obtain ⟨q, h1, h2, h3⟩ := expectedAt (scannerlessDisc s) (scannerlessDisc_ctx s) (.inl trivial) ha h
  have h2 : e.loc.pos = q := scannerlessRel _ _ h2
  rw [h2]
  exact h3.all hk

/-- C51 under `scannerless.parse`. -/
theorem C51_text {env : Env Char ρ Γ} {p : P Char ρ Γ α} {s : List Char}
    (ha : Everywhere env P.notAttempt p) {e : Err}
    (h : Returns env p s (plain scannerlessGetLoc) (.error e)) :
    ∀ x ∈ e.expected, Wants env s true p 0 (initCtx scannerlessGetLoc) (some x) e.loc.pos := by
  obtain ⟨q, h1, h2, h3⟩ := expectedAt (scannerlessDisc s) (scannerlessDisc_ctx s) (.inl trivial) ha h
  have h2 : e.loc.pos = q := scannerlessRel _ _ h2
  rw [h2]
  exact fun x hx => ((h3.exact x).1 hx).mono

/-- C49 and C51 under `lexer.parse`, without layout combinators: the error is at a token (or the
end); its expected list is exactly what was looked for there, other than by accepted items of
`many()` where they ended; nothing was looked for at later tokens. -/
theorem C51_tokens {env : Env Token ρ Γ} {p : P Token ρ Γ α} {s : List Token}
    (hl : Everywhere env P.notLayout p) (ha : Everywhere env P.notAttempt p) {e : Err}
    (h : Returns env p s (plain lexerGetLoc) (.error e)) :
    ∃ q, q ≤ s.length ∧ TokenLoc s q e.loc ∧ ExpectedAt env p s (initCtx lexerGetLoc) e q := by
  obtain ⟨q, h1, h2, h3⟩ := expectedAt (lexerDisc s) (lexerDisc_ctx s) (.inr hl) ha h
  have h2 : e.loc = locFromStream s q := h2
  exact ⟨q, h1, h2 ▸ tokenLoc_locFromStream s q, h3⟩

/-- C49 under `lexer.parse`, without layout combinators. -/
theorem C49_tokens {env : Env Token ρ Γ} {p : P Token ρ Γ α} {s : List Token}
    (hl : Everywhere env P.notLayout p) (ha : Everywhere env P.notAttempt p) {e : Err}
    (h : Returns env p s (plain lexerGetLoc) (.error e)) :
    ∃ q, q ≤ s.length ∧ TokenLoc s q e.loc ∧
      (∀ x, Wants env s false p 0 (initCtx lexerGetLoc) (some x) q → x ∈ e.expected) ∧
      ∀ l q', Wants env s true p 0 (initCtx lexerGetLoc) l q' → q' ≤ q := by
  obtain ⟨q, h1, h2, h3⟩ := C51_tokens hl ha h
  exact ⟨q, h1, h2, fun x hx => (h3.exact x).2 hx, h3.furthest true⟩

/-! ### The exception in C49 is needed -/

namespace Samples

/-- `(sym("a") << sym("b").maybe()).many() << eof()` -/
def optionalTail : P Char Empty (fun _ => Unit) (List Char) :=
  .seql (.many (.seql (.sym 'a' "'a'") (.maybe (.sym 'b' "'b'")))) .eof

end Samples

open Samples in
/-- Without the exception for items of `many()` C49 is false: on `ac`, `b` was looked for at position
1 but the error there does not mention it. -/
theorem C49_exception_needed : Everywhere noEnv P.notAttempt optionalTail ∧
    ∃ e, Returns noEnv optionalTail "ac".toList (plain defaultGetLoc) (.error e) ∧
      e.loc.pos = 1 ∧ e.expected = ["'a'", "end of file"] ∧
      Wants noEnv "ac".toList true optionalTail 0 (initCtx defaultGetLoc) (some "'b'") 1 := by
  refine ⟨⟨?_, fun i => i.elim⟩, _, ⟨20, rfl⟩, rfl, rfl, ?_⟩
  · simp [optionalTail, P.seql, P.All, P.notAttempt]
  · refine .seqFirst (.manyFirst (.seqSecond (a := 'a') (j := 1) (c' := initCtx defaultGetLoc)
      ⟨[], true, 5, rfl⟩ (.maybe (.sym ?_))) (by simp))
    intro t ht
    have : t = 'c' := by simpa using ht.symm
    subst this; decide

/-! ### The conditions can be met -/

namespace Samples

/-- Whatever a terminal wants, it does not succeed. -/
theorem sym_sharp (env : Env Char ρ Γ) (x : Char) (y : String) : ∀ s i c a j c',
    Reads env (.sym x y) s i c a j c' → ∀ l, ¬ Wants env s true (.sym x y) i c (some l) j := by
  intro s i c a j c' ⟨ex, b, n, h⟩ l hw
  change symFast x [y] s i c = _ at h
  unfold symFast at h
  split at h
  · next t h1 =>
    have h3 := symAt_some h1
    have := hw.step.1 t h3.1
    rw [h3.2] at this; cases this
  · cases h

/-- `sym("a").many() << eof()` on `aab`: the error is at 2, where `a` and the end of file were looked
for. -/
example : ∃ e, Returns noEnv (.seql (.many (.sym 'a' "'a'")) .eof) "aab".toList
      (plain defaultGetLoc) (.error e) ∧ e.expected = ["'a'", "end of file"] ∧ e.loc.pos = 2 ∧
    Everywhere noEnv (P.sharpItems noEnv) (.seql (.many (.sym 'a' "'a'")) .eof) := by
  refine ⟨_, ⟨20, rfl⟩, rfl, rfl, ?_, fun i => i.elim⟩
  simp only [P.seql, P.All, P.sharpItems, true_and, and_true]
  exact sym_sharp noEnv 'a' "'a'"

end Samples

end Reparsec
