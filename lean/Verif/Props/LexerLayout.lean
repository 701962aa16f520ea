import Verif.Props.Locations

/-!
# C36: for exactly which token lists layout combinators are right
-/

namespace Reparsec

open Samples (noTokEnv)

/-- Reads `n` tokens, whatever they are. -/
def anyTokens : Nat → P Token Empty (fun _ => Unit) Unit
  | 0 => .pure ()
  | n + 1 => .seqWith (.satisfy fun _ => .ok true) (anyTokens n) fun _ _ => ()

/-- Reads `n` tokens, and wants an indentation of 1. -/
def wantsIndent (n : Nat) : P Token Empty (fun _ => Unit) Unit :=
  .seqWith (anyTokens n) (.indented 1 (.pure ())) fun _ _ => ()

/-- Reads `q` tokens, begins a block, reads `n` more, and wants an indentation of 1. -/
def indentedAfter (q n : Nat) : P Token Empty (fun _ => Unit) Unit :=
  .seqWith (anyTokens q) (.block (wantsIndent n)) fun _ _ => ()

theorem anyTokens_fast (fuel : Nat) (s : List Token) (ctx : Ctx Token) :
    ∀ n pos, pos + n ≤ s.length →
      (denote noTokEnv fuel (anyTokens n)).fast s pos ctx =
        .ret (.ok ⟨(), pos + n, ctx, [], decide (n ≠ 0)⟩) := by
  intro n
  induction n with
  | zero => intro pos _; rfl
  | succ n ih =>
    intro pos h
    have hlt : pos < s.length := by omega
    have hg : s[pos]? = some s[pos] := List.getElem?_eq_getElem hlt
    have ih := ih (pos + 1) (by omega)
    have ht : testAt (fun _ => .ok true) s pos = .ok (some s[pos]) := by simp [testAt, hg]
    simp only [denote, anyTokens, denoteWith] at ih ⊢
    simp only [seqFns, seqFast, satisfyFns, satisfyFast, ht, ih, Out.bind_def, Out.ofExcept_ok,
      Out.bind_ret]
    by_cases hn : n = 0 <;>
      simp [Simple.fmap, Ok.fmap, Simple.prependExpected, Ok.prependExpected, hn, Nat.add_comm,
        Nat.add_left_comm]

/-- The error is reported where the context says the last update was, if its character offset is the
token index. -/
theorem wantsIndent_fast (fuel : Nat) (s : List Token) (ctx : Ctx Token) (n pos : Nat)
    (h : pos + n ≤ s.length) (hpos : ctx.loc.pos = pos + n) (hm : ctx.mark = ctx.loc.col) :
    ∃ e : Err, (denote noTokEnv fuel (wantsIndent n)).fast s pos ctx = .ret (.error e) ∧
      e.loc = ctx.loc := by
  have h1 := anyTokens_fast fuel s ctx n pos h
  have hu : ctx.updateLoc s (pos + n) = ctx := by simp [Ctx.updateLoc, hpos]
  have hne : ¬ ((ctx.mark : Int) + 1 = ctx.loc.col) := by omega
  simp only [denote, wantsIndent, denoteWith] at h1 ⊢
  simp only [seqFns, seqFast, h1, indentedFns, hu, hne, if_false, Out.bind_def, Out.bind_ret,
    Simple.fmap, Simple.prependExpected]
  refine ⟨_, rfl, ?_⟩
  unfold Err.prependExpected; split <;> rfl

section
variable {τ ρ : Type} {Γ : ρ → Type} {α β γ : Type} [BEq τ] {env : Env τ ρ Γ} {s : List τ}
  {col : Nat → Nat → Prop} {m i j q : Nat} {es : List Step}

theorem der_pure_inv {x v : α} (h : Der env s col (.pure x) m i es v j) : j = i := by
  cases h; rfl

/-- Where a derivation without edits ends, for `satisfy`. -/
def endsAfterOne (i j : Nat) (es : List Step) : {α : Type} → P τ ρ Γ α → Prop
  | _, .satisfy _ => es = [] → j = i + 1
  | _, _ => True

theorem der_endsAfterOne {p : P τ ρ Γ α} {v : α} (h : Der env s col p m i es v j) :
    endsAfterOne i j es p := by
  cases h <;> first | exact trivial | exact fun _ => rfl | (intro h; cases h)

theorem der_satisfy_inv {test : τ → Except Exn Bool} {v : τ}
    (h : Der env s col (.satisfy test) m i es v j) (he : es = []) : j = i + 1 :=
  der_endsAfterOne h he

theorem der_seqWith_inv {p : P τ ρ Γ α} {p' : P τ ρ Γ β} {f : α → β → γ} {v : γ}
    (h : Der env s col (.seqWith p p' f) m i es v j) (he : es = []) :
    ∃ a b k, Der env s col p m i [] a k ∧ Der env s col p' m k [] b j := by
  cases h with
  | seqWith h1 h2 =>
    simp only [List.append_eq_nil_iff] at he
    obtain ⟨rfl, rfl⟩ := he
    exact ⟨_, _, _, h1, h2⟩

theorem stuck_pure_inv {x : α} : ¬ Stuck env s col (.pure x) m i q := by
  intro h; cases h

/-- The element at `i` does not pass the test of `satisfy`. -/
def testFails (s : List τ) (i : Nat) : {α : Type} → P τ ρ Γ α → Prop
  | _, .satisfy test => ∀ t, s[i]? = some t → test t = .ok false
  | _, _ => True

theorem stuck_testFails {p : P τ ρ Γ α} (h : Stuck env s col p m i q) : testFails s i p := by
  cases h <;> first | exact trivial | assumption

theorem stuck_satisfy_inv {test : τ → Except Exn Bool} (h : Stuck env s col (.satisfy test) m i q) :
    ∀ t, s[i]? = some t → test t = .ok false :=
  stuck_testFails h

theorem stuck_seqWith_inv {p : P τ ρ Γ α} {p' : P τ ρ Γ β} {f : α → β → γ}
    (h : Stuck env s col (.seqWith p p' f) m i q) :
    Stuck env s col p m i q ∨ ∃ a k, Der env s col p m i [] a k ∧ Stuck env s col p' m k q := by
  cases h with
  | seqL h => exact .inl h
  | seqR h1 h2 => exact .inr ⟨_, _, h1, h2⟩

theorem stuck_block_inv {p : P τ ρ Γ α} (h : Stuck env s col (.block p) m i q) :
    ∃ c, Stuck env s col p c i q := by
  cases h with
  | block _ h => exact ⟨_, h⟩

theorem stuck_indented_inv {p : P τ ρ Γ α} {d : Int} (h : Stuck env s col (.indented d p) m i q) :
    q = i ∨ ∃ c, Stuck env s col p c i q := by
  cases h with
  | indented _ _ h => exact .inr ⟨_, h⟩
  | notIndented _ _ => exact .inl rfl

end

theorem der_anyTokens {s : List Token} {col : Nat → Nat → Prop} : ∀ n {m i v j},
    Der noTokEnv s col (anyTokens n) m i [] v j → j = i + n := by
  intro n
  induction n with
  | zero => intro m i v j h; exact der_pure_inv h
  | succ n ih =>
    intro m i v j h
    obtain ⟨_, _, k, h1, h2⟩ := der_seqWith_inv h rfl
    have := der_satisfy_inv h1 rfl
    have := ih h2
    omega

theorem stuck_anyTokens {s : List Token} {col : Nat → Nat → Prop} : ∀ n {m i q},
    i + n ≤ s.length → ¬ Stuck noTokEnv s col (anyTokens n) m i q := by
  intro n
  induction n with
  | zero => intro m i q _ h; exact stuck_pure_inv h
  | succ n ih =>
    intro m i q hi h
    rcases stuck_seqWith_inv h with h | ⟨_, k, h1, h2⟩
    · have hlt : i < s.length := by omega
      have := stuck_satisfy_inv h _ (List.getElem?_eq_getElem hlt)
      cases this
    · have := der_satisfy_inv h1 rfl
      exact ih (by omega) h2

theorem stuck_wantsIndent {s : List Token} {col : Nat → Nat → Prop} {n m i q : Nat}
    (hi : i + n ≤ s.length) (h : Stuck noTokEnv s col (wantsIndent n) m i q) : q = i + n := by
  rcases stuck_seqWith_inv h with h | ⟨_, k, h1, h2⟩
  · exact (stuck_anyTokens n hi h).elim
  · have := der_anyTokens n h1
    rcases stuck_indented_inv h2 with h | ⟨c, h⟩
    · omega
    · exact (stuck_pure_inv h).elim

theorem stuck_indentedAfter {s : List Token} {col : Nat → Nat → Prop} {x n m q : Nat}
    (hi : x + n ≤ s.length) (h : Stuck noTokEnv s col (indentedAfter x n) m 0 q) : q = x + n := by
  rcases stuck_seqWith_inv h with h | ⟨_, k, h1, h2⟩
  · exact (stuck_anyTokens x (by omega) h).elim
  · have := der_anyTokens x h1
    obtain ⟨c, h⟩ := stuck_block_inv h2
    have := stuck_wantsIndent (by omega) h
    omega

/-- A single error that is no repair is located where the grammar is stuck. -/
theorem ErrorsLocated.stuck {τ ρ : Type} {Γ : ρ → Type} {α : Type} [BEq τ] {env : Env τ ρ Γ}
    {p : P τ ρ Γ α} {s : List τ} {rel : Nat → Loc → Prop} {col : Nat → Nat → Prop} {i : ErrorItem}
    (h : ErrorsLocated env p s rel col ⟨[i]⟩) (hi : i.op = none) :
    ∃ q, rel q i.loc ∧ Stuck env s col p 0 0 q := by
  rcases h with ⟨i', q, h1, h2, h3, h4⟩ | ⟨es, v, j, h1, h2⟩
  · cases h1; exact ⟨q, h3, h4⟩
  · generalize he : [i] = is at h2
    cases h2 with
    | nil => cases he
    | cons h3 h4 h5 => cases he; rw [hi] at h3; cases h3

/-- **C36.** The token lists for which all parsers that use layout combinators report errors at the right
token are exactly those in which the first token starts at the beginning of the text, and no token index
is the character offset of an earlier token with another location. -/
theorem C36_exact (s : List Token) (fmt : Loc → String) :
    IndexSafe s ↔
      ∀ (p : P Token Empty (fun _ => Unit) Unit) (r : Result Token Unit) (pe : ParseError),
        Returns noTokEnv p s (plain lexerGetLoc) r → r.unwrap fmt false = .error pe →
          ErrorsLocated noTokEnv p s (TokenLoc s) (tokenCol s) pe := by
  refine ⟨fun hs p r pe hr he => C36_layout_partial hs fmt hr he, fun h => ?_⟩
  have hfirst : ∀ t, s[0]? = some t → t.start = ⟨0, 0, 0⟩ := by
    intro t ht
    obtain ⟨e, h1, h2⟩ := wantsIndent_fast 1 s (initCtx lexerGetLoc) 0 0 (Nat.zero_le _) rfl rfl
    have hr : Returns noTokEnv (wantsIndent 0) s (plain lexerGetLoc) (.error e) := by
      refine ⟨1, ?_⟩
      simp only [parse, plain, Bool.false_eq_true, if_false, h1]
      rfl
    obtain ⟨q, h3, h4⟩ := (h _ _ _ hr rfl).stuck rfl
    have hq : q = 0 + 0 := stuck_wantsIndent (Nat.zero_le _) h4
    subst hq
    have h3 : TokenLoc s 0 e.loc := h3
    rw [h2] at h3
    have := locFromStream_unique h3
    simpa [locFromStream, ht, initCtx, eq_comm] using this
  refine ⟨hfirst, ?_⟩
  · intro q p loc hq hp hl hpos
    by_cases h0 : q = 0
    · -- the first token starts at offset 0, which is not `p`
      subst h0
      have hlt : 0 < s.length := by omega
      have ht : s[0]? = some s[0] := List.getElem?_eq_getElem hlt
      have := locFromStream_unique hl
      simp only [locFromStream, ht, hfirst _ ht] at this
      subst this
      simp only at hpos
      omega
    · have hs : locFromStream s q = loc := (locFromStream_unique hl).symm
      have h1 := anyTokens_fast 1 s (initCtx lexerGetLoc) q 0 (by omega)
      have hu : ((initCtx lexerGetLoc).updateLoc s q) = ⟨0, loc, lexerGetLoc⟩ := by
        unfold Ctx.updateLoc
        rw [if_neg (by simpa [initCtx] using h0)]
        simp only [initCtx, lexerGetLoc, hs]
      obtain ⟨e, h2, h3⟩ := wantsIndent_fast 1 s (⟨loc.col, loc, lexerGetLoc⟩ : Ctx Token)
        (p - q) q (by omega) (by simp only; omega) rfl
      have hr : ∃ e', e'.loc = e.loc ∧
          Returns noTokEnv (indentedAfter q (p - q)) s (plain lexerGetLoc) (.error e') := by
        refine ⟨e.prependExpected [] (decide (q ≠ 0)), by unfold Err.prependExpected; split <;> rfl,
          1, ?_⟩
        simp only [parse, plain, Bool.false_eq_true, if_false]
        simp only [denote, indentedAfter, denoteWith] at h1 h2 ⊢
        simp only [seqFns, seqFast, h1, blockFns, Nat.zero_add, hu, Ctx.setMark, h2, Out.bind_def,
          Out.bind_ret]
        rfl
      obtain ⟨e', he', hr⟩ := hr
      obtain ⟨q', h4, h5⟩ := (h _ _ _ hr rfl).stuck rfl
      have hq' := stuck_indentedAfter (by omega) h5
      rw [show q' = p by omega] at h4
      rw [he', h3] at h4
      exact h4

open Samples in
/-- An input for which it goes wrong: the token at index 2 of `a b c` starts at character 4, but the
character offset of the one before is 2. So there is a parser that reports its error elsewhere than at
the token at which it fails. -/
example : ∃ toks, splitTokens "a b c".toList wordSpec 20 = .ret toks ∧
    ∃ (p : P Token Empty (fun _ => Unit) Unit) (r : Result Token Unit) (pe : ParseError),
      Returns noTokEnv p toks (plain lexerGetLoc) r ∧ r.unwrap lineColFmtLoc false = .error pe ∧
        ¬ ErrorsLocated noTokEnv p toks (TokenLoc toks) (tokenCol toks) pe := by
  refine ⟨[⟨"word", "a", ⟨0, 0, 0⟩, ⟨1, 0, 1⟩⟩, ⟨"word", "b", ⟨2, 0, 2⟩, ⟨3, 0, 3⟩⟩,
    ⟨"word", "c", ⟨4, 0, 4⟩, ⟨5, 0, 5⟩⟩], rfl, ?_⟩
  refine Classical.byContradiction fun hno => ?_
  have := (C36_exact _ lineColFmtLoc).2 fun p r pe h1 h2 =>
    Classical.byContradiction fun h3 => hno ⟨p, r, pe, h1, h2, h3⟩
  have h := locFromStream_unique
    (this.later 1 2 ⟨2, 0, 2⟩ (by omega) (by simp) (.token (t := ⟨"word", "b", _, _⟩) rfl) rfl)
  cases h

end Reparsec
