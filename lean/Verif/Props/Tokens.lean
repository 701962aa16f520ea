import Verif.Props.Terminals
import Verif.Props.Language
import Verif.Model.Lexer

/-!
# C57: `token` and `token_ins`
-/

namespace Reparsec

variable {ρ : Type} {Γ : ρ → Type} {env : Env Token ρ Γ} {s : List Token} {pos : Nat}
  {ctx : Ctx Token} {ins k : Int} {kind insValue : String}

/-- There is no token of this kind at `pos`. -/
def NoToken (s : List Token) (kind : String) (pos : Nat) : Prop :=
  ∀ t, s[pos]? = some t → t.kind ≠ kind

/-- Where a token inserted at `pos` is located: where the token there starts; at the end of the
input, where the last token ends. -/
inductive InsertedAt (s : List Token) (pos : Nat) : Loc → Prop
  | before (t : Token) : s[pos]? = some t → InsertedAt s pos t.start
  | after (t : Token) : s[pos]? = none → s.getLast? = some t → InsertedAt s pos t.stop
  | empty : s = [] → InsertedAt s pos ⟨pos, 0, 0⟩

/-! ### Lemmas -/

theorem insertedAt_iff {l : Loc} : InsertedAt s pos l ↔ l = locFromStream s pos := by
  unfold locFromStream
  constructor
  · rintro (⟨t, h⟩ | ⟨t, h1, h2⟩ | h)
    · rw [h]
    · rw [h1, h2]
    · subst h; rfl
  · rintro rfl
    cases h1 : s[pos]? with
    | some t => exact .before t h1
    | none =>
      cases h2 : s.getLast? with
      | some t => exact .after t h1 h2
      | none => exact .empty (by simpa using h2)

theorem token_hit {c : Nat} {t : Token} (h : s[c]? = some t) (hk : t.kind = kind) :
    (Terminal.satisfy fun t : Token => .ok (t.kind == kind)).hit s c = .ok (some (t, c + 1)) := by
  simp [Terminal.satisfy, h, hk, Except.bind]

theorem token_miss {c : Nat} (h : NoToken s kind c) :
    (Terminal.satisfy fun t : Token => .ok (t.kind == kind)).hit s c = .ok none := by
  unfold Terminal.satisfy
  simp only
  cases hc : s[c]? with
  | none => rfl
  | some t => simp [Except.bind, h t hc]

theorem token_fast (n : Nat) : (denote env n (.token kind)).fast s pos ctx =
    ((denote env n (.satisfy fun t => .ok (t.kind == kind))).fast s pos ctx).bind fun r =>
      .ret (r.setExpected [kind]) := rfl

theorem token_fast_hit {t : Token} (h : s[pos]? = some t) (hk : t.kind = kind) (n : Nat) :
    (denote env n (.token kind)).fast s pos ctx = .ret (.ok ⟨t, pos + 1, ctx, [], true⟩) := by
  rw [token_fast, terminal_fast (.satisfy _), token_hit h hk]
  simp [Simple.setExpected, Ok.setExpected, Terminal.satisfy]

theorem token_fast_miss (h : NoToken s kind pos) (n : Nat) :
    (denote env n (.token kind)).fast s pos ctx =
      .ret (.error ⟨ctx.getLoc s pos, [kind], false⟩) := by
  rw [token_fast, terminal_fast (.satisfy _), token_miss h]
  rfl

theorem noToken_or (s : List Token) (kind : String) (pos : Nat) :
    NoToken s kind pos ∨ ∃ t, s[pos]? = some t ∧ t.kind = kind := by
  by_cases h : ∃ t, s[pos]? = some t ∧ t.kind = kind
  · exact .inr h
  · exact .inl fun t h1 h2 => h ⟨t, h1, h2⟩

section
variable {τ ρ : Type} {Γ : ρ → Type} {α : Type} [BEq τ] {env : Env τ ρ Γ} {s : List τ}
  {col : Nat → Nat → Prop} {m i j : Nat} {es : List Step}

theorem Der.inv_label {p : P τ ρ Γ α} {x : String} {v : α}
    (h : Der env s col (.label p x) m i es v j) : Der env s col p m i es v j := by
  cases h with
  | label h => exact h

/-- What a derivation of `satisfy` is; nothing about other parsers. -/
def SatisfyInv (s : List τ) (i j : Nat) (es : List Step) : {α : Type} → P τ ρ Γ α → α → Prop
  | _, .satisfy test, v =>
    (es = [] ∧ j = i + 1 ∧ s[i]? = some v ∧ test v = .ok true) ∨
      ∃ c, es = [.skip i (c - i)] ∧ j = c + 1 ∧ i < c ∧ s[c]? = some v ∧ test v = .ok true
  | _, _, _ => True

theorem Der.inv_satisfy {p : P τ ρ Γ α} {v : α} (h : Der env s col p m i es v j) :
    SatisfyInv s i j es p v := by
  cases h with
  | satisfy h1 h2 => exact .inl ⟨rfl, rfl, h1, h2⟩
  | satisfySkip h1 h2 h3 => exact .inr ⟨_, rfl, rfl, h1, h2, h3⟩
  | _ => trivial

end

/-! ### Theorems -/

/-- C57. `token(kind)` succeeds exactly where there is a token of this kind; it returns that token and
moves on by one. -/
theorem C57_token_reads {t : Token} {j : Nat} {ctx' : Ctx Token} :
    Reads env (.token kind) s pos ctx t j ctx' ↔
      s[pos]? = some t ∧ t.kind = kind ∧ j = pos + 1 ∧ ctx' = ctx := by
  constructor
  · rintro ⟨ex, c, n, h⟩
    simp only at h
    rcases noToken_or s kind pos with h1 | ⟨t', h1, h2⟩
    · rw [token_fast_miss h1] at h; cases h
    · rw [token_fast_hit h1 h2] at h; cases h; exact ⟨h1, h2, rfl, rfl⟩
  · rintro ⟨h1, h2, rfl, rfl⟩
    exact ⟨[], true, 0, token_fast_hit h1 h2 0⟩

/-- C57. Elsewhere it fails there, expecting the kind. -/
theorem C57_token_fails {e : Err} : Fails env (.token kind) s pos ctx e ↔
    NoToken s kind pos ∧ e = ⟨ctx.getLoc s pos, [kind], false⟩ := by
  constructor
  · rintro ⟨n, h⟩
    simp only at h
    rcases noToken_or s kind pos with h1 | ⟨t', h1, h2⟩
    · rw [token_fast_miss h1] at h; cases h; exact ⟨h1, rfl⟩
    · rw [token_fast_hit h1 h2] at h; cases h
  · rintro ⟨h1, rfl⟩
    exact ⟨0, token_fast_miss h1 0⟩

/-- C57. Without recovery `token_ins` is `token`. -/
theorem C57_token_ins_plain (o : Out (Simple Token Token)) :
    RunPlain env (.tokenIns kind insValue) s pos ctx o ↔ RunPlain env (.token kind) s pos ctx o :=
  Iff.rfl

/-- C57. With recovery too where the token is there. -/
theorem C57_token_there {t : Token} (h : s[pos]? = some t) (hk : t.kind = kind) (rem : Option Int) :
    RunRec env (.token kind) s pos ctx ins rem (.ret (.ok ⟨t, pos + 1, ctx, [], true⟩)) ∧
    RunRec env (.tokenIns kind insValue) s pos ctx ins rem
      (.ret (.ok ⟨t, pos + 1, ctx, [], true⟩)) :=
  ⟨⟨0, (sim_denote env 0 _).ok (token_fast_hit h hk 0) ins rem⟩,
    ⟨0, (sim_denote env 0 (.tokenIns kind insValue)).ok (token_fast_hit h hk 0 : (denote env 0
      (.token kind)).fast s pos ctx = _) ins rem⟩⟩

/-- The repair that skips `n` tokens, up to the token `t`. -/
def skipToken (s : List Token) (pos : Nat) (ctx : Ctx Token) (ins : Int) (kind : String) (n : Nat)
    (t : Token) : Repair Token Token :=
  { cost := n, prio := some 0, ins := ins,
    ops := [{ op := .skip n, loc := ctx.getLoc s pos, expected := [kind] }],
    value := t, pos := pos + n + 1, ctx := ctx.updateLoc s (pos + n + 1), consumed := true }

/-- C57. Where it is missing, `token(kind)` is repaired by skipping to the next token of this kind.
`token_ins` offers before that the insertion of `Token(kind, ins_value)`, located where it is
inserted, if an insertion is left. -/
theorem C57_skip {n : Nat} {t : Token} (h : ∀ i < n, NoToken s kind (pos + i)) (hn : 0 < n)
    (ht : s[pos + n]? = some t) (hk : t.kind = kind) :
    (∃ r, RunRec env (.token kind) s pos ctx ins (some k) (.ret (.recovered r)) ∧
      r.repairs = [skipToken s pos ctx ins kind n t] ∧ r.consumed = false) ∧
    (∃ r, RunRec env (.tokenIns kind insValue) s pos ctx ins (some 0) (.ret (.recovered r)) ∧
      r.repairs = [skipToken s pos ctx ins kind n t]) ∧
    ∀ loc, InsertedAt s pos loc → k ≠ 0 →
      ∃ r, RunRec env (.tokenIns kind insValue) s pos ctx ins (some k) (.ret (.recovered r)) ∧
        r.repairs = [userInsert ⟨kind, insValue, loc, loc⟩ kind s pos ctx k [kind],
          skipToken s pos ctx ins kind n t] := by
  have hlen : pos + n < s.length := by
    rcases Nat.lt_or_ge (pos + n) s.length with h | h
    · exact h
    · rw [List.getElem?_eq_none h] at ht; cases ht
  have h0 : ∀ k, (denote env 0 (.token kind)).fn s pos ctx ins (some k) =
      .ret (.recovered
        { repairs := [skipToken s pos ctx ins kind n t], minPrio := some n,
          loc := ctx.getLoc s pos, expected := [kind] }) := by
    intro k
    show ((denote env 0 (.satisfy fun t => .ok (t.kind == kind))).fn s pos ctx ins (some k)).bind
      (fun r => .ret (r.setExpected [kind])) = _
    rw [terminal_fn (.satisfy _) (token_miss (by simpa using h 0 hn)) 0,
      scan_eq_some (c := pos + n) (by omega) (by omega) (token_hit ht hk) fun c h1 h2 =>
        token_miss (by have := h (c - pos) (by omega); rwa [show pos + (c - pos) = c by omega] at this)]
    simp [Terminal.inserts, Terminal.satisfy, Terminal.skips, Result.setExpected,
      Recovered.setExpected, Repair.setExpected, skipToken, opsSetExpected, OpItem.setExpected]
  refine ⟨⟨_, ⟨0, h0 k⟩, rfl, rfl⟩, ⟨_, C30_otherwise_fn _ _ ⟨0, h0 0⟩ (.inr (.inr rfl)), rfl⟩, ?_⟩
  intro loc hloc hk
  obtain rfl := insertedAt_iff.1 hloc
  obtain ⟨r, h1, h2, -⟩ := C30_recover_with_fn
    (x := (⟨kind, insValue, locFromStream s pos, locFromStream s pos⟩ : Token))
    (fun s pos => .ok ⟨kind, insValue, locFromStream s pos, locFromStream s pos⟩) (fun _ => kind) ⟨0, h0 k⟩
    (by simp) rfl hk rfl
  exact ⟨r, h1, h2⟩

/-- C57. If there is no later token of this kind, `token(kind)` fails, and `token_ins` offers the
insertion only. -/
theorem C57_no_skip (h : ∀ i, NoToken s kind (pos + i)) :
    RunRec env (.token kind) s pos ctx ins (some k)
      (.ret (.error ⟨ctx.getLoc s pos, [kind], false⟩)) ∧
    ∀ loc, InsertedAt s pos loc → k ≠ 0 →
      ∃ r, RunRec env (.tokenIns kind insValue) s pos ctx ins (some k) (.ret (.recovered r)) ∧
        r.repairs = [userInsert ⟨kind, insValue, loc, loc⟩ kind s pos ctx k [kind]] := by
  have h0 : (denote env 0 (.token kind)).fn s pos ctx ins (some k) =
      .ret (.error ⟨ctx.getLoc s pos, [kind], false⟩) := by
    show ((denote env 0 (.satisfy fun t => .ok (t.kind == kind))).fn s pos ctx ins (some k)).bind
      (fun r => .ret (r.setExpected [kind])) = _
    rw [terminal_fn (.satisfy _) (token_miss (by simpa using h 0)) 0,
      scan_eq_none fun c h1 h2 =>
        token_miss (by have := h (c - pos); rwa [show pos + (c - pos) = c by omega] at this)]
    rfl
  refine ⟨⟨0, h0⟩, ?_⟩
  intro loc hloc hk
  obtain rfl := insertedAt_iff.1 hloc
  obtain ⟨r, h1, h2, -⟩ := C30_recover_with_fn
    (x := (⟨kind, insValue, locFromStream s pos, locFromStream s pos⟩ : Token))
    (fun s pos => .ok ⟨kind, insValue, locFromStream s pos, locFromStream s pos⟩) (fun _ => kind) ⟨0, h0⟩
    (by simp) rfl hk rfl
  exact ⟨r, h1, h2⟩

/-- C57. So with the edits of whatever repair, the value of `token_ins(kind, ins_value)` is a token of
this kind: one of the input, just before the place where it ends, or the inserted one. -/
theorem C57_kind {col : Nat → Nat → Prop} {m i j : Nat} {es : List Edit} {t : Token}
    (h : Derives env s col (.tokenIns kind insValue) m i es t j) :
    t.kind = kind ∧ ((0 < j ∧ s[j - 1]? = some t) ∨
      t.value = insValue ∧ j = i ∧ es = [⟨i, .insert kind⟩] ∧ InsertedAt s i t.start ∧
        InsertedAt s i t.stop) := by
  obtain ⟨st, rfl, h⟩ := h
  rcases h.inv_recoverWithFn with h | ⟨_, h, rfl, rfl, rfl⟩
  · rcases h.inv_label.inv_satisfy with ⟨_, rfl, h1, h2⟩ | ⟨c, _, rfl, _, h1, h2⟩
    · exact ⟨by simpa using h2, .inl ⟨by omega, by simpa using h1⟩⟩
    · exact ⟨by simpa using h2, .inl ⟨by omega, by simpa using h1⟩⟩
  · simp only [Except.ok.injEq] at h
    subst h
    exact ⟨rfl, .inr ⟨rfl, rfl, rfl, insertedAt_iff.2 rfl, insertedAt_iff.2 rfl⟩⟩

/-! ### An example -/

/-- Tokens are compared by kind and value; where they are does not matter. -/
theorem token_beq (a b : Token) : (a == b) = true ↔ a.kind = b.kind ∧ a.value = b.value := by
  obtain ⟨k, v, l, l'⟩ := a
  obtain ⟨k', v', m, m'⟩ := b
  change (k == k' && v == v') = true ↔ _
  simp

/-- C57. `sym(tok)` in a parser of tokens succeeds exactly where there is a token with the kind and the
value of `tok`, wherever the two are located; it returns the token of the input. -/
theorem C57_sym_reads {tok t : Token} {label : String} {j : Nat} {ctx' : Ctx Token} :
    Reads env (.sym tok label) s pos ctx t j ctx' ↔
      s[pos]? = some t ∧ t.kind = tok.kind ∧ t.value = tok.value ∧ j = pos + 1 ∧ ctx' = ctx := by
  have hs : ∀ n, (denote env n (.sym tok label)).fast s pos ctx = symFast tok [label] s pos ctx :=
    fun n => rfl
  constructor
  · rintro ⟨ex, c, n, h⟩
    simp only [hs, symFast] at h
    split at h
    · next t' ht =>
      cases h
      have h1 := symAt_some ht
      have h2 := (token_beq _ _).1 h1.2
      exact ⟨h1.1, h2.1, h2.2, rfl, rfl⟩
    · cases h
  · rintro ⟨h1, h2, h3, rfl, rfl⟩
    refine ⟨[], true, 0, ?_⟩
    have h4 : symAt tok s pos = some t := by
      simp [symAt, h1, (token_beq t tok).2 ⟨h2, h3⟩]
    simp only [hs, symFast, h4]

/-- C57. Elsewhere it fails there, expecting its label. -/
theorem C57_sym_fails {tok : Token} {label : String} {e : Err} :
    Fails env (.sym tok label) s pos ctx e ↔
      (∀ t, s[pos]? = some t → ¬ (t.kind = tok.kind ∧ t.value = tok.value)) ∧
        e = ⟨ctx.getLoc s pos, [label], false⟩ := by
  have hs : ∀ n, (denote env n (.sym tok label)).fast s pos ctx = symFast tok [label] s pos ctx :=
    fun n => rfl
  constructor
  · rintro ⟨n, h⟩
    simp only [hs, symFast] at h
    split at h
    · cases h
    · next hn =>
      cases h
      refine ⟨fun t h1 h2 => ?_, rfl⟩
      simp [symAt, h1, (token_beq t tok).2 h2] at hn
  · rintro ⟨h1, rfl⟩
    refine ⟨0, ?_⟩
    have h4 : symAt tok s pos = none := by
      cases hx : symAt tok s pos with
      | none => rfl
      | some t =>
        have h2 := symAt_some hx
        exact absurd ((token_beq _ _).1 h2.2) (h1 t h2.1)
    simp only [hs, symFast, h4]

namespace Samples

def tokAt (kind value : String) (a b : Nat) : Token := ⟨kind, value, ⟨a, 0, a⟩, ⟨b, 0, b⟩⟩

/-- `+ 1`, where a number is expected: insert one before the plus, or skip the plus. -/
example : InsertedAt [tokAt "op" "+" 0 1, tokAt "num" "1" 2 3] 0 ⟨0, 0, 0⟩ ∧
    (∀ i < 1, NoToken [tokAt "op" "+" 0 1, tokAt "num" "1" 2 3] "num" (0 + i)) ∧
    [tokAt "op" "+" 0 1, tokAt "num" "1" 2 3][0 + 1]? = some (tokAt "num" "1" 2 3) := by
  refine ⟨.before (tokAt "op" "+" 0 1) rfl, ?_, rfl⟩
  intro i hi t ht
  obtain rfl : i = 0 := by omega
  cases ht
  decide

end Samples

end Reparsec
