import Verif.Spec.IterTokens
import Verif.Props.Lexing

/-!
# C78: `iter_tokens` gives the tokens one by one, before it raises
-/

namespace Reparsec

variable {src : List Char} {spec : LexSpec}

namespace TokenGenState

/-- The variables at position `i`. -/
def exact (src : List Char) (i : Nat) : TokenGenState :=
  ⟨i, (exactLoc src i).line, (exactLoc src i).col, exactLoc src i⟩

end TokenGenState

open TokenGenState

theorem lexEndLoc_eq (src : List Char) (i j : Nat) (loc : Loc) :
    lexEndLoc src i j loc = ⟨j, if countNl src i j ≠ 0 then loc.line + countNl src i j else loc.line,
      if countNl src i j ≠ 0 then j - ((rfindNl src i j).getD 0) - 1 else loc.col + (j - i)⟩ := by
  unfold lexEndLoc
  by_cases h : countNl src i j = 0 <;> simp [h]

/-- One iteration of the loop. -/
theorem tokenLoop_step {fuel i : Nat} (hi : i ≤ src.length) :
    tokenLoop src spec (fuel + 1) (exact src i) =
      if i < src.length then
        match spec.run src i with
        | none => .ret (.raises (.lexError (exactLoc src i)), none)
        | some m => match m.group with
          | some (kind, value) =>
            .ret (.token ⟨kind, value, exactLoc src i, exactLoc src m.stop⟩, some (exact src m.stop))
          | none => tokenLoop src spec fuel (exact src m.stop)
      else .ret (.stops, none) := by
  rw [tokenLoop]
  show (if i < src.length then _ else _) = _
  split
  · show (match spec.run src i with | none => _ | some m => _) = _
    cases hm : spec.run src i with
    | none => rfl
    | some m =>
      have hb := spec.bounds _ _ _ hi hm
      have he := (exactLoc_step hb.1 hb.2).trans (lexEndLoc_eq ..)
      simp only [exact, he]
      rfl
  · rfl

theorem tokenLoop_le {fuel fuel' : Nat} (hle : fuel ≤ fuel') {g : TokenGenState} {r : TokenEvent × TokenGen}
    (h : tokenLoop src spec fuel g = .ret r) : tokenLoop src spec fuel' g = .ret r := by
  induction fuel generalizing fuel' g with
  | zero => simp [tokenLoop] at h
  | succ fuel ih =>
    obtain ⟨fuel', rfl⟩ := Nat.exists_eq_add_of_le' (Nat.lt_of_lt_of_le (Nat.succ_pos fuel) hle)
    rw [tokenLoop] at h ⊢
    split
    · next hlt =>
      rw [if_pos hlt] at h
      cases hm : spec.run src g.pos with
      | none => simpa [hm] using h
      | some m =>
        simp only [hm] at h ⊢
        cases hg : m.group with
        | none => simp only [hg] at h ⊢; exact ih (by omega) h
        | some kv => simp only [hg] at h ⊢; exact h
    · next hlt => rwa [if_neg hlt] at h

theorem ProducesOne.skip {i : Nat} {m : LexMatch} {x : TokenEvent} {a : Option Nat} (hi : i < src.length)
    (hm : spec.run src i = some m) (hg : m.group = none) (h : ProducesOne src spec (some m.stop) x a) :
    ProducesOne src spec (some i) x a := by
  cases h with
  | token h1 h2 h3 h4 => exact .token (.step hi hm hg h1) h2 h3 h4
  | ends h => exact .ends (.step hi hm hg h)
  | fails h1 h2 h3 => exact .fails (.step hi hm hg h1) h2 h3

theorem tokenLoop_sound {fuel i : Nat} (hi : i ≤ src.length) {x : TokenEvent} {g : TokenGen}
    (h : tokenLoop src spec fuel (exact src i) = .ret (x, g)) :
    ∃ a, ProducesOne src spec (some i) x a ∧ g = a.map (exact src) ∧ ∀ j, a = some j → j ≤ src.length := by
  induction fuel generalizing i with
  | zero => simp [tokenLoop] at h
  | succ fuel ih =>
    rw [tokenLoop_step hi] at h
    split at h
    · next hlt =>
      cases hm : spec.run src i with
      | none =>
        simp only [hm, Out.ret.injEq, Prod.mk.injEq] at h
        obtain ⟨rfl, rfl⟩ := h
        exact ⟨none, .fails .here hlt hm, rfl, fun _ h => by cases h⟩
      | some m =>
        have hb := spec.bounds _ _ _ hi hm
        simp only [hm] at h
        cases hg : m.group with
        | none =>
          simp only [hg] at h
          obtain ⟨a, h1, h2, h3⟩ := ih hb.2 h
          exact ⟨a, h1.skip hlt hm hg, h2, h3⟩
        | some kv =>
          simp only [hg, Out.ret.injEq, Prod.mk.injEq] at h
          obtain ⟨rfl, rfl⟩ := h
          exact ⟨some m.stop, .token .here hlt hm hg, rfl, fun j h => by cases h; exact hb.2⟩
    · next hlt =>
      simp only [Out.ret.injEq, Prod.mk.injEq] at h
      obtain ⟨rfl, rfl⟩ := h
      obtain rfl : i = src.length := by omega
      exact ⟨none, .ends .here, rfl, fun _ h => by cases h⟩

theorem tokenLoop_skips {i k : Nat} (hs : Skips src spec i k) (hi : i ≤ src.length) {r : TokenEvent × TokenGen}
    {fuel : Nat} (h : tokenLoop src spec fuel (exact src k) = .ret r) :
    ∃ fuel, tokenLoop src spec fuel (exact src i) = .ret r := by
  induction hs with
  | here => exact ⟨_, h⟩
  | step hlt hm hg _ ih =>
    obtain ⟨f, hf⟩ := ih (spec.bounds _ _ _ hi hm).2 h
    refine ⟨f + 1, ?_⟩
    rw [tokenLoop_step hi, if_pos hlt, hm]
    simp only [hg, hf]

theorem Skips.le {i k : Nat} (hs : Skips src spec i k) (hi : i ≤ src.length) : k ≤ src.length := by
  induction hs with
  | here => exact hi
  | step _ hm _ _ ih => exact ih (spec.bounds _ _ _ hi hm).2

theorem nextToken_complete {a a' : Option Nat} {x : TokenEvent} (h : ProducesOne src spec a x a')
    (ha : ∀ j, a = some j → j ≤ src.length) :
    ∃ fuel, nextToken src spec fuel (a.map (exact src)) = .ret (x, a'.map (exact src)) := by
  cases h with
  | @token i k m kind value h1 h2 h3 h4 =>
    refine tokenLoop_skips h1 (ha _ rfl) (fuel := 1) ?_
    rw [tokenLoop_step (Nat.le_of_lt h2), if_pos h2, h3]
    simp only [h4]
    rfl
  | ends h =>
    refine tokenLoop_skips h (ha _ rfl) (fuel := 1) ?_
    rw [tokenLoop_step (Nat.le_refl _), if_neg (Nat.lt_irrefl _)]
    rfl
  | fails h1 h2 h3 =>
    refine tokenLoop_skips h1 (ha _ rfl) (fuel := 1) ?_
    rw [tokenLoop_step (Nat.le_of_lt h2), if_pos h2, h3]
    rfl
  | ended => exact ⟨0, rfl⟩

theorem nextToken_sound {a : Option Nat} (ha : ∀ j, a = some j → j ≤ src.length) {fuel : Nat} {x : TokenEvent}
    {g : TokenGen} (h : nextToken src spec fuel (a.map (exact src)) = .ret (x, g)) :
    ∃ a', ProducesOne src spec a x a' ∧ g = a'.map (exact src) ∧ ∀ j, a' = some j → j ≤ src.length := by
  cases a with
  | none =>
    simp only [Option.map_none, nextToken, Out.ret.injEq, Prod.mk.injEq] at h
    obtain ⟨rfl, rfl⟩ := h
    exact ⟨none, .ended, rfl, ha⟩
  | some i => exact tokenLoop_sound (ha i rfl) h

theorem nextToken_le {fuel fuel' : Nat} (hle : fuel ≤ fuel') {g : TokenGen} {r : TokenEvent × TokenGen}
    (h : nextToken src spec fuel g = .ret r) : nextToken src spec fuel' g = .ret r := by
  cases g with
  | none => exact h
  | some g => exact tokenLoop_le hle h

theorem nextTokens_le {fuel fuel' : Nat} (hle : fuel ≤ fuel') {n : Nat} {g : TokenGen} {xs : List TokenEvent}
    (h : nextTokens src spec fuel n g = .ret xs) : nextTokens src spec fuel' n g = .ret xs := by
  induction n generalizing g xs with
  | zero => exact h
  | succ n ih =>
    simp only [nextTokens, Out.bind_def, Out.bind_eq_ret] at h ⊢
    obtain ⟨⟨x, g'⟩, h1, ys, h2, h3⟩ := h
    exact ⟨_, nextToken_le hle h1, ys, ih h2, h3⟩

theorem Produces.cons_iff {a : Option Nat} {x : TokenEvent} {xs : List TokenEvent} :
    Produces src spec a (x :: xs) ↔ ∃ a', ProducesOne src spec a x a' ∧ Produces src spec a' xs := by
  constructor
  · intro h
    cases h with
    | token h1 h2 h3 h4 h => exact ⟨_, .token h1 h2 h3 h4, h⟩
    | ends h1 h => exact ⟨_, .ends h1, h⟩
    | fails h1 h2 h3 h => exact ⟨_, .fails h1 h2 h3, h⟩
    | ended h => exact ⟨_, .ended, h⟩
  · rintro ⟨a', h1, h⟩
    cases h1 with
    | token h1 h2 h3 h4 => exact .token h1 h2 h3 h4 h
    | ends h1 => exact .ends h1 h
    | fails h1 h2 h3 => exact .fails h1 h2 h3 h
    | ended => exact .ended h

theorem ProducesOne.bound {a a' : Option Nat} {x : TokenEvent} (h : ProducesOne src spec a x a') :
    ∀ j, a' = some j → j ≤ src.length := by
  cases h with
  | token h1 h2 h3 h4 =>
    intro j h
    cases h
    exact (spec.bounds _ _ _ (Nat.le_of_lt h2) h3).2
  | _ => exact fun j h => by cases h

theorem nextTokens_iff {a : Option Nat} (ha : ∀ j, a = some j → j ≤ src.length) (xs : List TokenEvent) :
    (∃ fuel, nextTokens src spec fuel xs.length (a.map (exact src)) = .ret xs) ↔ Produces src spec a xs := by
  induction xs generalizing a with
  | nil => exact ⟨fun _ => .nothing, fun _ => ⟨0, rfl⟩⟩
  | cons x xs ih =>
    rw [Produces.cons_iff]
    constructor
    · rintro ⟨fuel, h⟩
      simp only [List.length_cons, nextTokens, Out.bind_def, Out.bind_eq_ret, Out.pure_def, Out.ret.injEq,
        List.cons.injEq] at h
      obtain ⟨⟨y, g⟩, h1, ys, h2, rfl, rfl⟩ := h
      obtain ⟨a', h3, rfl, h4⟩ := nextToken_sound ha h1
      exact ⟨a', h3, (ih h4).1 ⟨fuel, h2⟩⟩
    · rintro ⟨a', h1, h2⟩
      obtain ⟨f1, h3⟩ := nextToken_complete h1 ha
      obtain ⟨f2, h4⟩ := (ih h1.bound).2 h2
      refine ⟨max f1 f2, ?_⟩
      simp only [List.length_cons, nextTokens, Out.bind_def, Out.bind_eq_ret, Out.pure_def, Out.ret.injEq,
        List.cons.injEq]
      exact ⟨_, nextToken_le (Nat.le_max_left ..) h3, xs, nextTokens_le (Nat.le_max_right ..) h4, rfl, rfl⟩

/-- **C78**: calls of `next` on `iter_tokens(src, spec)` give exactly: the tokens of the successive matches with a named
group, with exact locations; then `StopIteration` if the source is exhausted, or `LexError` with the exact location of
the first position where nothing matches; and then `StopIteration` for ever. -/
theorem C78_next (src : List Char) (spec : LexSpec) (xs : List TokenEvent) :
    (∃ fuel, nextTokens src spec fuel xs.length tokenGen = .ret xs) ↔ Produces src spec (some 0) xs :=
  nextTokens_iff (a := some 0) (fun j h => by cases h; exact Nat.zero_le _) xs

/-! ### `split_tokens` -/

theorem produces_tiles {i : Nat} (hi : i ≤ src.length) {toks : List Token} :
    Produces src spec (some i) (toks.map .token ++ [.stops]) ↔ Tiles src spec i toks := by
  constructor
  · have skip : ∀ {i k toks}, Skips src spec i k → Tiles src spec k toks → Tiles src spec i toks := by
      intro i k toks hs ht
      induction hs with
      | here => exact ht
      | step h1 h2 h3 _ ih => exact .space h1 h2 h3 (ih ht)
    intro h
    induction toks generalizing i with
    | nil =>
      cases h with
      | ends h1 _ => exact skip h1 .done
    | cons t toks ih =>
      cases h with
      | token h1 h2 h3 h4 h =>
        exact skip h1 (.token h2 h3 h4 (ih (spec.bounds _ _ _ (Nat.le_of_lt h2) h3).2 h))
  · intro h
    have skip : ∀ {i m xs}, xs ≠ [] → i < src.length → spec.run src i = some m → m.group = none →
        Produces src spec (some m.stop) xs → Produces src spec (some i) xs := by
      intro i m xs hne h1 h2 h3 h
      cases xs with
      | nil => exact absurd rfl hne
      | cons x xs =>
        obtain ⟨a, h4, h5⟩ := Produces.cons_iff.1 h
        exact Produces.cons_iff.2 ⟨a, h4.skip h1 h2 h3, h5⟩
    induction h with
    | done => exact .ends .here .nothing
    | space h1 h2 h3 _ ih => exact skip (by simp) h1 h2 h3 (ih (spec.bounds _ _ _ hi h2).2)
    | token h1 h2 h3 _ ih => exact .token .here h1 h2 h3 (ih (spec.bounds _ _ _ hi h2).2)

/-- C78: `split_tokens` returns the tokens that `next` gives before `StopIteration`, … -/
theorem C78_split_returns (src : List Char) (spec : LexSpec) (toks : List Token) :
    LexReturns src spec toks ↔ Produces src spec (some 0) (toks.map .token ++ [.stops]) :=
  (C37_returns_iff src spec toks).trans (produces_tiles (Nat.zero_le _)).symm

theorem produces_fails {i : Nat} {e : Exn} :
    (∃ toks : List Token, Produces src spec (some i) (toks.map .token ++ [.raises e])) ↔
      ∃ q, Reaches src spec i q ∧ q < src.length ∧ spec.run src q = none ∧ e = .lexError (exactLoc src q) := by
  constructor
  · have skip : ∀ {i k q}, Skips src spec i k → Reaches src spec k q → Reaches src spec i q := by
      intro i k toks hs ht
      induction hs with
      | here => exact ht
      | step h1 h2 h3 _ ih => exact .step h1 h2 (ih ht)
    rintro ⟨toks, h⟩
    induction toks generalizing i with
    | nil =>
      cases h with
      | fails h1 h2 h3 _ => exact ⟨_, skip h1 .here, h2, h3, rfl⟩
    | cons t toks ih =>
      cases h with
      | token h1 h2 h3 h4 h =>
        obtain ⟨q, h5, h6⟩ := ih h
        exact ⟨q, skip h1 (.step h2 h3 h5), h6⟩
  · rintro ⟨q, h1, h2, h3, rfl⟩
    induction h1 with
    | here => exact ⟨[], .fails .here h2 h3 .nothing⟩
    | @step i q m h4 h5 _ ih =>
      obtain ⟨toks, h⟩ := ih h2 h3
      cases hg : m.group with
      | some kv => exact ⟨_ :: toks, .token .here h4 h5 hg h⟩
      | none =>
        refine ⟨toks, ?_⟩
        generalize hx : toks.map TokenEvent.token ++ [.raises (.lexError (exactLoc src q))] = xs at h
        cases xs with
        | nil => simp at hx
        | cons x xs =>
          obtain ⟨a, h6, h7⟩ := Produces.cons_iff.1 h
          exact Produces.cons_iff.2 ⟨a, h6.skip h4 h5 hg, h7⟩

/-- … and raises what `next` raises after the last token. -/
theorem C78_split_raises (src : List Char) (spec : LexSpec) (e : Exn) :
    LexRaises src spec e ↔ ∃ toks : List Token, Produces src spec (some 0) (toks.map .token ++ [.raises e]) :=
  (C37_raises_iff src spec e).trans produces_fails.symm

/-! ### Empty matches -/

/-- C78: at an empty match with a named group, `next` gives the same token again and again. (`split_tokens` does not
return then, see C38.) -/
theorem C78_endless {j : Nat} {m : LexMatch} {kv : String × String} (hr : Reaches src spec 0 j) (hj : j < src.length)
    (hm : spec.run src j = some m) (he : m.stop = j) (hg : m.group = some kv) (n : Nat) :
    ∃ toks : List Token, toks.length = n ∧ Produces src spec (some 0) (toks.map .token) := by
  generalize 0 = i at hr
  induction n generalizing i with
  | zero => exact ⟨[], rfl, .nothing⟩
  | succ n ih =>
    induction hr with
    | here =>
      obtain ⟨toks, h1, h2⟩ := ih _ .here
      rw [← he] at h2
      exact ⟨_ :: toks, by rw [List.length_cons, h1], .token .here hj hm hg (he ▸ h2)⟩
    | @step i j m' h1 h2 h3 ih' =>
      cases hg' : m'.group with
      | some kv =>
        obtain ⟨toks, h4, h5⟩ := ih _ h3
        exact ⟨_ :: toks, by rw [List.length_cons, h4], .token .here h1 h2 hg' h5⟩
      | none =>
        obtain ⟨toks, h4, h5⟩ := ih' hj hm he ih
        refine ⟨toks, h4, ?_⟩
        cases toks with
        | nil => cases h4
        | cons t toks =>
          obtain ⟨a, h6, h7⟩ := Produces.cons_iff.1 h5
          exact Produces.cons_iff.2 ⟨a, h6.skip h1 h2 hg', h7⟩

theorem tokenLoop_spins {i : Nat} (hi : i ≤ src.length) (h : SpinsFrom src spec i) (fuel : Nat) :
    tokenLoop src spec fuel (exact src i) = .diverge := by
  obtain ⟨k, m, h1, h2, h3, h4, h5⟩ := h
  induction fuel generalizing i with
  | zero => rfl
  | succ fuel ih =>
    rw [tokenLoop_step hi]
    cases h1 with
    | here =>
      simp only [h2, if_true, h3, h4, h5]
      exact ih hi .here
    | step h6 h7 h8 h1 =>
      simp only [h6, if_true, h7, h8]
      exact ih (spec.bounds _ _ _ hi h7).2 h1

theorem produces_or_spins {i : Nat} (hi : i ≤ src.length) :
    SpinsFrom src spec i ∨ ∃ x a, ProducesOne src spec (some i) x a := by
  generalize hn : src.length - i = n
  induction n using Nat.strongRecOn generalizing i with
  | ind n ih =>
    by_cases hlt : i < src.length
    · cases hm : spec.run src i with
      | none => exact .inr ⟨_, _, .fails .here hlt hm⟩
      | some m =>
        have hb := spec.bounds _ _ _ hi hm
        cases hg : m.group with
        | some kv => exact .inr ⟨_, _, .token .here hlt hm hg⟩
        | none =>
          by_cases he : m.stop = i
          · exact .inl ⟨i, m, .here, hlt, hm, hg, he⟩
          · rcases ih (src.length - m.stop) (by omega) hb.2 rfl with ⟨k, m', h1, h⟩ | ⟨x, a, h⟩
            · exact .inl ⟨k, m', .step hlt hm hg h1, h⟩
            · exact .inr ⟨x, a, h.skip hlt hm hg⟩
    · obtain rfl : i = src.length := by omega
      exact .inr ⟨_, _, .ends .here⟩

theorem nextTokens_hangs {a : Option Nat} (ha : ∀ j, a = some j → j ≤ src.length) (n : Nat) :
    (∀ fuel, ¬ ∃ xs, nextTokens src spec fuel n (a.map (exact src)) = .ret xs) ↔
      ∃ xs i, xs.length < n ∧ Passes src spec a xs (some i) ∧ SpinsFrom src spec i := by
  induction n generalizing a with
  | zero => exact ⟨fun h => absurd ⟨[], rfl⟩ (h 0), fun ⟨_, _, h, _⟩ => absurd h (Nat.not_lt_zero _)⟩
  | succ n ih =>
    constructor
    · intro h
      have one : ∀ x a', ProducesOne src spec a x a' →
          ∃ xs i, xs.length < n + 1 ∧ Passes src spec a xs (some i) ∧ SpinsFrom src spec i := by
        intro x a' h1
        obtain ⟨f, h2⟩ := nextToken_complete h1 ha
        obtain ⟨xs, i, h3, h4, h5⟩ := (ih h1.bound).1 (by
          rintro fuel ⟨xs, hx⟩
          refine h (max f fuel) ⟨x :: xs, ?_⟩
          simp only [nextTokens, Out.bind_def, Out.bind_eq_ret]
          exact ⟨_, nextToken_le (Nat.le_max_left ..) h2, xs, nextTokens_le (Nat.le_max_right ..) hx, rfl⟩)
        exact ⟨x :: xs, i, by simpa using h3, .cons h1 h4, h5⟩
      cases a with
      | none => exact one _ _ .ended
      | some i =>
        rcases produces_or_spins (spec := spec) (ha i rfl) with hs | ⟨x, a', h1⟩
        · exact ⟨[], i, Nat.succ_pos _, .nil, hs⟩
        · exact one x a' h1
    · rintro ⟨xs, i, h1, h2, h3⟩ fuel ⟨ys, hy⟩
      simp only [nextTokens, Out.bind_def, Out.bind_eq_ret] at hy
      obtain ⟨⟨y, g⟩, h4, ys, h5, -⟩ := hy
      cases h2 with
      | nil =>
        have := tokenLoop_spins (ha i rfl) h3 fuel
        exact absurd (h4.symm.trans this) (by simp)
      | @cons _ b _ x xs h6 h7 =>
        obtain ⟨f, h8⟩ := nextToken_complete h6 ha
        have e := (nextToken_le (Nat.le_max_left fuel f) h4).symm.trans (nextToken_le (Nat.le_max_right fuel f) h8)
        simp only [Out.ret.injEq, Prod.mk.injEq] at e
        obtain ⟨rfl, rfl⟩ := e
        exact (ih h6.bound).2 ⟨xs, i, by simpa using h1, h7, h3⟩ fuel ⟨ys, h5⟩

/-- C78: among the first `n` calls of `next` there is one that does not return if and only if, after fewer than `n`
tokens, the matches without a named group come to an empty one. -/
theorem C78_hangs (src : List Char) (spec : LexSpec) (n : Nat) :
    (∀ fuel, ¬ ∃ xs, nextTokens src spec fuel n tokenGen = .ret xs) ↔
      ∃ xs i, xs.length < n ∧ Passes src spec (some 0) xs (some i) ∧ SpinsFrom src spec i :=
  nextTokens_hangs (a := some 0) (fun j h => by cases h; exact Nat.zero_le _) n

/-! ### Cases that meet the hypotheses -/

namespace Samples

/-- `a` is a token, a blank is none; nothing else matches. -/
def letters : LexSpec where
  run s i := match s[i]? with
    | some 'a' => some ⟨i + 1, some ("letter", "a")⟩
    | some ' ' => some ⟨i + 1, none⟩
    | _ => none
  bounds := by
    intro s i m hi h
    split at h
    · next he =>
      cases h
      have := (List.getElem?_eq_some_iff.1 he).1
      exact ⟨Nat.le_succ _, this⟩
    · next he =>
      cases h
      have := (List.getElem?_eq_some_iff.1 he).1
      exact ⟨Nat.le_succ _, this⟩
    · cases h

/-- `next` gives the token before the error, although `split_tokens` gives only the error. -/
example : Produces "a ?a".toList letters (some 0) [.token ⟨"letter", "a", ⟨0, 0, 0⟩, ⟨1, 0, 1⟩⟩,
      .raises (.lexError ⟨2, 0, 2⟩), .stops, .stops] ∧ LexRaises "a ?a".toList letters (.lexError ⟨2, 0, 2⟩) :=
  ⟨(C78_next _ _ _).1 ⟨5, rfl⟩, 5, rfl⟩

example : Produces " a ".toList letters (some 0) [.token ⟨"letter", "a", ⟨1, 0, 1⟩, ⟨2, 0, 2⟩⟩, .stops] :=
  (C78_next _ _ _).1 ⟨5, rfl⟩

/-- Matches the empty string everywhere, with or without a named group. -/
def nothing (g : Option (String × String)) : LexSpec where
  run _ i := some ⟨i, g⟩
  bounds := by rintro s i m hi ⟨⟩; exact ⟨Nat.le_refl _, hi⟩

/-- Any number of tokens from `"a"`. -/
example (n : Nat) : ∃ toks : List Token, toks.length = n ∧
    Produces "a".toList (nothing (some ("k", ""))) (some 0) (toks.map .token) :=
  C78_endless (j := 0) .here (by decide) rfl rfl rfl n

/-- The first call of `next` does not return. -/
example (fuel : Nat) : ¬ ∃ xs, nextTokens "a".toList (nothing none) fuel 1 tokenGen = .ret xs :=
  (C78_hangs _ _ 1).2 ⟨[], 0, Nat.zero_lt_one, .nil, 0, ⟨0, none⟩, .here, by decide, rfl, rfl, rfl⟩ fuel

end Samples

end Reparsec
