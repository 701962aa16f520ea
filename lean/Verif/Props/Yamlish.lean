import Verif.Lemmas.Yamlish
import Verif.Props.LL1
import Verif.Props.Exceptions
import Verif.Props.Prefix
import Verif.Props.Json

/-!
# C77: the indentation-sensitive parser of the tests computes the values of indented documents
-/

namespace Reparsec

open Yamlish

variable {space : Char → Bool} {s : List Char}

theorem Yamlish.textCol_eq (s : List Char) : textCol s = colOf s := by
  funext i c
  simp [textCol, colOf, lineStart, endCol]

/-- **C77**: `scannerless.parse(parser, s).unwrap()` returns `v` if and only if the text `s` is a document of the value
`v`. For every class of spaces `\s` that contains no letter (and no `_`). -/
theorem C77_exact (hsp : ∀ x, Start x → space x = false) (fmt : Loc → String) (v : Yamlish.V) :
    (∃ r, Returns (env space) (parser space) s (plain scannerlessGetLoc) r ∧ r.unwrap fmt false = .ok v) ↔
      Document space s v := by
  constructor
  · rintro ⟨r, h, hv⟩
    obtain ⟨j, -, st, he, hd⟩ := C24_accepted_text fmt h hv
    obtain rfl := edits_eq_nil.1 he
    rw [textCol_eq] at hd
    exact parser_sound hd
  · intro h
    obtain ⟨j, w, h⟩ := parser_complete (fun x hx => hsp x (isStart_iff.1 hx)) h
    rw [← textCol_eq] at h
    obtain ⟨r, h1, h2, -⟩ := (C58_text _).2 h
    exact ⟨_, h1, by rw [← h2]; rfl⟩

/-- C77: a document has only one value. -/
theorem C77_unambiguous (hsp : ∀ x, Start x → space x = false) {v v' : Yamlish.V}
    (h : Document space s v) (h' : Document space s v') : v = v' := by
  obtain ⟨r, h1, h2⟩ := (C77_exact hsp defaultFmtLoc v).2 h
  obtain ⟨r', h3, h4⟩ := (C77_exact hsp defaultFmtLoc v').2 h'
  cases returns_unique h1 h3
  exact Except.ok.inj (h2.symm.trans h4)

/-- C77: the same value with `recover=True`, and no error is reported then. -/
theorem C77_recovering (hsp : ∀ x, Start x → space x = false) (k : Int) {v : Yamlish.V}
    (h : Document space s v) :
    ∃ r, Returns (env space) (parser space) s (recovering k scannerlessGetLoc) r ∧
      ∀ fmt b, r.unwrap fmt b = .ok v := by
  obtain ⟨r, h1, h2⟩ := (C77_exact hsp defaultFmtLoc v).2 h
  exact C01_recovery_keeps_success _ _ _ _ k _ h1 h2

/-! ### It always ends, without exceptions -/

namespace Yamlish

theorem regexp_reads {f : List Char → Option Nat} {hf : ∀ l n, f l = some n → n ≤ l.length}
    (h : ∀ l, f l ≠ some 0) {a : String} : ¬ CanBeEmpty (env space) (.regexp (matcher f hf) : E String) a := by
  rintro ⟨s, pos, ctx, ctx', hp, ex, c, n, hn⟩
  have hn : regexpFast (matcher f hf) s pos ctx = .ret (.ok ⟨a, pos, ctx', ex, c⟩) := hn
  unfold regexpFast Matcher.at at hn
  cases hm : f (s.drop pos) with
  | none => simp [matcher, hm, Out.ofExcept] at hn
  | some n =>
    simp [matcher, hm, Out.ofExcept] at hn
    obtain ⟨-, rfl, -⟩ := hn
    exact h _ hm

theorem identLen_pos (l : List Char) : identLen l ≠ some 0 := by
  cases l with
  | nil => simp [identLen]
  | cons c l => unfold identLen; split <;> simp

theorem eolLen_pos (l : List Char) : eolLen space l ≠ some 0 := by
  cases l with
  | nil => simp [eolLen]
  | cons c l => unfold eolLen; split <;> simp

theorem wf (space : Char → Bool) : WellFounded fun j i => LeftCalls (env space) i j := by
  have h : ∀ i j, ¬ LeftCalls (env space) i j := by
    rintro i j ⟨q, ⟨⟩, hs⟩
    simp only [P.StartsWith, value, scalar, nested, P.seq, P.seql, P.seqr, P.map, ident, eol, colon, false_or,
      and_false] at hs
    obtain ⟨-, ⟨a, ha⟩, -⟩ := hs
    exact regexp_reads eolLen_pos ha
  exact ⟨fun i => ⟨i, fun j h' => absurd h' (h i j)⟩⟩

theorem pair_reads {col : Nat → Nat → Prop} {m i : Nat} {kv : String × V} (hi : i ≤ s.length) :
    ¬ Der (env space) s col (.aligned pair) m i [] kv i := by
  intro h
  obtain ⟨-, h⟩ := h.inv
  obtain ⟨q, ⟨⟩, h⟩ := h.inv
  obtain ⟨es1, es2, _, _, l2, he, -, h, hv⟩ := h.inv
  obtain ⟨rfl, rfl⟩ := List.append_eq_nil_iff.1 he.symm
  obtain ⟨es1, es2, _, _, l1, he, -, h, hw⟩ := h.inv
  obtain ⟨rfl, rfl⟩ := List.append_eq_nil_iff.1 he.symm
  have b1 := der_inOrder h hi
  have b2 := der_inOrder hw b1.2
  have b3 := der_inOrder hv b2.2
  obtain ⟨k, -, hk, hr⟩ := h.inv
  obtain rfl := hk rfl
  simp only [matcher, Option.map_eq_some_iff, Prod.mk.injEq] at hr
  obtain ⟨n, hn, rfl, -⟩ := hr
  have : n ≠ 0 := by rintro rfl; exact identLen_pos _ hn
  have := b2.1.le
  have := b3.1.le
  omega

theorem quiet (space : Char → Bool) (s : List Char) : Everywhere (env space)
    (fun p => p.raisesOnly (env space) s (fun _ => False) ∧ p.defined (env space) ∧ p.properMany (env space))
    (parser space) := by
  have hm : P.properMany (env space) (.many (.aligned pair)) := fun s col m i v hi => pair_reads hi
  have hr : ∀ (f : List Char → Option Nat) hf,
      P.raisesOnly (env space) s (fun _ => False) (.regexp (matcher f hf) : E String) := by
    intro f hf j l e h
    simp only [matcher, Option.map_eq_some_iff, Prod.mk.injEq] at h
    obtain ⟨n, -, -, h⟩ := h
    cases h
  simp only [pair] at hm
  refine ⟨?_, ?_⟩
  · simp only [parser, P.seql, P.seqr, P.map, P.All, pairs, pair, ows, hm, hr]
    simp [P.raisesOnly, P.defined, P.properMany, env]
  · rintro i q ⟨⟩
    simp only [value, scalar, nested, P.seq, P.seql, P.seqr, P.map, P.All, pairs, pair, ident, eol, colon, hm, hr]
    simp [P.raisesOnly, P.defined, P.properMany, env]

end Yamlish

/-- **C77**, totality: on every text, `parse(..)` returns: a value or a `ParseError`. In both modes, for every
`get_loc`. -/
theorem C77_total (o : Opts Char) (hk : 0 ≤ o.maxInsertions) : ∃ r, Returns (env space) (parser space) s o r := by
  rcases C23_terminates (env space) (wf space) (parser space) s o hk with h | ⟨e, he⟩
  · exact h
  · exact (C69_only (quiet space s) o he).elim

/-- C77: `loads` returns or raises `ParseError`: the latter on texts that are no documents. -/
theorem C77_rejects (hsp : ∀ x, Start x → space x = false) (fmt : Loc → String) :
    (∃ r pe, Returns (env space) (parser space) s (plain scannerlessGetLoc) r ∧ r.unwrap fmt false = .error pe) ↔
      ¬ ∃ v, Document space s v := by
  constructor
  · rintro ⟨r, pe, h, he⟩ ⟨v, hv⟩
    obtain ⟨r', h', hv⟩ := (C77_exact hsp fmt v).2 hv
    cases returns_unique h h'
    rw [he] at hv
    cases hv
  · intro h
    obtain ⟨r, hr⟩ := C77_total (space := space) (s := s) (plain scannerlessGetLoc) (by decide)
    cases hu : r.unwrap fmt false with
    | ok v => exact absurd ⟨v, (C77_exact hsp fmt v).1 ⟨r, hr, hu⟩⟩ h
    | error pe => exact ⟨r, pe, hr, hu⟩

/-! ### Cases that meet the hypotheses -/

namespace Samples

/-- ` ` and line breaks. -/
def blank (c : Char) : Bool := c == ' ' || c == '\n'

theorem blank_ok (x : Char) (h : Start x) : blank x = false := by
  rw [← isStart_iff] at h
  cases hb : blank x with
  | false => rfl
  | true =>
    simp only [blank, Bool.or_eq_true, beq_iff_eq] at hb
    rcases hb with rfl | rfl <;> revert h <;> decide

set_option maxRecDepth 100000 in
/-- `tests/test_yamlish.py:16-33`, with a key that occurs twice: its last value counts. -/
theorem yamlish_sample : Document blank "\nfoo:\n    a: b\n    c: d\n    a: x\n\nq : u".toList
    (.dict [("foo", .dict [("a", .str "x"), ("c", .str "d")]), ("q", .str "u")]) :=
  (C77_exact blank_ok defaultFmtLoc _).1 ⟨_, ⟨40, rfl⟩, rfl⟩

set_option maxRecDepth 100000 in
/-- Three columns are not four. -/
example : ¬ ∃ v, Document blank "a:\n   b: c".toList v :=
  (C77_rejects blank_ok defaultFmtLoc).1 ⟨_, _, ⟨40, rfl⟩, rfl⟩

set_option maxRecDepth 100000 in
/-- A value may not be followed by blanks. -/
example : ¬ ∃ v, Document blank "a: b \n".toList v :=
  (C77_rejects blank_ok defaultFmtLoc).1 ⟨_, _, ⟨40, rfl⟩, rfl⟩

end Samples

end Reparsec
