import Verif.Lemmas.JsonText
import Verif.Props.LL1
import Verif.Props.Exceptions
import Verif.Props.Json

/-!
# C80: the scannerless JSON parser of the tests computes the values of JSON texts
-/

namespace Reparsec

open JsonText
open Json (V Fns)

variable {F : Type} {J : Fns F} {s : List Char}

/-- **C80**: `loads(s)`, which is `scannerless.parse(parser, s).unwrap()`, returns `v` if and only if the text `s` is a
JSON text of the value `v`. -/
theorem C80_exact (fmt : Loc → String) (v : V F) :
    (∃ r, Returns (env J) parser s (plain scannerlessGetLoc) r ∧ r.unwrap fmt false = .ok v) ↔ Text J s v := by
  constructor
  · rintro ⟨r, h, hv⟩
    obtain ⟨j, -, st, he, hd⟩ := C24_accepted_text fmt h hv
    obtain rfl := edits_eq_nil.1 he
    exact parser_sound hd
  · intro h
    obtain ⟨j, w, h⟩ := parser_complete (col := textCol s) (m := 0) h
    obtain ⟨r, h1, h2, -⟩ := (C58_text _).2 h
    exact ⟨_, h1, by rw [← h2]; rfl⟩

/-- C80: a JSON text has only one value. -/
theorem C80_unambiguous {v v' : V F} (h : Text J s v) (h' : Text J s v') : v = v' := by
  obtain ⟨r, h1, h2⟩ := (C80_exact defaultFmtLoc v).2 h
  obtain ⟨r', h3, h4⟩ := (C80_exact defaultFmtLoc v').2 h'
  cases returns_unique h1 h3
  exact Except.ok.inj (h2.symm.trans h4)

/-- C80: the same value with `recover=True`, and no error is reported then. -/
theorem C80_recovering (k : Int) {v : V F} (h : Text J s v) :
    ∃ r, Returns (env J) parser s (recovering k scannerlessGetLoc) r ∧ ∀ fmt b, r.unwrap fmt b = .ok v := by
  obtain ⟨r, h1, h2⟩ := (C80_exact defaultFmtLoc v).2 h
  exact C01_recovery_keeps_success _ _ _ _ k _ h1 h2

/-! ### It always ends -/

namespace JsonText

theorem punct_reads {x : Char} {a : List Char} : ¬ CanBeEmpty (env J) (punct x) a :=
  P.Consumes.not_empty (p := punct x) (by simp only [punct, P.seql, P.Consumes, true_or]) a

theorem wf (J : Fns F) : WellFounded fun j i => LeftCalls (env J) i j := by
  have h : ∀ i j, ¬ LeftCalls (env J) i j := by
    rintro i j ⟨q, ⟨⟩, hs⟩
    simp only [P.StartsWith, scalar, integer, number, boolean, null, string, jsonDict, jsonList, P.between,
      P.seqr, P.seql, token, punct, ows, false_or, or_false, and_false] at hs
    rcases hs with ⟨⟨a, ha⟩, -⟩ | ⟨⟨a, ha⟩, -⟩
    · exact punct_reads ha
    · exact punct_reads ha
  exact ⟨fun i => ⟨i, fun j h' => absurd h' (h i j)⟩⟩

end JsonText

/-- A part of the text on which `unescape`, `int` or `float` raises `e`: it is the inside of a string, an integer or a
number. -/
def JsonText.BadPart (J : Fns F) (s : List Char) (e : Exn) : Prop :=
  ∃ t, t <:+: s ∧ ((Body t ∧ J.unescape (String.ofList t) = .error e) ∨
    (Integer t ∧ J.int (String.ofList t) = .error e) ∨ (Number t ∧ J.float (String.ofList t) = .error e))

namespace JsonText

theorem der_part {f : List Char → Option Nat} {cut : Nat} {v : String} {col : Nat → Nat → Prop} {m i j : Nat}
    {es : List Step} (h : Der (env J) s col (token f cut) m i es v j) :
    ∃ k n, f (s.drop k) = some n ∧
      v = String.ofList ((((s.drop k).take n).take (((s.drop k).take n).length - cut)).drop cut) := by
  obtain ⟨k, -, -, hr⟩ := h.inv
  simp only [tokenMatcher, Option.map_eq_some_iff, Prod.mk.injEq, Except.ok.injEq, Option.some.injEq] at hr
  obtain ⟨n, hn, -, rfl⟩ := hr
  exact ⟨k, n, hn, rfl⟩

theorem take_infix (k n : Nat) : (s.drop k).take n <:+: s :=
  (List.take_prefix _ _).isInfix.trans (List.drop_suffix _ _).isInfix

theorem item_reads' {α : Type} {p : E F α} {s : List Char} {col : Nat → Nat → Prop} {m i : Nat} {v : α}
    (hi : i ≤ s.length) : ¬ Der (env J) s col (.seqr (punct ',') p) m i [] v i := by
  intro h
  obtain ⟨a, b, l, rfl, h1, h2⟩ := der_seqWith h
  obtain ⟨w, hw, -⟩ := der_punct h1 hi
  have l1 := der_le h1 hi
  have l2 := der_le h2 l1.2
  have : i = l := by omega
  subst this
  rw [slice_self] at hw
  cases hw

theorem quiet (J : Fns F) (s : List Char) : Everywhere (env J)
    (fun p => p.raisesOnly (env J) s (BadPart J s) ∧ p.defined (env J) ∧ p.properMany (env J)) parser := by
  have hr : ∀ (f : List Char → Option Nat) cut,
      P.raisesOnly (env J) s (BadPart J s) (.regexp (tokenMatcher f cut) : E F String) := by
    intro f cut j l e h
    simp only [tokenMatcher, Option.map_eq_some_iff, Prod.mk.injEq] at h
    obtain ⟨n, -, -, h⟩ := h
    cases h
  have hr' : ∀ (f : List Char → Option Nat) hf,
      P.raisesOnly (env J) s (BadPart J s) (.regexp (Yamlish.matcher f hf) : E F String) := by
    intro f hf j l e h
    simp only [Yamlish.matcher, Option.map_eq_some_iff, Prod.mk.injEq] at h
    obtain ⟨n, -, -, h⟩ := h
    cases h
  refine ⟨?_, ?_⟩
  · simp only [parser, P.seql, P.seqr, P.All, value, ows, hr']
    simp [P.raisesOnly, P.defined, P.properMany, env]
  · have hm : ∀ {α : Type} (p : E F α), P.properMany (env J) (.many (.seqr (punct ',') p)) :=
      fun p s col m i v hi => item_reads' hi
    have hs : (fun p => p.raisesOnly (env J) s (BadPart J s)) (string J) := by
      intro col m i es t j e hi hd he
      obtain ⟨k, n, hn, rfl⟩ := der_part hd.inv
      obtain ⟨t, ht, hB, -⟩ := strLen_sound hn
      have hi := take_infix (s := s) k n
      rw [ht] at he hi
      refine ⟨t, ?_, .inl ⟨hB, ?_⟩⟩
      · exact (List.IsInfix.trans ⟨['"'], ['"'], by simp⟩ hi)
      · simpa using he
    have hi : (fun p => p.raisesOnly (env J) s (BadPart J s)) (integer J) := by
      intro col m i es t j e hi hd he
      obtain ⟨k, n, hn, rfl⟩ := der_part hd.inv
      refine ⟨_, take_infix (s := s) k n, .inr (.inl ⟨intLen_sound hn, ?_⟩)⟩
      simp only [Nat.sub_zero, List.take_length, List.drop_zero] at he
      cases hj : J.int (String.ofList ((s.drop k).take n)) with
      | ok x => simp only [hj, Except.map] at he; cases he
      | error e' => simp only [hj, Except.map] at he; cases he; rfl
    have hf : (fun p => p.raisesOnly (env J) s (BadPart J s)) (number J) := by
      intro col m i es t j e hi hd he
      obtain ⟨k, n, hn, rfl⟩ := der_part hd.inv
      refine ⟨_, take_infix (s := s) k n, .inr (.inr ⟨numLen_sound hn, ?_⟩)⟩
      simp only [Nat.sub_zero, List.take_length, List.drop_zero] at he
      cases hj : J.float (String.ofList ((s.drop k).take n)) with
      | ok x => simp only [hj, Except.map] at he; cases he
      | error e' => simp only [hj, Except.map] at he; cases he; rfl
    have hmem := hm (member J)
    have hval := hm (value : E F (V F))
    rintro i q ⟨⟩
    simp only [string, integer, number, member, P.seqr, P.seql, P.seq, token, punct, ows, value] at hs hi hf hmem hval
    simp only [P.All, scalar, integer, number, boolean, null, string, jsonDict, jsonList, P.between, member, P.sepBy,
      P.map, P.seq, value, P.seqr, P.seql, token, punct, ows, hs, hi, hf, hmem, hval, hr, hr']
    simp [P.raisesOnly, P.defined, P.properMany, env]

end JsonText

/-- C80, exceptions: the only exceptions that leave `parse` are those of `unescape`, `int` and `float`, on parts of the
text that have the form they are meant for. In both modes, for every `max_insertions` and `get_loc`. -/
theorem C80_exceptions (o : Opts Char) {e : Exn} (h : Raises (env J) parser s o e) : BadPart J s e :=
  C69_only (quiet J s) o h

/-- C80, totality: if these functions do not raise there, `parse(..)` returns, in both modes: a value or a
`ParseError`. -/
theorem C80_total (hs : ∀ e, ¬ BadPart J s e) (o : Opts Char) (hk : 0 ≤ o.maxInsertions) :
    ∃ r, Returns (env J) parser s o r := by
  rcases C23_terminates (env J) (wf J) parser s o hk with h | ⟨e, he⟩
  · exact h
  · exact absurd (C80_exceptions o he) (hs e)

/-- C80: it returns or raises an exception, always. -/
theorem C80_ends (o : Opts Char) (hk : 0 ≤ o.maxInsertions) :
    (∃ r, Returns (env J) parser s o r) ∨ ∃ e, Raises (env J) parser s o e :=
  C23_terminates (env J) (wf J) parser s o hk

/-- C80: `loads` raises `ParseError` exactly on the texts that are no JSON texts. -/
theorem C80_rejects (hs : ∀ e, ¬ BadPart J s e) (fmt : Loc → String) :
    (∃ r pe, Returns (env J) parser s (plain scannerlessGetLoc) r ∧ r.unwrap fmt false = .error pe) ↔
      ¬ ∃ v, Text J s v := by
  constructor
  · rintro ⟨r, pe, h, he⟩ ⟨v, hv⟩
    obtain ⟨r', h', hv⟩ := (C80_exact fmt v).2 hv
    cases returns_unique h h'
    rw [he] at hv
    cases hv
  · intro h
    obtain ⟨r, hr⟩ := C80_total hs (plain scannerlessGetLoc) (by decide)
    cases hu : r.unwrap fmt false with
    | ok v => exact absurd ⟨v, (C80_exact fmt v).1 ⟨r, hr, hu⟩⟩ h
    | error pe => exact ⟨r, pe, hr, hu⟩

/-! ### Cases that meet the hypotheses -/

namespace Samples

/-- Escapes and floats are kept; the value of an integer is its length. -/
def jsonText : Fns String where
  unescape := .ok
  int s := .ok s.length
  float := .ok

theorem jsonText_ok (s : List Char) (e : Exn) : ¬ BadPart jsonText s e := by
  rintro ⟨t, -, ⟨-, h⟩ | ⟨-, h⟩ | ⟨-, h⟩⟩ <;> cases h

set_option maxRecDepth 100000 in
/-- `[2.5e-7, true ]`, as read by the parser. -/
theorem jsonText_list : Text jsonText "[2.5e-7, true ]".toList (.list [.float "2.5e-7", .bool true]) :=
  (C80_exact defaultFmtLoc _).1 ⟨_, ⟨60, rfl⟩, rfl⟩

theorem jsonText_key : Str jsonText ['"', 'a', '\\', 'u', '0', '0', 'e', '9', '"'] "a\\u00e9" := by
  refine ⟨['a', '\\', 'u', '0', '0', 'e', '9'], [], rfl, ?_, by simp, nofun, rfl⟩
  exact .char (by decide) (by decide) (by decide) (.unicode (.inl ⟨by decide, by decide⟩) (.inl ⟨by decide, by decide⟩)
    (.inr (.inl ⟨by decide, by decide⟩)) (.inl ⟨by decide, by decide⟩) .nil)

/-- ` {"a\u00e9": -10 , "a\u00e9":{ }}`: the last value of the key counts. -/
theorem jsonText_sample : Text jsonText " {\"a\\u00e9\": -10 , \"a\\u00e9\":{ }}".toList
    (.dict [("a\\u00e9", .dict [])]) := by
  refine ⟨[' '], _, ?_, by simp [Ws], .dict (l := ['{']) (r := ['}']) (items := [
      ⟨['"', 'a', '\\', 'u', '0', '0', 'e', '9', '"'], [':', ' '], ['-', '1', '0'] ++ [' '], "a\\u00e9", .int 3⟩,
      ⟨['"', 'a', '\\', 'u', '0', '0', 'e', '9', '"'], [':'], ['{', ' '] ++ ([] ++ ['}']), "a\\u00e9", .dict []⟩])
    ⟨_, rfl, nofun⟩ ?_ ?_ (.more (c := [',', ' ']) ⟨_, rfl, by simp [Ws]⟩ .one) ⟨_, rfl, nofun⟩⟩
  · rfl
  · intro x hx
    simp only [List.mem_cons, List.not_mem_nil, or_false] at hx
    rcases hx with rfl | rfl
    · exact ⟨jsonText_key, _, rfl, by simp [Ws]⟩
    · exact ⟨jsonText_key, _, rfl, nofun⟩
  · intro x hx
    simp only [List.mem_cons, List.not_mem_nil, or_false] at hx
    rcases hx with rfl | rfl
    · exact .int ⟨['1', '0'], .inr ⟨_, _, rfl, by decide, by simp [Digit]⟩, .inr rfl⟩ rfl (by simp [Ws])
    · exact .dict (items := []) ⟨_, rfl, by simp [Ws]⟩ nofun nofun .none ⟨_, rfl, nofun⟩

set_option maxRecDepth 100000 in
/-- No number begins with `01`. -/
example : ¬ ∃ v, Text jsonText "[01]".toList v :=
  (C80_rejects (jsonText_ok _) defaultFmtLoc).1 ⟨_, _, ⟨40, rfl⟩, rfl⟩

set_option maxRecDepth 100000 in
example : ¬ ∃ v, Text jsonText "1.".toList v :=
  (C80_rejects (jsonText_ok _) defaultFmtLoc).1 ⟨_, _, ⟨40, rfl⟩, rfl⟩

set_option maxRecDepth 100000 in
example : ¬ ∃ v, Text jsonText "[1,]".toList v :=
  (C80_rejects (jsonText_ok _) defaultFmtLoc).1 ⟨_, _, ⟨40, rfl⟩, rfl⟩

set_option maxRecDepth 100000 in
/-- `""` is a JSON text in RFC 8259; but this parser rejects it (`+` in `tests/parsers/json_scannerless.py:42`). -/
theorem C80_counterexample_empty_string : ¬ ∃ v, Text jsonText "\"\"".toList v :=
  (C80_rejects (jsonText_ok _) defaultFmtLoc).1 ⟨_, _, ⟨40, rfl⟩, rfl⟩

set_option maxRecDepth 100000 in
/-- With `recover=True`, `[1 2]` has the value of `[1 ]`. -/
example : ∃ r v pe, Returns (env jsonText) parser "[1 2]".toList (recovering 5 scannerlessGetLoc) r ∧
    r.unwrap defaultFmtLoc true = .ok v ∧ r.unwrap defaultFmtLoc false = .error pe ∧
    v = .list [.int 1] ∧ pe.errors.map (·.op) = [some (.skip 1)] :=
  ⟨_, _, _, ⟨40, rfl⟩, rfl, rfl, rfl, rfl⟩

end Samples

end Reparsec
