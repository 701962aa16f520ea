import Verif.Lemmas.JsonDumps
import Verif.Props.JsonLexer
import Verif.Props.Regex

/-!
# C88, C89: strings and integers in JSON texts, and `json.dumps`
-/

namespace Reparsec

open JsonText
open Json (V Fns pyDict setItem)

variable {F : Type} {float : String → Except Exn F} {s t w : List Char}

/-! ### C88 -/

/-- **C88**: `unescape(s)` is what `s`, with its escapes, stands for. For every string. -/
theorem C88_unescape (s : List Char) (x : List Nat) : unescapeCodes s = .ok x ↔ Spells s x := unescapeCodes_iff

/-- C88: `unescape` never raises, and a text stands for one string only. -/
theorem C88_unescape_total (s : List Char) : ∃ x, unescapeCodes s = .ok x ∧ ∀ y, Spells s y → y = x := by
  obtain ⟨x, h1, h2⟩ := sub_spells s.length s (Nat.le_refl _)
  exact ⟨x, h1, fun y h => h.unique h2⟩

/-- C88: where there is no backslash nothing is changed. -/
theorem C88_unescape_plain (h : '\\' ∉ s) : unescapeCodes s = .ok (s.map Char.toNat) := by
  rw [C88_unescape]
  induction s with
  | nil => exact .nil
  | cons c l ih =>
    simp only [List.mem_cons, not_or] at h
    refine .other ?_ (ih h.2)
    rintro (⟨_, _, _, hl, -⟩ | ⟨_, _, _, _, _, _, hl, -⟩) <;> cases hl <;> exact h.1 rfl

/-- **C88**: a string of a JSON text has the value that the text between the quotes stands for. -/
theorem C88_string (x : String) : Str (pyFns float) w x ↔
    ∃ t b, w = '"' :: (t ++ '"' :: b) ∧ Body t ∧ t ≠ [] ∧ Ws b ∧ Spells t (codes x) := by
  constructor
  · rintro ⟨t, b, h1, h2, h3, h4, h5⟩
    exact ⟨t, b, h1, h2, h3, h4, unescape_iff.1 h5⟩
  · rintro ⟨t, b, h1, h2, h3, h4, h5⟩
    exact ⟨t, b, h1, h2, h3, h4, unescape_iff.2 h5⟩

/-- **C88**: `int` of an integer of a JSON text is its value. -/
theorem C88_integer (h : Integer t) (i : Int) : (pyFns float).int (String.ofList t) = .ok i ↔ DecimalInt t i :=
  parseInt_iff h

/-- C88: it always has one. -/
theorem C88_integer_total (h : Integer t) : ∃ i, (pyFns float).int (String.ofList t) = .ok i := by
  obtain ⟨u, hu, rfl | rfl⟩ := h
  · exact ⟨_, (C88_integer (float := float) ⟨t, hu, .inl rfl⟩ _).2 (.inl ⟨_, decimal_of_digits (natural_digits hu), rfl⟩)⟩
  · exact ⟨_, (C88_integer (float := float) ⟨u, hu, .inr rfl⟩ _).2
      (.inr ⟨_, _, rfl, decimal_of_digits (natural_digits hu), rfl⟩)⟩

/-- C88: the only exceptions that can leave either parser are those of `float`, on a number of the text. (The second case
is none in Python: there the string has surrogates, see `unescape` in `Model/JsonString`.) -/
theorem C88_exceptions {e : Exn} (h : BadPart (pyFns float) s e) :
    (∃ t, t <:+: s ∧ Number t ∧ float (String.ofList t) = .error e) ∨
      ∃ t x, t <:+: s ∧ Body t ∧ Spells t x ∧ ∃ n ∈ x, ¬ n.isValidChar := by
  obtain ⟨t, ht, ⟨hb, hu⟩ | ⟨hi, hu⟩ | ⟨hn, hu⟩⟩ := h
  · obtain ⟨x, h1, h2⟩ := sub_spells t.length t (Nat.le_refl _)
    refine .inr ⟨t, x, ht, hb, h2, ?_⟩
    refine Classical.byContradiction fun hc => ?_
    have hv : ∀ n ∈ x, n.isValidChar := fun n hn => Classical.byContradiction fun h => hc ⟨n, hn, h⟩
    have hs : stringOf? x = some (String.ofList (x.map Char.ofNat)) := if_pos hv
    rw [stringOf_iff] at hs
    rw [← hs] at h2
    have := unescape_iff.2 h2
    simp only [pyFns, this] at hu
    cases hu
  · obtain ⟨i, h⟩ := C88_integer_total (float := float) hi
    rw [h] at hu
    cases hu
  · exact .inl ⟨t, ht, hn, hu⟩

/-- **C88**, end to end: both parsers read a string literal as what the text between the quotes stands for. -/
theorem C88_loads {x : String} (h : Body t) (hne : t ≠ []) (hs : Spells t (codes x)) :
    TextLoads (pyFns float) ('"' :: (t ++ ['"'])) (.str x) ∧ LexerLoads (pyFns float) ('"' :: (t ++ ['"'])) (.str x) := by
  have : Text (pyFns float) ('"' :: (t ++ ['"'])) (.str x) :=
    ⟨[], _, rfl, nofun, .str ((C88_string x).2 ⟨t, [], rfl, h, hne, nofun, hs⟩)⟩
  exact ⟨(C80_exact defaultFmtLoc _).2 this, (C81_exact _).2 this⟩

/-- **C88**, end to end: and an integer as its value. -/
theorem C88_loads_int {i : Int} (h : Integer t) (hi : DecimalInt t i) :
    TextLoads (pyFns float) t (.int i) ∧ LexerLoads (pyFns float) t (.int i) := by
  have : Text (pyFns float) t (.int i) := by
    refine ⟨[], t, rfl, nofun, ?_⟩
    have := Denotes.int (J := pyFns float) (b := []) h ((C88_integer h i).2 hi) nofun
    rwa [List.append_nil] at this
  exact ⟨(C80_exact defaultFmtLoc _).2 this, (C81_exact _).2 this⟩

/-! ### C89 -/

/-- **C89**: what `json.dumps` writes is a JSON text of the value. -/
theorem C89_text {o : Dumps F} (ho : o.OK float) {v : V F} (h : o.Plain v) : Text (pyFns float) (o.dump 0 v) v :=
  ⟨[], _, rfl, nofun, dump_denotes ho h 0⟩

/-- **C89**: `loads(json.dumps(v, ..)) == v`, for both parsers. -/
theorem C89_loads {o : Dumps F} (ho : o.OK float) {v : V F} (h : o.Plain v) :
    TextLoads (pyFns float) (o.dump 0 v) v ∧ LexerLoads (pyFns float) (o.dump 0 v) v :=
  ⟨(C80_exact defaultFmtLoc _).2 (C89_text ho h), (C81_exact _).2 (C89_text ho h)⟩

/-- **C89**: also with the regular expressions as they are written. -/
theorem C89_loads_regex {o : Dumps F} (ho : o.OK float) {v : V F} (h : o.Plain v) (fmt : Loc → String) :
    (∃ r, Returns (JsonText.AsWritten.env (pyFns float)) JsonText.AsWritten.parser (o.dump 0 v)
      (plain scannerlessGetLoc) r ∧ r.unwrap fmt false = .ok v) ∧
    ∃ toks r, LexReturns (o.dump 0 v) JsonText.AsWritten.jsonSpec toks ∧
      Returns (Json.env (pyFns float)) Json.parser toks (plain lexerGetLoc) r ∧ r.unwrap fmt false = .ok v :=
  ⟨(C82_json fmt v).2 (C89_text ho h), (C82_json_lexer fmt v).2 (C89_text ho h)⟩

/-- C89: with `recover=True` nothing else is returned, and no error is reported. -/
theorem C89_recovering {o : Dumps F} (ho : o.OK float) {v : V F} (h : o.Plain v) (k : Int) :
    ∃ r, Returns (JsonText.env (pyFns float)) JsonText.parser (o.dump 0 v) (recovering k scannerlessGetLoc) r ∧
      ∀ fmt b, r.unwrap fmt b = .ok v := C80_recovering k (C89_text ho h)

/-- C89: so no two values are written in the same way, whatever the options are. -/
theorem C89_injective {o o' : Dumps F} (ho : o.OK float) (ho' : o'.OK float) {v v' : V F} (h : o.Plain v)
    (h' : o'.Plain v') (he : o.dump 0 v = o'.dump 0 v') : v = v' :=
  C80_unambiguous (C89_text ho h) (he ▸ C89_text ho' h')

/-- C89: and reading and writing again changes nothing. -/
theorem C89_again {o : Dumps F} (ho : o.OK float) {v v' : V F} (h : o.Plain v)
    (hl : TextLoads (pyFns float) (o.dump 0 v) v') : o.dump 0 v' = o.dump 0 v := by
  rw [C80_unambiguous ((C80_exact defaultFmtLoc _).1 hl) (C89_text ho h)]

/-- C89: a string that is written with surrogate pairs is not read back: what `unescape` returns has the two surrogates
instead of the character. -/
theorem C89_surrogates (c : Char) (h : 65536 ≤ c.toNat) :
    ∃ a b, 0xD800 ≤ a ∧ a < 0xDC00 ∧ 0xDC00 ≤ b ∧ b < 0xE000 ∧ unescapeCodes (dumpChar true c) = .ok [a, b] := by
  have hc : c.toNat < 1114112 := by
    have := toNat_valid c
    simp only [Nat.isValidChar] at this
    omega
  have e : ∀ d : Char, d.toNat < 65536 → c ≠ d := by rintro d hd rfl; omega
  refine ⟨0xD800 + (c.toNat - 65536) / 1024, 0xDC00 + (c.toNat - 65536) % 1024, by omega, by omega, by omega, by omega, ?_⟩
  rw [C88_unescape]
  unfold dumpChar
  rw [if_neg (e _ (by decide)), if_neg (e _ (by decide)), if_neg (e _ (by decide)), if_neg (e _ (by decide)),
    if_neg (e _ (by decide)), if_neg (by omega), if_neg (by omega), if_neg (by omega), if_pos ⟨rfl, by omega⟩,
    if_neg (by omega)]
  have := (writes_uEscape (n := 0xDC00 + (c.toNat - 65536) % 1024) (by omega)).2.2 [] [] .nil
  rw [List.append_nil] at this
  exact (writes_uEscape (n := 0xD800 + (c.toNat - 65536) / 1024) (by omega)).2.2 _ _ this

/-! ### Cases that meet the hypotheses -/

namespace Samples

/-- No floats. -/
def noFloat : String → Except Exn Empty := fun _ => .error (.valueError "could not convert string to float")

/-- `json.dumps(v)` -/
def dumpsDefault : Dumps Empty := ⟨true, none, [',', ' '], [':', ' '], fun x => x.elim⟩

/-- `json.dumps(v, ensure_ascii=False, indent=2)` -/
def dumpsPretty : Dumps Empty := ⟨false, some [' ', ' '], [','], [':', ' '], fun x => x.elim⟩

theorem dumpsDefault_ok : dumpsDefault.OK noFloat where
  itemSep := ⟨[], [' '], rfl, nofun, by simp [Ws]⟩
  keySep := ⟨[], [' '], rfl, nofun, by simp [Ws]⟩
  indent := nofun
  repr x := x.elim

theorem dumpsPretty_ok : dumpsPretty.OK noFloat where
  itemSep := ⟨[], [], rfl, nofun, nofun⟩
  keySep := ⟨[], [' '], rfl, nofun, by simp [Ws]⟩
  indent := by rintro x ⟨⟩; simp [Ws]
  repr x := x.elim

/-- `{"a\n": [1, -20, {}], "é": null}` -/
def dumped : V Empty := .dict [("a\n", .list [.int 1, .int (-20), .dict []]), ("é", .null)]

theorem dumped_plain (o : Dumps Empty) : o.Plain dumped := by
  refine .dict ?_ ?_ (by decide)
  · intro kv h
    simp only [List.mem_cons, List.not_mem_nil, or_false] at h
    rcases h with rfl | rfl
    · exact ⟨by decide, fun _ => by decide⟩
    · exact ⟨by decide, fun _ => by decide⟩
  · intro kv h
    simp only [List.mem_cons, List.not_mem_nil, or_false] at h
    rcases h with rfl | rfl
    · refine .list fun v h => ?_
      simp only [List.mem_cons, List.not_mem_nil, or_false] at h
      rcases h with rfl | rfl | rfl
      · exact .int _
      · exact .int _
      · exact .dict nofun nofun .nil
    · exact .null

example : dumpsDefault.dump 0 dumped = "{\"a\\n\": [1, -20, {}], \"\\u00e9\": null}".toList := by decide

example : dumpsPretty.dump 0 dumped =
    "{\n  \"a\\n\": [\n    1,\n    -20,\n    {}\n  ],\n  \"é\": null\n}".toList := by decide

example : TextLoads (pyFns noFloat) (dumpsPretty.dump 0 dumped) dumped :=
  (C89_loads dumpsPretty_ok (dumped_plain _)).1

/-- `json.dumps("")` is not read by either parser (see C80). -/
theorem C89_counterexample_empty : ¬ ∃ v, TextLoads (pyFns noFloat) (dumpsDefault.dump 0 (.str "")) v := by
  rintro ⟨v, r, h, hv⟩
  have h' : Returns (JsonText.env (pyFns noFloat)) JsonText.parser (dumpsDefault.dump 0 (.str ""))
      (plain scannerlessGetLoc) _ := ⟨40, rfl⟩
  cases returns_unique h h'
  cases hv

/-- `json.dumps("😀")` is read as a string of two surrogates. -/
theorem C89_counterexample_surrogates :
    dumpsDefault.dump 0 (.str "😀") = '"' :: ("\\ud83d\\ude00".toList ++ ['"']) ∧
      unescapeCodes "\\ud83d\\ude00".toList = .ok [0xD83D, 0xDE00] ∧ codes "😀" = [0x1F600] :=
  ⟨by decide, rfl, by decide⟩

example : unescapeCodes "a\\u00e9\\\\n\\q\\n".toList = .ok [97, 233, 92, 110, 92, 113, 10] := rfl

end Samples

end Reparsec
