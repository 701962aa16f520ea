import Verif.Lemmas.JsonLexer
import Verif.Props.JsonText

/-!
# C81: the two JSON parsers of the tests accept the same texts, with the same values
-/

namespace Reparsec

open JsonText
open Json (V Fns)

variable {F : Type} {J : Fns F} {src : List Char}

/-- `v = loads(src)` of `tests/parsers/json.py`: `parse(parser, split_tokens(src, spec)).unwrap()` returns `v`. -/
def LexerLoads (J : Fns F) (src : List Char) (v : V F) : Prop :=
  ∃ toks r, LexReturns src jsonSpec toks ∧ Returns (Json.env J) Json.parser toks (plain lexerGetLoc) r ∧
    r.unwrap defaultFmtLoc false = .ok v

/-- `v = loads(src)` of `tests/parsers/json_scannerless.py`: `parse(parser, src).unwrap()` returns `v`. -/
def TextLoads (J : Fns F) (src : List Char) (v : V F) : Prop :=
  ∃ r, Returns (JsonText.env J) JsonText.parser src (plain scannerlessGetLoc) r ∧ r.unwrap defaultFmtLoc false = .ok v

/-- **C81**: `loads(src)` of the lexer-based JSON parser returns `v` if and only if `src` is a JSON text of `v`. -/
theorem C81_exact (v : V F) : LexerLoads J src v ↔ Text J src v :=
  (C75_loads src jsonSpec defaultFmtLoc v).trans tiles_iff

/-- **C81**: so do both parsers: they accept the same texts and compute the same values. -/
theorem C81_same (v : V F) : LexerLoads J src v ↔ TextLoads J src v :=
  (C81_exact v).trans (C80_exact defaultFmtLoc v).symm

namespace JsonText

theorem lexLen_some {l : List Char} (h : l ≠ []) : ∃ r, lexLen l = some r := by
  cases l with
  | nil => exact absurd rfl h
  | cons c l =>
    unfold lexLen
    split
    · exact ⟨_, rfl⟩
    · next hw =>
      have hc : isSpace c = false := by
        cases hc : isSpace c with
        | false => rfl
        | true => exact absurd (by simp [owsLen, hc]) hw
      have hn : (c != '\n') = true := by
        cases hn : c != '\n' with
        | true => rfl
        | false =>
          simp only [bne_eq_false_iff_eq] at hn
          subst hn
          revert hc
          decide
      have : ∃ r, named "_" (oneLen fun c => c != '\n') 0 (c :: l) = some r := ⟨_, by
        simp only [named, oneLen, hn, if_true, Option.map_some]; rfl⟩
      obtain ⟨r, hr⟩ := this
      rw [hr]
      simp only [← Option.isSome_iff_exists, Option.isSome_or, Option.isSome_some, Bool.or_true]

theorem named_pos {k : String} {f : List Char → Option Nat} {cut : Nat} {l : List Char}
    {r : Nat × Option (String × String)} (h : named k f cut l = some r) (hf : ∀ n, f l = some n → l.take n ≠ []) :
    0 < r.1 := by
  obtain ⟨n, hn, rfl⟩ := Option.map_eq_some_iff.1 h
  exact List.length_pos_of_ne_nil (hf n hn)

theorem lexLen_pos {l : List Char} {r : Nat × Option (String × String)} (h : lexLen l = some r) : 0 < r.1 := by
  unfold lexLen at h
  split at h
  · next hw => cases h; exact Nat.pos_of_ne_zero hw
  · simp only [Option.or_eq_some_iff] at h
    rcases h with h | ⟨-, h | ⟨-, h | ⟨-, h | ⟨-, h | ⟨-, h | ⟨-, h⟩⟩⟩⟩⟩⟩ <;> refine named_pos h fun n hn => ?_
    · obtain ⟨c, hc, -⟩ := oneLen_sound hn
      rw [hc]; simp
    · rcases boolLen_sound hn with hb | hb <;> rw [hb] <;> simp
    · rw [wordLen_sound hn]; simp
    · obtain ⟨i, t, hi, he, -⟩ := numLen_sound hn
      obtain ⟨c, l, hc, -⟩ := hi.head
      rw [he, hc]; simp
    · obtain ⟨c, l, hc, -⟩ := (intLen_sound hn).head
      rw [hc]; simp
    · obtain ⟨t, ht, -⟩ := strLen_sound hn
      rw [ht]; simp
    · obtain ⟨c, hc, -⟩ := oneLen_sound hn
      rw [hc]; simp

theorem tiles_total (i : Nat) (hi : i ≤ src.length) : ∃ toks, Tiles src jsonSpec i toks := by
  induction hk : src.length - i using Nat.strongRecOn generalizing i with
  | ind k ih =>
    subst hk
    rcases Nat.lt_or_eq_of_le hi with h | rfl
    · have hne : src.drop i ≠ [] := fun h' => by
        have := List.drop_eq_nil_iff.1 h'
        omega
      obtain ⟨⟨n, g⟩, hr⟩ := lexLen_some hne
      have hp := lexLen_pos hr
      have hle := lexLen_le hr
      rw [List.length_drop] at hle
      simp only at hp hle
      obtain ⟨toks, ht⟩ := ih _ (by omega) (i + n) (by omega) rfl
      have hm : jsonSpec.run src i = some ⟨i + n, g⟩ := by simp only [jsonSpec, hr, Option.map_some]
      cases g with
      | none => exact ⟨toks, .space h hm rfl ht⟩
      | some kv => exact ⟨_, .token h hm rfl ht⟩
    · exact ⟨[], .done⟩

end JsonText

/-- C81: the lexer splits every text into tokens: it raises no `LexError`, and always ends. -/
theorem C81_lexes (src : List Char) : ∃ toks, LexReturns src jsonSpec toks := by
  obtain ⟨toks, h⟩ := tiles_total (src := src) 0 (Nat.zero_le _)
  exact ⟨toks, (C37_returns_iff ..).2 h⟩

namespace JsonText

theorem spell_mem {toks : List Token} {w : List Char} (h : Spell toks w) {t : Token} (ht : t ∈ toks) :
    ∃ x, x <:+: w ∧ Lexeme t.kind t.value x := by
  induction h with
  | nil => cases ht
  | @cons t' ts x b w hx hb h ih =>
    rcases List.mem_cons.1 ht with rfl | ht
    · exact ⟨x, ⟨[], b ++ w, rfl⟩, hx⟩
    · obtain ⟨y, hy, hl⟩ := ih ht
      exact ⟨y, hy.trans ⟨x ++ b, [], by simp⟩, hl⟩

theorem badPart_of_badToken {toks : List Token} {e : Exn} (ht : Tiles src jsonSpec 0 toks)
    (h : Json.BadToken J toks e) : BadPart J src e := by
  obtain ⟨b, w, hd, -, hs⟩ := tiles_sound ht
  have hw : w <:+: src := ⟨b, [], by rw [List.append_nil, ← hd]; rfl⟩
  obtain ⟨t, htm, h⟩ := h
  obtain ⟨x, hx, hl⟩ := spell_mem hs htm
  have hx := hx.trans hw
  rcases h with ⟨hk, he⟩ | ⟨hk, he⟩ | ⟨hk, he⟩
  · obtain ⟨t', rfl, hB, -, hv⟩ := hl.toString hk
    exact ⟨t', List.IsInfix.trans ⟨['"'], ['"'], by simp⟩ hx, .inl ⟨hB, by rw [← hv]; exact he⟩⟩
  · obtain ⟨h1, hv⟩ := hl.toInteger hk
    exact ⟨x, hx, .inr (.inl ⟨h1, by rw [← hv]; exact he⟩)⟩
  · obtain ⟨h1, hv⟩ := hl.toFloat hk
    exact ⟨x, hx, .inr (.inr ⟨h1, by rw [← hv]; exact he⟩)⟩

end JsonText

/-- C81, totality: if `unescape`, `int` and `float` do not raise on parts of the text of their form, then on every text
`parse(parser, split_tokens(src, spec))` returns, in both modes: a value or a `ParseError`. -/
theorem C81_total (hs : ∀ e, ¬ BadPart J src e) (o : Opts Token) (hk : 0 ≤ o.maxInsertions) :
    ∃ toks r, LexReturns src jsonSpec toks ∧ Returns (Json.env J) Json.parser toks o r := by
  obtain ⟨toks, h⟩ := C81_lexes src
  obtain ⟨r, hr⟩ := C75_total (J := J) (s := toks)
    (fun e he => hs e (badPart_of_badToken ((C37_returns_iff ..).1 h) he)) o hk
  exact ⟨toks, r, h, hr⟩

/-- C81, exceptions: otherwise the only exceptions are those of these functions, on such parts. -/
theorem C81_exceptions (o : Opts Token) {toks : List Token} {e : Exn} (h : LexReturns src jsonSpec toks)
    (he : Raises (Json.env J) Json.parser toks o e) : BadPart J src e :=
  badPart_of_badToken ((C37_returns_iff ..).1 h) (C75_exceptions o he)

/-- C81: the two parsers reject the same texts, with `ParseError`. -/
theorem C81_same_rejects (hs : ∀ e, ¬ BadPart J src e) :
    (∃ toks r pe, LexReturns src jsonSpec toks ∧ Returns (Json.env J) Json.parser toks (plain lexerGetLoc) r ∧
        r.unwrap defaultFmtLoc false = .error pe) ↔
      ∃ r pe, Returns (JsonText.env J) JsonText.parser src (plain scannerlessGetLoc) r ∧
        r.unwrap defaultFmtLoc false = .error pe := by
  rw [C80_rejects hs defaultFmtLoc]
  constructor
  · rintro ⟨toks, r, pe, h1, h2, h3⟩ ⟨v, hv⟩
    obtain ⟨toks', r', h4, h5, h6⟩ := (C81_exact v).2 hv
    have ht : toks = toks' := Tiles.unique ((C37_returns_iff ..).1 h1) ((C37_returns_iff ..).1 h4)
    subst ht
    cases returns_unique h2 h5
    rw [h3] at h6
    cases h6
  · intro h
    obtain ⟨toks, r, h1, h2⟩ := C81_total hs (plain lexerGetLoc) (by decide)
    cases hu : r.unwrap defaultFmtLoc false with
    | ok v => exact absurd ⟨v, (C81_exact v).1 ⟨toks, r, h1, h2, hu⟩⟩ h
    | error pe => exact ⟨toks, r, pe, h1, h2, hu⟩

/-! ### Cases that meet the hypotheses -/

namespace Samples

/-- The text of `C80`'s sample is read by the other parser too. -/
example : LexerLoads jsonText " {\"a\\u00e9\": -10 , \"a\\u00e9\":{ }}".toList
    (.dict [("a\\u00e9", .dict [])]) := (C81_exact _).2 jsonText_sample

/-- Other characters become tokens that no parser accepts. -/
example : LexReturns "1?".toList jsonSpec
    [⟨"integer", "1", ⟨0, 0, 0⟩, ⟨1, 0, 1⟩⟩, ⟨"_", "?", ⟨1, 0, 1⟩, ⟨2, 0, 2⟩⟩] := ⟨10, rfl⟩

end Samples

end Reparsec
