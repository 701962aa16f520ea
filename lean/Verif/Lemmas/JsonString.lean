import Verif.Spec.JsonString
import Verif.Lemmas.JsonText
import Verif.Lemmas.Json

/-!
# `unescape` and `int`
-/

namespace Reparsec.JsonText

open Re Json

/-! ### Hexadecimal digits -/

theorem HexDigit.isHex {c : Char} {n : Nat} (h : HexDigit c n) : isHex c = true ∧ hexDigit c = n := by
  cases h with
  | digit k => revert k; decide
  | lower k => revert k; decide
  | upper k => revert k; decide

theorem char_of_toNat {c : Char} {n : Nat} (h : c.toNat = n) : c = Char.ofNat n := by
  rw [← h, Char.ofNat_toNat]

theorem le_iff_toNat {c d : Char} : c ≤ d ↔ c.toNat ≤ d.toNat := Iff.rfl

theorem hexDigit_of_isHex {c : Char} (h : isHex c = true) : HexDigit c (hexDigit c) := by
  rw [isHex_iff] at h
  simp only [Hex, Digit, le_iff_toNat] at h
  have e0 : '0'.toNat = 48 := rfl
  have e9 : '9'.toNat = 57 := rfl
  have ea : 'a'.toNat = 97 := rfl
  have ef : 'f'.toNat = 102 := rfl
  have eA : 'A'.toNat = 65 := rfl
  have eF : 'F'.toNat = 70 := rfl
  rw [e0, e9, ea, ef, eA, eF] at h
  simp only [hexDigit, e0, e9, ea, eA, eF]
  rcases h with h | h | h
  · have := HexDigit.digit ⟨c.toNat - 48, by omega⟩
    simp only [e0, show 48 + (c.toNat - 48) = c.toNat by omega, Char.ofNat_toNat] at this
    rw [if_pos (by omega)]
    exact this
  · have := HexDigit.lower ⟨c.toNat - 97, by omega⟩
    simp only [ea, show 97 + (c.toNat - 97) = c.toNat by omega, Char.ofNat_toNat] at this
    rw [if_neg (by omega), if_neg (by omega), Nat.add_comm]
    exact this
  · have := HexDigit.upper ⟨c.toNat - 65, by omega⟩
    simp only [eA, show 65 + (c.toNat - 65) = c.toNat by omega, Char.ofNat_toNat] at this
    rw [if_neg (by omega), if_pos (by omega), Nat.add_comm]
    exact this

theorem Hex4.isHex {a b c d : Char} {n : Nat} (h : Hex4 a b c d n) :
    (isHex a = true ∧ isHex b = true ∧ isHex c = true ∧ isHex d = true) ∧ parseHex [a, b, c, d] = n := by
  obtain ⟨x, y, z, u, h1, h2, h3, h4, rfl⟩ := h
  refine ⟨⟨h1.isHex.1, h2.isHex.1, h3.isHex.1, h4.isHex.1⟩, ?_⟩
  simp only [parseHex, List.foldl, h1.isHex.2, h2.isHex.2, h3.isHex.2, h4.isHex.2]
  omega

theorem hex4_of_isHex {a b c d : Char} (h : isHex a = true ∧ isHex b = true ∧ isHex c = true ∧ isHex d = true) :
    Hex4 a b c d (parseHex [a, b, c, d]) := by
  refine ⟨_, _, _, _, hexDigit_of_isHex h.1, hexDigit_of_isHex h.2.1, hexDigit_of_isHex h.2.2.1,
    hexDigit_of_isHex h.2.2.2, ?_⟩
  simp only [parseHex, List.foldl]
  omega

/-! ### Short escapes -/

theorem Short.table {c : Char} {n : Nat} (h : Short c n) : isSimple c = true ∧ simpleTable.lookup c = some n := by
  cases h <;> decide

theorem short_of_isSimple {c : Char} (h : isSimple c = true) : ∃ n, Short c n := by
  rw [isSimple_iff] at h
  simp only [List.mem_cons, List.not_mem_nil, or_false] at h
  rcases h with rfl | rfl | rfl | rfl | rfl | rfl | rfl | rfl
  · exact ⟨_, .quote⟩
  · exact ⟨_, .backslash⟩
  · exact ⟨_, .slash⟩
  · exact ⟨_, .backspace⟩
  · exact ⟨_, .formFeed⟩
  · exact ⟨_, .lineFeed⟩
  · exact ⟨_, .carriageReturn⟩
  · exact ⟨_, .tab⟩

theorem not_short_u {n : Nat} : ¬ Short 'u' n := by
  intro h
  exact absurd h.table.1 (by decide)

theorem Short.unique {c : Char} {n n' : Nat} (h : Short c n) (h' : Short c n') : n = n' :=
  Option.some.inj (h.table.2.symm.trans h'.table.2)

/-! ### The expression -/

theorem match_short {c : Char} {l : List Char} (h : isSimple c = true) :
    escapeRe.match ('\\' :: c :: l) = some ⟨2, [("simple", [c])]⟩ := by
  simp [Re.match, escapeRe, Re.run, chr, h, Found.append]

theorem match_unicode {a b c d : Char} {l : List Char}
    (h : isHex a = true ∧ isHex b = true ∧ isHex c = true ∧ isHex d = true) :
    escapeRe.match ('\\' :: 'u' :: a :: b :: c :: d :: l) = some ⟨6, [("unicode", [a, b, c, d])]⟩ := by
  have : isSimple 'u' = false := by decide
  simp [Re.match, escapeRe, Re.run, chr, h, this, Found.append]

theorem match_other {w : List Char} (h : ¬ Escape w) : escapeRe.match w = none := by
  rcases w with _ | ⟨c, w⟩
  · rfl
  by_cases hc : c = '\\'
  · subst hc
    rcases w with _ | ⟨c, w⟩
    · rfl
    by_cases hs : isSimple c = true
    · obtain ⟨n, hn⟩ := short_of_isSimple hs
      exact absurd (.inl ⟨c, n, w, rfl, hn⟩) h
    by_cases hu : c = 'u'
    · subst hu
      have h4 : ∀ a b c d l, w = a :: b :: c :: d :: l →
          ¬ (isHex a = true ∧ isHex b = true ∧ isHex c = true ∧ isHex d = true) := by
        rintro a b c d l rfl hx
        exact h (.inr ⟨a, b, c, d, _, l, rfl, hex4_of_isHex hx⟩)
      rcases w with _ | ⟨a, _ | ⟨b, _ | ⟨c, _ | ⟨d, l⟩⟩⟩⟩
      · simp [Re.match, escapeRe, Re.run, chr, hs]
      · simp [Re.match, escapeRe, Re.run, chr, hs]
      · simp [Re.match, escapeRe, Re.run, chr, hs]
      · simp [Re.match, escapeRe, Re.run, chr, hs]
      · have := h4 _ _ _ _ _ rfl
        by_cases ha : isHex a = true
        · by_cases hb : isHex b = true
          · by_cases hc : isHex c = true
            · have hd : ¬ isHex d = true := fun hd => this ⟨ha, hb, hc, hd⟩
              simp [Re.match, escapeRe, Re.run, chr, hs, hd]
            · simp [Re.match, escapeRe, Re.run, chr, hs, hc]
          · simp [Re.match, escapeRe, Re.run, chr, hs, hb]
        · simp [Re.match, escapeRe, Re.run, chr, hs, ha]
    · simp [Re.match, escapeRe, Re.run, chr, hs, hu]
  · simp [Re.match, escapeRe, Re.run, chr, hc]

/-! ### `unescape` -/

theorem sub_spells (fuel : Nat) (l : List Char) (h : l.length ≤ fuel) :
    ∃ x, escapeRe.sub subst fuel l = .ok x ∧ Spells l x := by
  induction fuel generalizing l with
  | zero =>
    cases l with
    | nil => exact ⟨_, rfl, .nil⟩
    | cons c l => simp at h
  | succ fuel ih =>
    cases l with
    | nil => exact ⟨_, rfl, .nil⟩
    | cons c l =>
      by_cases he : Escape (c :: l)
      · rcases he with ⟨c', n, l', hl, hs⟩ | ⟨a, b, c', d, n, l', hl, hx⟩
        · cases hl
          obtain ⟨x, h1, h2⟩ := ih l' (by simp only [List.length_cons] at h; omega)
          refine ⟨n :: x, ?_, .short hs h2⟩
          simp only [Re.sub, match_short hs.table.1]
          have : subst ⟨2, [("simple", [c'])]⟩ = .ok [n] := by
            simp [subst, Found.group, hs.table.2]
          simp only [this, List.drop_succ_cons, List.drop_zero, h1]
          rfl
        · cases hl
          obtain ⟨x, h1, h2⟩ := ih l' (by simp only [List.length_cons] at h; omega)
          refine ⟨n :: x, ?_, .unicode hx h2⟩
          simp only [Re.sub, match_unicode hx.isHex.1]
          have : subst ⟨6, [("unicode", [a, b, c', d])]⟩ = .ok [n] := by
            simp [subst, Found.group, hx.isHex.2]
          simp only [this, List.drop_succ_cons, List.drop_zero, h1]
          rfl
      · obtain ⟨x, h1, h2⟩ := ih l (by simp only [List.length_cons] at h; omega)
        refine ⟨c.toNat :: x, ?_, .other he h2⟩
        simp only [Re.sub, match_other he, h1]
        rfl

theorem spells_short {c : Char} {n : Nat} {l : List Char} {x : List Nat} (hs : Short c n)
    (h : Spells ('\\' :: c :: l) x) : ∃ y, x = n :: y ∧ Spells l y := by
  generalize hw : '\\' :: c :: l = w at h
  cases h with
  | nil => cases hw
  | short h1 h2 =>
    simp only [List.cons.injEq, true_and] at hw
    obtain ⟨rfl, rfl⟩ := hw
    exact ⟨_, by rw [hs.unique h1], h2⟩
  | unicode h1 h2 =>
    simp only [List.cons.injEq, true_and] at hw
    obtain ⟨rfl, -⟩ := hw
    exact absurd hs not_short_u
  | other h1 h2 =>
    rw [← hw] at h1
    exact absurd (.inl ⟨_, _, _, rfl, hs⟩) h1

theorem spells_unicode {a b c d : Char} {n : Nat} {l : List Char} {x : List Nat} (hs : Hex4 a b c d n)
    (h : Spells ('\\' :: 'u' :: a :: b :: c :: d :: l) x) : ∃ y, x = n :: y ∧ Spells l y := by
  generalize hw : '\\' :: 'u' :: a :: b :: c :: d :: l = w at h
  cases h with
  | nil => cases hw
  | short h1 h2 =>
    simp only [List.cons.injEq, true_and] at hw
    obtain ⟨rfl, -⟩ := hw
    exact absurd h1 not_short_u
  | unicode h1 h2 =>
    simp only [List.cons.injEq, true_and] at hw
    obtain ⟨rfl, rfl, rfl, rfl, rfl⟩ := hw
    exact ⟨_, by rw [← hs.isHex.2, h1.isHex.2], h2⟩
  | other h1 h2 =>
    rw [← hw] at h1
    exact absurd (.inr ⟨_, _, _, _, _, _, rfl, hs⟩) h1

theorem spells_other {c : Char} {l : List Char} {x : List Nat} (he : ¬ Escape (c :: l))
    (h : Spells (c :: l) x) : ∃ y, x = c.toNat :: y ∧ Spells l y := by
  generalize hw : c :: l = w at h
  cases h with
  | nil => cases hw
  | short h1 h2 => exact absurd (.inl ⟨_, _, _, hw, h1⟩) he
  | unicode h1 h2 => exact absurd (.inr ⟨_, _, _, _, _, _, hw, h1⟩) he
  | other h1 h2 => cases hw; exact ⟨_, rfl, h2⟩

theorem Spells.unique {l : List Char} {x y : List Nat} (h : Spells l x) (h' : Spells l y) : x = y := by
  induction h generalizing y with
  | nil =>
    generalize hw : ([] : List Char) = w at h'
    cases h' <;> first | rfl | cases hw
  | short h1 _ ih =>
    obtain ⟨z, rfl, h2⟩ := spells_short h1 h'
    rw [ih h2]
  | unicode h1 _ ih =>
    obtain ⟨z, rfl, h2⟩ := spells_unicode h1 h'
    rw [ih h2]
  | other h1 _ ih =>
    obtain ⟨z, rfl, h2⟩ := spells_other h1 h'
    rw [ih h2]

theorem unescapeCodes_iff {s : List Char} {x : List Nat} : unescapeCodes s = .ok x ↔ Spells s x := by
  obtain ⟨y, h1, h2⟩ := sub_spells s.length s (Nat.le_refl _)
  unfold unescapeCodes
  constructor
  · intro h
    rw [h1] at h
    cases h
    exact h2
  · intro h
    rw [h1, h2.unique h]

theorem toNat_valid (c : Char) : c.toNat.isValidChar := c.valid

theorem toNat_ofNat {n : Nat} (h : n.isValidChar) : (Char.ofNat n).toNat = n := by
  simp only [Char.ofNat, h, dif_pos, Char.toNat, Char.ofNatAux]
  rfl

theorem codes_ofList {l : List Char} : codes (String.ofList l) = l.map Char.toNat := by simp [codes]

theorem stringOf_iff {x : List Nat} {s : String} : stringOf? x = some s ↔ codes s = x := by
  unfold stringOf?
  constructor
  · intro h
    split at h
    · next hx =>
      cases h
      rw [codes_ofList, List.map_map]
      conv => rhs; rw [← List.map_id x]
      exact List.map_congr_left fun n hn => toNat_ofNat (hx n hn)
    · cases h
  · rintro rfl
    have : ∀ n ∈ codes s, n.isValidChar := by
      intro n hn
      obtain ⟨c, -, rfl⟩ := List.mem_map.1 hn
      exact toNat_valid c
    rw [if_pos this]
    simp only [codes, List.map_map]
    congr 1
    conv => rhs; rw [← String.ofList_toList (s := s), ← List.map_id s.toList]
    exact congrArg String.ofList (List.map_congr_left fun c _ => Char.ofNat_toNat c)

theorem unescape_iff {t : List Char} {s : String} : unescape (String.ofList t) = .ok s ↔ Spells t (codes s) := by
  unfold unescape
  rw [String.toList_ofList]
  obtain ⟨y, h1, h2⟩ := sub_spells t.length t (Nat.le_refl _)
  have h1 : unescapeCodes t = .ok y := h1
  simp only [h1]
  show (match stringOf? y with | some s => Except.ok s | none => _) = _ ↔ _
  cases h : stringOf? y with
  | none =>
    constructor
    · intro h'; cases h'
    · intro h'
      have := h2.unique h'
      rw [stringOf_iff.2 this.symm] at h
      cases h
  | some s' =>
    rw [stringOf_iff] at h
    subst h
    constructor
    · intro h'; cases h'; exact h2
    · intro h'
      have := h2.unique h'
      have e : some s' = some s := by rw [← stringOf_iff.2 rfl, ← stringOf_iff.2 this.symm]
      cases e
      rfl

/-! ### `int` -/

def foldDigits (l : List Char) : Nat := l.foldl (fun n c => 10 * n + (c.toNat - '0'.toNat)) 0

theorem digit_ofNat {c : Char} (h : Digit c) : ∃ k : Fin 10, c = Char.ofNat ('0'.toNat + k) := by
  simp only [Digit, le_iff_toNat] at h
  have e0 : '0'.toNat = 48 := rfl
  have e9 : '9'.toNat = 57 := rfl
  rw [e0, e9] at h
  refine ⟨⟨c.toNat - 48, by omega⟩, ?_⟩
  simp only [e0, show 48 + (c.toNat - 48) = c.toNat by omega, Char.ofNat_toNat]

theorem ofNat_digit (k : Fin 10) : Digit (Char.ofNat ('0'.toNat + k)) ∧
    (Char.ofNat ('0'.toNat + k)).toNat - '0'.toNat = k := by
  revert k; simp only [Digit]; decide

theorem Decimal.fold {w : List Char} {n : Nat} (h : Decimal w n) : Digits w ∧ foldDigits w = n := by
  induction h with
  | digit k => exact ⟨⟨by simp, by simpa using (ofNat_digit k).1⟩, by simp [foldDigits]; exact (ofNat_digit k).2⟩
  | more k _ ih =>
    refine ⟨⟨by simp, ?_⟩, ?_⟩
    · intro x hx
      rcases List.mem_append.1 hx with hx | hx
      · exact ih.1.2 x hx
      · rw [List.mem_singleton.1 hx]; exact (ofNat_digit k).1
    · simp only [foldDigits, List.foldl_append, List.foldl_cons, List.foldl_nil]
      rw [(ofNat_digit k).2]
      have := ih.2
      simp only [foldDigits] at this
      rw [this]

theorem decimal_of_digits {w : List Char} (h : Digits w) : Decimal w (foldDigits w) := by
  obtain ⟨h1, h2⟩ := h
  generalize hr : w.reverse = r
  have hw : w = r.reverse := by rw [← hr, List.reverse_reverse]
  clear hr
  subst hw
  induction r with
  | nil => exact absurd rfl h1
  | cons c r ih =>
    obtain ⟨k, rfl⟩ := digit_ofNat (h2 c (by simp))
    rw [List.reverse_cons]
    cases r with
    | nil => simp only [List.reverse_nil, List.nil_append, foldDigits, List.foldl_cons, List.foldl_nil]
             rw [(ofNat_digit k).2]; simpa using Decimal.digit k
    | cons d r =>
      have := ih (by simp) (fun x hx => h2 x (by rw [List.reverse_cons]; exact List.mem_append_left _ hx))
      have := Decimal.more k this
      simp only [foldDigits, List.foldl_append, List.foldl_cons, List.foldl_nil] at this ⊢
      rw [(ofNat_digit k).2]
      exact this

theorem Decimal.unique {w : List Char} {n n' : Nat} (h : Decimal w n) (h' : Decimal w n') : n = n' :=
  h.fold.2.symm.trans h'.fold.2

theorem parse_digits {w : List Char} (h : Digits w) : w ≠ [] ∧ w.all isDigit = true :=
  ⟨h.1, List.all_eq_true.2 fun x hx => isDigit_iff.2 (h.2 x hx)⟩

theorem natural_digits {w : List Char} (h : Natural w) : Digits w := by
  rcases h with rfl | ⟨c, l, rfl, h1, h2⟩
  · exact ⟨by simp, by simp [Digit]⟩
  · refine ⟨by simp, fun x hx => ?_⟩
    rcases List.mem_cons.1 hx with rfl | hx
    · exact isDigit_iff.1 (digit_of_nonZero h1)
    · exact h2 x hx

theorem parseInt_iff {w : List Char} (hw : Integer w) {i : Int} :
    parseInt (String.ofList w) = .ok i ↔ DecimalInt w i := by
  obtain ⟨u, hu, rfl | rfl⟩ := hw
  · have hd := natural_digits hu
    have hm : ∀ l, w ≠ '-' :: l := by
      rintro l rfl
      exact absurd (hd.2 '-' (by simp)) (by simp [Digit])
    have : parseInt (String.ofList w) = .ok (foldDigits w : Int) := by
      unfold parseInt
      simp only [String.toList_ofList]
      cases w with
      | nil => exact absurd rfl hd.1
      | cons c l =>
        have hc : c ≠ '-' := by rintro rfl; exact hm _ rfl
        simp only [if_neg hc, parseDigits]
        rw [if_pos (parse_digits hd)]; rfl
    rw [this, Except.ok.injEq]
    constructor
    · rintro rfl; exact .inl ⟨_, decimal_of_digits hd, rfl⟩
    · rintro (⟨n, h1, rfl⟩ | ⟨u, n, h1, -⟩)
      · rw [h1.fold.2]
      · exact absurd h1 (hm _)
  · have hd := natural_digits hu
    have : parseInt (String.ofList ('-' :: u)) = .ok (-(foldDigits u : Int)) := by
      unfold parseInt
      simp only [String.toList_ofList, if_pos, parseDigits]
      rw [if_pos (parse_digits hd)]; rfl
    rw [this, Except.ok.injEq]
    constructor
    · rintro rfl; exact .inr ⟨_, _, rfl, decimal_of_digits hd, rfl⟩
    · rintro (⟨n, h1, -⟩ | ⟨u', n, h1, h2, rfl⟩)
      · exact absurd (h1.fold.1.2 '-' (by simp)) (by simp [Digit])
      · cases h1
        rw [h2.fold.2]

end Reparsec.JsonText
