import Verif.Model.JsonText
import Verif.Spec.JsonText
import Verif.Lemmas.Yamlish

/-!
# The pieces of JSON texts
-/

namespace Reparsec.JsonText

open Json
open Yamlish (NotNext slice_add takeWhile_take takeWhile_of drop_append)

/-! ### Characters -/

theorem isSpace_iff {c : Char} : isSpace c = true ↔ c = ' ' ∨ c = '\n' ∨ c = '\r' ∨ c = '\t' := by
  simp [isSpace, or_assoc]

theorem isDigit_iff {c : Char} : isDigit c = true ↔ Digit c := by simp [isDigit, Digit]

theorem isNonZero_iff {c : Char} : isNonZero c = true ↔ '1' ≤ c ∧ c ≤ '9' := by simp [isNonZero]

theorem isHex_iff {c : Char} : isHex c = true ↔ Hex c := by simp [isHex, Hex, isDigit_iff, or_assoc]

theorem isPlain_iff {c : Char} : isPlain c = true ↔ ' ' ≤ c ∧ c ≠ '"' ∧ c ≠ '\\' := by
  simp [isPlain, and_assoc]

theorem isSimple_iff {c : Char} : isSimple c = true ↔ c ∈ ['"', '\\', '/', 'b', 'f', 'n', 'r', 't'] := by
  simp only [isSimple, List.contains_iff_mem]

theorem digit_of_nonZero {c : Char} (h : '1' ≤ c ∧ c ≤ '9') : isDigit c = true := by
  have h0 : ('0' : Char) ≤ '1' := by decide
  exact isDigit_iff.2 ⟨Char.le_trans h0 h.1, h.2⟩

/-! ### Matches are what they should be -/

theorem digitsLen_sound {l : List Char} {n : Nat} (h : digitsLen l = some n) : Digits (l.take n) := by
  unfold digitsLen at h
  split at h
  · cases h
  · next h0 =>
    cases h
    rw [takeWhile_take]
    exact ⟨fun he => h0 (by rw [he]; rfl), fun x hx => isDigit_iff.1 (Calculator.takeWhile_all x hx)⟩

theorem natLen_sound {l : List Char} {n : Nat} (h : natLen l = some n) : Natural (l.take n) := by
  cases l with
  | nil => cases h
  | cons c l =>
    simp only [natLen] at h
    split at h
    · next hc => cases h; subst hc; exact .inl rfl
    · split at h
      · next hc =>
        cases h
        refine .inr ⟨c, l.takeWhile isDigit, ?_, isNonZero_iff.1 hc,
          fun x hx => isDigit_iff.1 (Calculator.takeWhile_all x hx)⟩
        rw [Nat.add_comm, List.take_succ_cons, takeWhile_take]
      · cases h

theorem intLen_sound {l : List Char} {n : Nat} (h : intLen l = some n) : Integer (l.take n) := by
  cases l with
  | nil => cases h
  | cons c l =>
    simp only [intLen] at h
    split at h
    · next hc =>
      subst hc
      obtain ⟨k, hk, rfl⟩ := Option.map_eq_some_iff.1 h
      exact ⟨_, natLen_sound hk, .inr (by rw [Nat.add_comm, List.take_succ_cons])⟩
    · exact ⟨_, natLen_sound h, .inl rfl⟩

theorem fracLen_sound {l : List Char} {n : Nat} (h : fracLen l = some n) : Fraction (l.take n) := by
  cases l with
  | nil => cases h
  | cons c l =>
    simp only [fracLen] at h
    split at h
    · next hc =>
      subst hc
      obtain ⟨k, hk, rfl⟩ := Option.map_eq_some_iff.1 h
      exact ⟨_, digitsLen_sound hk, by rw [Nat.add_comm, List.take_succ_cons]⟩
    · cases h

theorem powerLen_sound {l : List Char} {n : Nat} (h : powerLen l = some n) :
    ∃ d, Digits d ∧ (l.take n = d ∨ l.take n = '-' :: d ∨ l.take n = '+' :: d) := by
  cases l with
  | nil => cases h
  | cons c l =>
    simp only [powerLen] at h
    split at h
    · next hc =>
      obtain ⟨k, hk, rfl⟩ := Option.map_eq_some_iff.1 h
      refine ⟨_, digitsLen_sound hk, .inr ?_⟩
      rw [Nat.add_comm, List.take_succ_cons]
      rcases hc with rfl | rfl
      · exact .inl rfl
      · exact .inr rfl
    · exact ⟨_, digitsLen_sound h, .inl rfl⟩

theorem expLen_sound {l : List Char} {n : Nat} (h : expLen l = some n) : Exponent (l.take n) := by
  cases l with
  | nil => cases h
  | cons c l =>
    simp only [expLen] at h
    split at h
    · next hc =>
      obtain ⟨k, hk, rfl⟩ := Option.map_eq_some_iff.1 h
      obtain ⟨d, hd, h⟩ := powerLen_sound hk
      refine ⟨c, d, hc, hd, ?_⟩
      rw [Nat.add_comm, List.take_succ_cons]
      rcases h with h | h | h
      · exact .inl (by rw [h])
      · exact .inr (.inl (by rw [h]))
      · exact .inr (.inr (by rw [h]))
    · cases h

theorem tailLen_sound {l : List Char} {n : Nat} (h : tailLen l = some n) :
    Fraction (l.take n) ∨ Exponent (l.take n) ∨ ∃ f e, Fraction f ∧ Exponent e ∧ l.take n = f ++ e := by
  unfold tailLen at h
  split at h
  · exact .inr (.inl (expLen_sound h))
  · next k hk =>
    split at h
    · cases h; exact .inl (fracLen_sound hk)
    · next m hm =>
      cases h
      exact .inr (.inr ⟨_, _, fracLen_sound hk, expLen_sound hm, List.take_add ..⟩)

theorem numLen_sound {l : List Char} {n : Nat} (h : numLen l = some n) : Number (l.take n) := by
  unfold numLen at h
  split at h
  · cases h
  · next k hk =>
    obtain ⟨m, hm, rfl⟩ := Option.map_eq_some_iff.1 h
    exact ⟨_, _, intLen_sound hk, List.take_add .., tailLen_sound hm⟩

theorem wordLen_sound {x l : List Char} {n : Nat} (h : wordLen x l = some n) : l.take n = x := by
  unfold wordLen at h
  split at h
  · next hp =>
    cases h
    exact (List.prefix_iff_eq_take.1 (List.isPrefixOf_iff_prefix.1 hp)).symm
  · cases h

theorem boolLen_sound {l : List Char} {n : Nat} (h : boolLen l = some n) :
    l.take n = ['t', 'r', 'u', 'e'] ∨ l.take n = ['f', 'a', 'l', 's', 'e'] := by
  unfold boolLen at h
  split at h
  · next hw => cases h; exact .inl (wordLen_sound hw)
  · exact .inr (wordLen_sound h)

theorem bodyLen_sound (l : List Char) : Body (l.take (bodyLen l)) := by
  fun_induction bodyLen l with
  | case3 d l' hd ih =>
    rw [Nat.add_comm 2, List.take_succ_cons, List.take_succ_cons]
    exact .escape (isSimple_iff.1 hd) ih
  | case4 a b c d l' hx _ ih =>
    simp only [Bool.and_eq_true] at hx
    rw [Nat.add_comm 6]
    simp only [List.take_succ_cons]
    exact .unicode (isHex_iff.1 hx.1.1.1) (isHex_iff.1 hx.1.1.2) (isHex_iff.1 hx.1.2) (isHex_iff.1 hx.2) ih
  | case8 c l' _ hp ih =>
    rw [Nat.add_comm 1, List.take_succ_cons]
    exact .char (isPlain_iff.1 hp).1 (isPlain_iff.1 hp).2.1 (isPlain_iff.1 hp).2.2 ih
  | _ => exact .nil

theorem bodyLen_le (l : List Char) : bodyLen l ≤ l.length := by
  fun_induction bodyLen l <;> simp only [List.length_cons, List.length_nil] <;> omega

theorem strLen_sound {l : List Char} {n : Nat} (h : strLen l = some n) :
    ∃ t, l.take n = '"' :: (t ++ ['"']) ∧ Body t ∧ t ≠ [] := by
  cases l with
  | nil => cases h
  | cons c l =>
    simp only [strLen] at h
    split at h
    · next hc =>
      obtain ⟨rfl, h0, hq⟩ := hc
      cases h
      refine ⟨_, ?_, bodyLen_sound l, ?_⟩
      · rw [show bodyLen l + 2 = (bodyLen l + 1) + 1 from rfl, List.take_succ_cons, List.take_add_one, hq]
        rfl
      · intro he
        rw [List.take_eq_nil_iff] at he
        rcases he with he | rfl
        · exact h0 he
        · exact h0 rfl
    · cases h

/-! ### What should match does -/

/-- What a number may go on with. -/
def isNumChar (c : Char) : Bool := isDigit c || c == '.' || c == 'e' || c == 'E'

theorem notNext_mono {f g : Char → Bool} {l : List Char} (h : NotNext g l) (hf : ∀ x, f x = true → g x = true) :
    NotNext f l := by
  intro x hx
  cases hx' : f x with
  | false => rfl
  | true => rw [← h x hx, hf x hx']

theorem notDigit {l : List Char} (h : NotNext isNumChar l) : NotNext isDigit l :=
  notNext_mono h fun x hx => by simp [isNumChar, hx]

theorem digitsLen_complete {d l : List Char} (h : Digits d) (hl : NotNext isDigit l) :
    digitsLen (d ++ l) = some d.length := by
  rw [digitsLen, takeWhile_of (fun x hx => isDigit_iff.2 (h.2 x hx)) hl, if_neg]
  intro h0
  exact h.1 (List.eq_nil_of_length_eq_zero h0)

theorem natLen_complete {t l : List Char} (h : Natural t) (hl : NotNext isDigit l) :
    natLen (t ++ l) = some t.length := by
  rcases h with rfl | ⟨c, a, rfl, hc, ha⟩
  · rfl
  · have hne : c ≠ '0' := by
      rintro rfl
      exact absurd hc.1 (by decide)
    rw [List.cons_append, natLen, if_neg hne, if_pos (isNonZero_iff.2 hc),
      takeWhile_of (fun x hx => isDigit_iff.2 (ha x hx)) hl, List.length_cons, Nat.add_comm]

theorem Natural.head {t : List Char} (h : Natural t) : ∃ c l, t = c :: l ∧ isDigit c = true := by
  rcases h with rfl | ⟨c, a, rfl, hc, -⟩
  · exact ⟨'0', [], rfl, by decide⟩
  · exact ⟨c, a, rfl, digit_of_nonZero hc⟩

theorem intLen_complete {t l : List Char} (h : Integer t) (hl : NotNext isDigit l) :
    intLen (t ++ l) = some t.length := by
  obtain ⟨n, hn, rfl | rfl⟩ := h
  · obtain ⟨c, a, rfl, hc⟩ := hn.head
    have hne : c ≠ '-' := by rintro rfl; revert hc; decide
    have := natLen_complete hn hl
    rw [List.cons_append] at this ⊢
    rw [intLen, if_neg hne, this]
  · rw [List.cons_append, intLen, if_pos rfl, natLen_complete hn hl, List.length_cons, Option.map_some, Nat.add_comm]

theorem fracLen_complete {t l : List Char} (h : Fraction t) (hl : NotNext isDigit l) :
    fracLen (t ++ l) = some t.length := by
  obtain ⟨d, hd, rfl⟩ := h
  rw [List.cons_append, fracLen, if_pos rfl, digitsLen_complete hd hl, List.length_cons, Option.map_some, Nat.add_comm]

theorem Digits.head {t : List Char} (h : Digits t) : ∃ c l, t = c :: l ∧ isDigit c = true := by
  cases t with
  | nil => exact absurd rfl h.1
  | cons c l => exact ⟨c, l, rfl, isDigit_iff.2 (h.2 c List.mem_cons_self)⟩

theorem expLen_complete {t l : List Char} (h : Exponent t) (hl : NotNext isDigit l) :
    expLen (t ++ l) = some t.length := by
  obtain ⟨e, d, he, hd, rfl | rfl | rfl⟩ := h
  · have h1 := digitsLen_complete hd hl
    obtain ⟨c, a, rfl, hc⟩ := hd.head
    have hne : ¬ (c = '-' ∨ c = '+') := by rintro (rfl | rfl) <;> revert hc <;> decide
    rw [List.cons_append] at h1
    simp only [List.cons_append, expLen, if_pos he, powerLen, if_neg hne, h1, List.length_cons, Option.map_some,
      Option.some.injEq]
    omega
  · simp only [List.cons_append, expLen, if_pos he, powerLen, digitsLen_complete hd hl, List.length_cons,
      Option.map_some, Option.some.injEq, true_or, if_true]
    omega
  · simp only [List.cons_append, expLen, if_pos he, powerLen, digitsLen_complete hd hl, List.length_cons,
      Option.map_some, Option.some.injEq, or_true, if_true]
    omega

theorem fracLen_none {l : List Char} (hl : NotNext isNumChar l) : fracLen l = none := by
  cases l with
  | nil => rfl
  | cons c l =>
    have := hl c rfl
    rw [fracLen, if_neg]
    rintro rfl
    revert this; decide

theorem expLen_none {l : List Char} (hl : NotNext isNumChar l) : expLen l = none := by
  cases l with
  | nil => rfl
  | cons c l =>
    have := hl c rfl
    rw [expLen, if_neg]
    rintro (rfl | rfl) <;> revert this <;> decide

theorem Exponent.head {t l : List Char} (h : Exponent t) : NotNext isDigit (t ++ l) ∧ fracLen (t ++ l) = none := by
  obtain ⟨e, d, he, hd, rfl | rfl | rfl⟩ := h <;>
  · constructor
    · intro x hx
      cases hx
      rcases he with rfl | rfl <;> decide
    · rw [List.cons_append, fracLen, if_neg]
      rcases he with rfl | rfl <;> decide

theorem Fraction.head {t l : List Char} (h : Fraction t) : NotNext isDigit (t ++ l) := by
  obtain ⟨d, hd, rfl⟩ := h
  intro x hx
  cases hx
  decide

theorem numLen_complete {t l : List Char} (h : Number t) (hl : NotNext isNumChar l) :
    numLen (t ++ l) = some t.length := by
  obtain ⟨i, t, hi, rfl, ht⟩ := h
  have key : tailLen (t ++ l) = some t.length ∧ NotNext isDigit (t ++ l) := by
    rcases ht with ht | ht | ⟨f, e, hf, he, rfl⟩
    · refine ⟨?_, ht.head⟩
      simp only [tailLen, fracLen_complete ht (notDigit hl), List.drop_left, expLen_none hl]
    · refine ⟨?_, ht.head.1⟩
      simp only [tailLen, ht.head.2, expLen_complete ht (notDigit hl)]
    · rw [List.append_assoc]
      refine ⟨?_, hf.head⟩
      simp only [tailLen, fracLen_complete hf he.head.1, List.drop_left, expLen_complete he (notDigit hl),
        List.length_append]
  rw [List.append_assoc, numLen, intLen_complete hi key.2]
  simp only [List.drop_left, key.1, Option.map_some, List.length_append]

theorem numLen_integer {t l : List Char} (h : Integer t) (hl : NotNext isNumChar l) : numLen (t ++ l) = none := by
  rw [numLen, intLen_complete h (notDigit hl)]
  simp only [List.drop_left, tailLen, fracLen_none hl, expLen_none hl, Option.map_none]

theorem bodyLen_complete {t l : List Char} (h : Body t) : bodyLen (t ++ '"' :: l) = t.length := by
  induction h with
  | nil => rw [List.nil_append, bodyLen.eq_def]; simp [isPlain]
  | char h1 h2 h3 _ ih =>
    rw [List.cons_append, bodyLen.eq_def]
    simp only []
    rw [if_neg h3, if_pos (isPlain_iff.2 ⟨h1, h2, h3⟩), ih, List.length_cons, Nat.add_comm]
  | escape h1 _ ih =>
    rw [List.cons_append, List.cons_append, bodyLen.eq_def]
    simp only [if_true, if_pos (isSimple_iff.2 h1), ih, List.length_cons]
    omega
  | unicode h1 h2 h3 h4 _ ih =>
    simp only [List.cons_append]
    rw [bodyLen.eq_def]
    simp only [if_true, isHex_iff.2 h1, isHex_iff.2 h2, isHex_iff.2 h3, isHex_iff.2 h4, Bool.and_self, if_true, ih,
      List.length_cons]
    rw [if_neg (by decide)]
    omega

theorem strLen_complete {t l : List Char} (h : Body t) (h0 : t ≠ []) :
    strLen ('"' :: (t ++ '"' :: l)) = some (t.length + 2) := by
  rw [strLen, bodyLen_complete h, if_pos]
  refine ⟨rfl, fun h => h0 (List.eq_nil_of_length_eq_zero h), ?_⟩
  rw [List.getElem?_append_right (Nat.le_refl _), Nat.sub_self]
  rfl

/-! ### What does not match, by its first character -/

theorem intLen_none {c : Char} {l : List Char} (h : c ≠ '-') (hd : isDigit c = false) : intLen (c :: l) = none := by
  have h0 : c ≠ '0' := by rintro rfl; revert hd; decide
  have h1 : isNonZero c = false := by
    cases h : isNonZero c with
    | false => rfl
    | true => rw [digit_of_nonZero (isNonZero_iff.1 h)] at hd; cases hd
  simp [intLen, natLen, h, h0, h1]

theorem numLen_none {c : Char} {l : List Char} (h : c ≠ '-') (hd : isDigit c = false) : numLen (c :: l) = none := by
  rw [numLen, intLen_none h hd]

theorem wordLen_none {c d : Char} {x l : List Char} (h : d ≠ c) : wordLen (d :: x) (c :: l) = none := by
  simp [wordLen, List.isPrefixOf, h]

theorem boolLen_none {c : Char} {l : List Char} (h : c ≠ 't') (h' : c ≠ 'f') : boolLen (c :: l) = none := by
  simp only [boolLen, wordLen_none h.symm, wordLen_none h'.symm]

theorem nullLen_none {c : Char} {l : List Char} (h : c ≠ 'n') : nullLen (c :: l) = none := wordLen_none h.symm

theorem strLen_none {c : Char} {l : List Char} (h : c ≠ '"') : strLen (c :: l) = none := by
  simp [strLen, h]

/-! ### From parsers to texts -/

section
variable {F : Type} {J : Fns F} {s : List Char} {col : Nat → Nat → Prop} {m i j : Nat}

theorem der_le {α : Type} {p : E F α} {v : α} (h : Der (env J) s col p m i [] v j) (hi : i ≤ s.length) :
    i ≤ j ∧ j ≤ s.length := ⟨(der_inOrder h hi).1, (der_inOrder h hi).2⟩

theorem der_seqWith {α β γ : Type} {p : E F α} {q : E F β} {mg : α → β → γ} {v : γ}
    (h : Der (env J) s col (.seqWith p q mg) m i [] v j) :
    ∃ a b l, v = mg a b ∧ Der (env J) s col p m i [] a l ∧ Der (env J) s col q m l [] b j := by
  obtain ⟨es1, es2, a, b, l, he, hv, h1, h2⟩ := h.inv
  obtain ⟨rfl, rfl⟩ := List.append_eq_nil_iff.1 he.symm
  exact ⟨a, b, l, hv, h1, h2⟩

theorem der_recover {α : Type} {p : E F α} {v : α} (h : Der (env J) s col (.recover p) m i [] v j) :
    Der (env J) s col p m i [] v j := by
  obtain ⟨es, he, h⟩ := h.inv
  obtain rfl := List.map_eq_nil_iff.1 he.symm
  exact h

theorem ws_takeWhile (l : List Char) : Ws (l.takeWhile isSpace) :=
  fun x hx => isSpace_iff.1 (Calculator.takeWhile_all x hx)

theorem der_ows {v : String} (h : Der (env J) s col ows m i [] v j) : Ws (slice s i j) := by
  obtain ⟨k, -, hk, hr⟩ := h.inv
  obtain rfl := hk rfl
  simp only [Yamlish.matcher, Option.map_some, Option.some.injEq, Prod.mk.injEq] at hr
  obtain ⟨rfl, -⟩ := hr
  rw [slice_add, owsLen, takeWhile_take]
  exact ws_takeWhile _

theorem der_token {f : List Char → Option Nat} {cut : Nat} {v : String}
    (h : Der (env J) s col (token f cut) m i [] v j) :
    ∃ n b, f (s.drop i) = some n ∧ slice s i j = (s.drop i).take n ++ b ∧ Ws b ∧
      v = String.ofList ((((s.drop i).take n).take (((s.drop i).take n).length - cut)).drop cut) := by
  obtain ⟨k, -, hk, hr⟩ := h.inv
  obtain rfl := hk rfl
  simp only [tokenMatcher, Option.map_eq_some_iff, Prod.mk.injEq, Except.ok.injEq, Option.some.injEq] at hr
  obtain ⟨n, hn, rfl, rfl⟩ := hr
  refine ⟨n, _, hn, ?_, ws_takeWhile ((s.drop k).drop n), rfl⟩
  rw [Nat.add_assoc, slice_add, List.take_add, owsLen]
  generalize s.drop k = r
  rw [List.length_take]
  rcases Nat.le_total n r.length with hle | hle
  · rw [Nat.min_eq_left hle, takeWhile_take]
  · rw [Nat.min_eq_right hle, List.drop_eq_nil_of_le hle, List.take_length, List.drop_length,
      List.take_of_length_le hle]
    rfl

theorem der_punct {x : Char} {v : List Char} (h : Der (env J) s col (punct x) m i [] v j) (hi : i ≤ s.length) :
    Mark x (slice s i j) := by
  obtain ⟨a, b, l, -, h1, h2⟩ := der_seqWith h
  have b1 := der_le h1 hi
  have b2 := der_le h2 b1.2
  obtain ⟨-, hp, rfl⟩ := h1.inv rfl
  refine ⟨_, ?_, der_ows h2⟩
  rw [← slice_append s b1.1 b2.1, slice_add,
    ← List.prefix_iff_eq_take.1 (List.isPrefixOf_iff_prefix.1 hp)]
  rfl

theorem Mark.pos {x : Char} (h : Mark x (slice s i j)) (hij : i ≤ j) : i < j := by
  rcases Nat.lt_or_eq_of_le hij with h' | rfl
  · exact h'
  · obtain ⟨b, hb, -⟩ := h
    rw [slice_self] at hb
    cases hb

theorem der_string {v : String} (h : Der (env J) s col (string J) m i [] v j) : Str J (slice s i j) v := by
  obtain ⟨x, h, hv⟩ := h.inv
  obtain ⟨n, b, hn, hs, hb, rfl⟩ := der_token h.inv
  obtain ⟨t, ht, hB, h0⟩ := strLen_sound hn
  rw [ht] at hs hv
  refine ⟨t, b, ?_, hB, h0, hb, ?_⟩
  · rw [hs]; simp
  · simpa using hv

theorem der_member (hi : i ≤ s.length) {kv : String × V F} (h : Der (env J) s col (member J) m i [] kv j) :
    ∃ a b, i ≤ a ∧ a < b ∧ b ≤ j ∧ j ≤ s.length ∧ Str J (slice s i a) kv.1 ∧ Mark ':' (slice s a b) ∧
      Der (env J) s col value m b [] kv.2 j := by
  obtain ⟨k, v, b, rfl, h1, hv⟩ := der_seqWith h
  obtain ⟨k, c, a, rfl, hk, hc⟩ := der_seqWith h1
  have hk := hk.inv rfl
  have b1 := der_le hk hi
  have b2 := der_le hc b1.2
  have b3 := der_le hv b2.2
  have hm := der_punct hc b1.2
  exact ⟨a, b, b1.1, hm.pos b2.1, b3.1, b3.2, der_string hk, hm, hv⟩

/-- The items of `p.sep_by(punct(","))`, and where they are. -/
theorem der_commas {α : Type} {p : E F α} (hi : i ≤ s.length) {vs : List α}
    (h : Der (env J) s col (.sepBy p (punct ',')) m i [] vs j) :
    ∃ items : List ((Nat × Nat) × α),
      (∀ x ∈ items, i ≤ x.1.1 ∧ x.1.1 ≤ x.1.2 ∧ x.1.2 ≤ j ∧ Der (env J) s col p m x.1.1 [] x.2 x.1.2) ∧
      Commas (items.map fun x => slice s x.1.1 x.1.2) (slice s i j) ∧ vs = items.map (·.2) := by
  obtain ⟨o, h0, ho⟩ := h.inv
  cases ho
  rcases h0.inv with ⟨-, rfl, rfl⟩ | ⟨x, rfl, h'⟩
  · exact ⟨[], by simp, by rw [slice_self]; exact .none, rfl⟩
  · obtain ⟨a, xs, l, rfl, h1, h2⟩ := der_seqWith h'
    have b1 := der_le h1 hi
    have b2 := der_le h2 b1.2
    have key : ∀ (xs : List α) (l : Nat), i ≤ l → l ≤ s.length →
        Der (env J) s col (.many (.seqr (punct ',') p)) m l [] xs j →
        ∃ items : List ((Nat × Nat) × α),
          (∀ x ∈ items, i ≤ x.1.1 ∧ x.1.1 ≤ x.1.2 ∧ x.1.2 ≤ j ∧ Der (env J) s col p m x.1.1 [] x.2 x.1.2) ∧
          xs = items.map (·.2) ∧
          ∀ u, Commas (u :: items.map fun x => slice s x.1.1 x.1.2) (u ++ slice s l j) := by
      intro xs
      induction xs with
      | nil =>
        intro l hl hl' h
        rcases h.inv with ⟨-, -, rfl⟩ | ⟨_, _, _, _, _, -, h, -⟩
        · exact ⟨[], by simp, rfl, fun u => by rw [slice_self, List.append_nil]; exact .one⟩
        · cases h
      | cons y ys ih =>
        intro l hl hl' h
        rcases h.inv with ⟨-, h, -⟩ | ⟨es1, es2, y', ys', n, he, h', h3, h4⟩
        · cases h
        · cases h'
          obtain ⟨rfl, rfl⟩ := List.append_eq_nil_iff.1 he.symm
          obtain ⟨c, z, k, he, h5, h6⟩ := der_seqWith h3
          obtain rfl : y = z := he
          have c1 := der_le h5 hl'
          have c2 := der_le h6 c1.2
          have c3 := der_le h4 c2.2
          obtain ⟨items, hit, rfl, hc⟩ := ih n (by omega) c2.2 h4
          refine ⟨((k, n), y) :: items, ?_, rfl, fun u => ?_⟩
          · intro z hz
            rcases List.mem_cons.1 hz with rfl | hz
            · exact ⟨by show i ≤ k; omega, c2.1, c3.1, h6⟩
            · exact hit z hz
          · rw [← slice_append s c1.1 (Nat.le_trans c2.1 c3.1), ← slice_append s c2.1 c3.1]
            exact .more (der_punct h5 hl') (hc _)
    obtain ⟨items, hit, rfl, hc⟩ := key xs l b1.1 b1.2 h2
    refine ⟨((i, l), a) :: items, ?_, ?_, rfl⟩
    · intro z hz
      rcases List.mem_cons.1 hz with rfl | hz
      · exact ⟨Nat.le_refl _, b1.1, b2.1, h1⟩
      · exact hit z hz
    · rw [← slice_append s b1.1 b2.1]
      exact hc _

theorem der_brackets {α : Type} {x y : Char} {p : E F α} (hi : i ≤ s.length) {v : α}
    (h : Der (env J) s col (.between (punct x) (punct y) p) m i [] v j) :
    ∃ a b, i < a ∧ a ≤ b ∧ b ≤ j ∧ j ≤ s.length ∧ Mark x (slice s i a) ∧ Mark y (slice s b j) ∧
      Der (env J) s col p m a [] v b := by
  obtain ⟨l, v', a, rfl, h1, h2⟩ := der_seqWith h
  obtain ⟨v', r, b, rfl, h3, h4⟩ := der_seqWith h2
  have b1 := der_le h1 hi
  have b2 := der_le h3 b1.2
  have b3 := der_le h4 b2.2
  have hm := der_punct h1 hi
  exact ⟨a, b, hm.pos b1.1, b2.1, b3.1, b3.2, hm, der_punct h4 b2.2, h3⟩

theorem collect {items : List ((Nat × Nat) × (String × V F))}
    (hd : ∀ x ∈ items, ∃ y : Item F, slice s x.1.1 x.1.2 = y.text ∧ x.2 = (y.name, y.value) ∧
      (Str J y.key y.name ∧ Mark ':' y.colon) ∧ Denotes J y.rest y.value) :
    ∃ its : List (Item F), (items.map fun x => slice s x.1.1 x.1.2) = its.map Item.text ∧
      items.map (·.2) = its.map (fun x => (x.name, x.value)) ∧
      (∀ x ∈ its, Str J x.key x.name ∧ Mark ':' x.colon) ∧ (∀ x ∈ its, Denotes J x.rest x.value) := by
  induction items with
  | nil => exact ⟨[], rfl, rfl, by simp, by simp⟩
  | cons x xs ihx =>
    obtain ⟨its, e1, e2, h1, h2⟩ := ihx fun y hy => hd y (List.mem_cons_of_mem _ hy)
    obtain ⟨y, e3, e4, h3, h4⟩ := hd _ List.mem_cons_self
    refine ⟨y :: its, ?_, ?_, ?_, ?_⟩
    · rw [List.map_cons, List.map_cons, e1, e3]
    · rw [List.map_cons, List.map_cons, e2, e4]
    · intro z hz
      rcases List.mem_cons.1 hz with rfl | hz
      · exact h3
      · exact h1 z hz
    · intro z hz
      rcases List.mem_cons.1 hz with rfl | hz
      · exact h4
      · exact h2 z hz

theorem value_sound (hi : i ≤ s.length) {v : V F} (h : Der (env J) s col value m i [] v j) :
    Denotes J (slice s i j) v := by
  generalize hn : j - i = n
  induction n using Nat.strongRecOn generalizing i j v with
  | ind n ih =>
    obtain ⟨q, hq, h⟩ := h.inv
    cases hq
    rcases h.inv.inv with h | h
    · rcases h.inv with h | h
      · rcases (h.inv rfl).inv with h | h
        · rcases h.inv with h | h
          · rcases h.inv with h | h
            · rcases h.inv with h | h
              · obtain ⟨x, h, hv⟩ := h.inv
                obtain ⟨k, b, hk, hs, hb, rfl⟩ := der_token h.inv
                simp only [Nat.sub_zero, List.drop_zero, List.take_length] at hv
                rw [hs]
                cases hf : J.float (String.ofList ((s.drop i).take k)) with
                | error e => simp only [hf, Except.map] at hv; cases hv
                | ok y => simp only [hf, Except.map] at hv; cases hv; exact .float (numLen_sound hk) hf hb
              · obtain ⟨x, h, hv⟩ := h.inv
                obtain ⟨k, b, hk, hs, hb, rfl⟩ := der_token h.inv
                simp only [Nat.sub_zero, List.drop_zero, List.take_length] at hv
                rw [hs]
                cases hf : J.int (String.ofList ((s.drop i).take k)) with
                | error e => simp only [hf, Except.map] at hv; cases hv
                | ok y => simp only [hf, Except.map] at hv; cases hv; exact .int (intLen_sound hk) hf hb
            · obtain ⟨x, h, hv⟩ := h.inv
              obtain ⟨k, b, hk, hs, hb, rfl⟩ := der_token h.inv
              simp only [Nat.sub_zero, List.drop_zero, List.take_length] at hv
              rw [hs]
              rcases boolLen_sound hk with h | h
              · rw [h] at hv ⊢; cases hv; exact .true hb
              · rw [h] at hv ⊢; cases hv; exact .false hb
          · obtain ⟨x, h, hv⟩ := h.inv
            obtain ⟨k, b, hk, hs, hb, rfl⟩ := der_token h.inv
            cases hv
            rw [hs, wordLen_sound hk]
            exact .null hb
        · obtain ⟨x, hx, hv⟩ := h.inv
          cases hv
          exact .str (der_string hx)
      · obtain ⟨a, b, h1, h2, h3, h4, hl, hr, h⟩ := der_brackets hi (der_recover h).inv
        obtain ⟨kvs, hx, hv⟩ := h.inv
        cases hv
        obtain ⟨items, hit, hc, rfl⟩ := der_commas (Nat.le_trans (Nat.le_trans h2 h3) h4) hx
        rw [← slice_append s (Nat.le_of_lt h1) (Nat.le_trans h2 h3), ← slice_append s h2 h3]
        have hd : ∀ x ∈ items, ∃ y : Item F, slice s x.1.1 x.1.2 = y.text ∧ x.2 = (y.name, y.value) ∧
            (Str J y.key y.name ∧ Mark ':' y.colon) ∧ Denotes J y.rest y.value := by
          intro x hx
          obtain ⟨c1, c2, c3, hm⟩ := hit x hx
          obtain ⟨a', b', d1, d2, d3, d4, d5, d6, d7⟩ := der_member (by omega) hm
          refine ⟨⟨slice s x.1.1 a', slice s a' b', slice s b' x.1.2, x.2.1, x.2.2⟩, ?_, rfl, ⟨d5, d6⟩,
            ih (x.1.2 - b') (by omega) (by omega) d7 rfl⟩
          rw [Item.text, slice_append s (Nat.le_of_lt d2) d3, slice_append s d1 (by omega)]
        obtain ⟨its, e1, e2, h5, h6⟩ := collect hd
        rw [e1] at hc
        rw [e2]
        exact .dict hl h5 h6 hc hr
    · obtain ⟨a, b, h1, h2, h3, h4, hl, hr, h⟩ := der_brackets hi (der_recover h).inv
      obtain ⟨vs, hx, hv⟩ := h.inv
      cases hv
      obtain ⟨items, hit, hc, rfl⟩ := der_commas (Nat.le_trans (Nat.le_trans h2 h3) h4) hx
      rw [← slice_append s (Nat.le_of_lt h1) (Nat.le_trans h2 h3), ← slice_append s h2 h3]
      have := Denotes.list (J := J) (items := items.map fun x => (slice s x.1.1 x.1.2, x.2)) hl ?_
        (by rw [List.map_map]; exact hc) hr
      · rw [List.map_map] at this
        exact this
      · intro x hx
        obtain ⟨y, hy, rfl⟩ := List.mem_map.1 hx
        obtain ⟨c1, c2, c3, hm⟩ := hit y hy
        exact ih (y.1.2 - y.1.1) (by omega) (by omega) hm rfl

theorem parser_sound {v : V F} (h : Der (env J) s col parser m 0 [] v j) : Text J s v := by
  obtain ⟨v, u, l2, rfl, h, hu⟩ := der_seqWith h
  obtain ⟨w, v, l1, rfl, hw, hv⟩ := der_seqWith h
  obtain ⟨rfl, rfl⟩ := hu.inv rfl
  have b1 := der_le hw (Nat.zero_le _)
  refine ⟨_, _, ?_, der_ows hw, value_sound b1.2 hv⟩
  rw [slice_append s b1.1 b1.2, slice, List.take_length, List.drop_zero]

end

/-! ### From texts to parsers -/

section
variable {F : Type} {J : Fns F} {s : List Char} {col : Nat → Nat → Prop} {m i j : Nat}

/-- `p` gives `v`, read from `i` to `j`. -/
def Gives (J : Fns F) (s : List Char) (col : Nat → Nat → Prop) {α : Type} (p : E F α) (m i : Nat) (v : α) (j : Nat) :
    Prop :=
  ∃ w, Eval (env J) s col p m i (.accepts v j w)

/-- `p` fails at `i`, without having read anything. -/
def Refuses (J : Fns F) (s : List Char) (col : Nat → Nat → Prop) {α : Type} (p : E F α) (m i : Nat) : Prop :=
  ∃ q w, Eval (env J) s col p m i (.fails (.rejects q w false))

variable {α β γ : Type}

theorem Gives.fmap {p : E F α} {v : α} {f : α → Except Exn β} {x : β} (h : Gives J s col p m i v j)
    (hf : f v = .ok x) : Gives J s col (.fmap p f) m i x j := by
  obtain ⟨w, h⟩ := h
  exact ⟨w, .fmap h hf⟩

theorem Gives.label {p : E F α} {v : α} {x : String} (h : Gives J s col p m i v j) :
    Gives J s col (.label p x) m i v j := by
  obtain ⟨w, h⟩ := h
  exact ⟨_, .label h⟩

theorem Gives.recover {p : E F α} {v : α} (h : Gives J s col p m i v j) : Gives J s col (.recover p) m i v j := by
  obtain ⟨w, h⟩ := h
  exact ⟨_, .recover h⟩

theorem Gives.recoverWith {p : E F α} {v x : α} {l : String} (h : Gives J s col p m i v j) :
    Gives J s col (.recoverWith p x l) m i v j := by
  obtain ⟨w, h⟩ := h
  exact ⟨_, .recoverWith h⟩

theorem Gives.seqWith {p : E F α} {q : E F β} {mg : α → β → γ} {a : α} {b : β} {l : Nat}
    (h : Gives J s col p m i a l) (h' : Gives J s col q m l b j) :
    Gives J s col (.seqWith p q mg) m i (mg a b) j := by
  obtain ⟨w, h⟩ := h
  obtain ⟨w', h'⟩ := h'
  exact ⟨_, .seq h h'⟩

theorem Gives.first {p q : E F α} {v : α} (h : Gives J s col p m i v j) : Gives J s col (.alt p q) m i v j := by
  obtain ⟨w, h⟩ := h
  exact ⟨w, .altFirst h⟩

theorem Gives.second {p q : E F α} {v : α} (h : Refuses J s col p m i) (h' : Gives J s col q m i v j) :
    Gives J s col (.alt p q) m i v j := by
  obtain ⟨k, w, h⟩ := h
  obtain ⟨w', h'⟩ := h'
  exact ⟨_, .altSecond h h'⟩

theorem Gives.item {p : E F α} {v : α} {vs : List α} {l : Nat} (h : Gives J s col p m i v l) (hl : i < l)
    (h' : Gives J s col (.many p) m l vs j) : Gives J s col (.many p) m i (v :: vs) j := by
  obtain ⟨w, h⟩ := h
  obtain ⟨w', h'⟩ := h'
  exact ⟨_, .manyItem h hl h'⟩

theorem Gives.some {p : E F α} {v : α} (h : Gives J s col p m i v j) : Gives J s col (.maybe p) m i (.some v) j := by
  obtain ⟨w, h⟩ := h
  exact ⟨_, .maybe h⟩

theorem Gives.ref {v : V F} {q : E F (V F)} (hq : env J () = .some q) (h : Gives J s col q m i v j) :
    Gives J s col value m i v j := by
  obtain ⟨w, h⟩ := h
  exact ⟨_, .ref (x := ()) hq h⟩

theorem Refuses.none {p : E F α} (h : Refuses J s col p m i) : Gives J s col (.many p) m i [] i := by
  obtain ⟨k, w, h⟩ := h
  exact ⟨_, .manyEnd h⟩

theorem Refuses.maybe {p : E F α} (h : Refuses J s col p m i) : Gives J s col (.maybe p) m i .none i := by
  obtain ⟨k, w, h⟩ := h
  exact ⟨_, .maybeNone h⟩

theorem Refuses.seqWith {p : E F α} {q : E F β} {mg : α → β → γ} (h : Refuses J s col p m i) :
    Refuses J s col (.seqWith p q mg) m i := by
  obtain ⟨k, w, h⟩ := h
  exact ⟨_, _, .seqFails h⟩

theorem Refuses.fmap {p : E F α} {f : α → Except Exn β} (h : Refuses J s col p m i) :
    Refuses J s col (.fmap p f) m i := by
  obtain ⟨k, w, h⟩ := h
  exact ⟨_, _, .fmapFails h⟩

theorem Refuses.alt {p q : E F α} (h : Refuses J s col p m i) (h' : Refuses J s col q m i) :
    Refuses J s col (.alt p q) m i := by
  obtain ⟨k, w, h⟩ := h
  obtain ⟨k', w', h'⟩ := h'
  exact ⟨_, _, .altSecond h h'⟩

theorem Refuses.label {p : E F α} {x : String} (h : Refuses J s col p m i) : Refuses J s col (.label p x) m i := by
  obtain ⟨k, w, h⟩ := h
  exact ⟨_, _, .label h⟩

theorem Refuses.recover {p : E F α} (h : Refuses J s col p m i) : Refuses J s col (.recover p) m i := by
  obtain ⟨k, w, h⟩ := h
  exact ⟨_, _, .recover h⟩

theorem Refuses.recoverWith {p : E F α} {x : α} {l : String} (h : Refuses J s col p m i) :
    Refuses J s col (.recoverWith p x l) m i := by
  obtain ⟨k, w, h⟩ := h
  exact ⟨_, _, .recoverWith h⟩

theorem Refuses.ref {q : E F (V F)} (hq : env J () = .some q) (h : Refuses J s col q m i) :
    Refuses J s col value m i := by
  obtain ⟨k, w, h⟩ := h
  exact ⟨_, _, .ref (x := ()) hq h⟩

theorem gives_ows {b post : List Char} (hs : s.drop i = b ++ post) (hb : Ws b) (hp : NotNext isSpace post) :
    Gives J s col ows m i (String.ofList b) (i + b.length) := by
  refine ⟨_, .regexp ?_⟩
  have : owsLen (b ++ post) = b.length := by
    rw [owsLen, takeWhile_of (fun x hx => isSpace_iff.2 (hb x hx)) hp]
  simp [Yamlish.matcher, hs, this]

theorem gives_token {f : List Char → Option Nat} {cut : Nat} {t b post : List Char} (hs : s.drop i = t ++ (b ++ post))
    (hf : f (t ++ (b ++ post)) = .some t.length) (hb : Ws b) (hp : NotNext isSpace post) :
    Gives J s col (token f cut) m i (String.ofList ((t.take (t.length - cut)).drop cut)) (i + (t ++ b).length) := by
  refine ⟨_, .regexp ?_⟩
  have : owsLen (b ++ post) = b.length := by
    rw [owsLen, takeWhile_of (fun x hx => isSpace_iff.2 (hb x hx)) hp]
  simp only [tokenMatcher, hs, hf, Option.map_some, List.take_left, List.drop_left, this, List.length_append, Nat.add_assoc]

theorem refuses_token {f : List Char → Option Nat} {cut : Nat} (h : f (s.drop i) = .none) :
    Refuses J s col (token f cut : E F String) m i := by
  refine ⟨_, _, .regexpNot (.inl ?_)⟩
  simp [tokenMatcher, h]

theorem gives_punct {x : Char} {w post : List Char} (hw : Mark x w) (hs : s.drop i = w ++ post)
    (hp : NotNext isSpace post) : Gives J s col (punct x) m i [x] (i + w.length) := by
  obtain ⟨b, rfl, hb⟩ := hw
  have h1 : Gives J s col (.literal [x] (String.ofList ['\'', x, '\'']) (List.cons_ne_nil _ _)) m i [x] (i + 1) := by
    refine ⟨_, .literal ?_⟩
    rw [hs]
    simp [List.isPrefixOf]
  have hs' : s.drop (i + 1) = b ++ post := drop_append (a := [x]) hs
  have := Gives.seqWith (mg := fun a _ => a) h1 (gives_ows hs' hb hp)
  rw [List.length_cons, Nat.add_comm b.length, ← Nat.add_assoc]
  exact this

theorem refuses_punct {x c : Char} {l : List Char} (hs : s.drop i = c :: l) (hx : x ≠ c) :
    Refuses J s col (punct x : E F (List Char)) m i := by
  refine Refuses.seqWith ⟨_, _, .literalNot ?_⟩
  rw [hs]
  simp [List.isPrefixOf, hx]

/-- What follows a value: a comma, a closing bracket, a colon, or nothing. -/
def Stop (l : List Char) : Prop := ∀ x, l.head? = .some x → x = ',' ∨ x = ']' ∨ x = '}' ∨ x = ':'

theorem Stop.notSpace {l : List Char} (h : Stop l) : NotNext isSpace l := by
  intro x hx
  rcases h x hx with rfl | rfl | rfl | rfl <;> decide

theorem Stop.notNum {b l : List Char} (h : Stop l) (hb : Ws b) : NotNext isNumChar (b ++ l) := by
  intro x hx
  cases b with
  | nil => rcases h x hx with rfl | rfl | rfl | rfl <;> decide
  | cons y b =>
    cases hx
    rcases hb x List.mem_cons_self with rfl | rfl | rfl | rfl <;> decide

theorem Mark.stop {x : Char} {w l : List Char} (h : Mark x w) (hx : x = ',' ∨ x = ']' ∨ x = '}' ∨ x = ':') :
    Stop (w ++ l) := by
  obtain ⟨b, rfl, -⟩ := h
  intro y hy
  cases hy
  exact hx

/-- Scalars begin with other characters. -/
theorem scalar_refuses {c : Char} {l : List Char} (hs : s.drop i = c :: l)
    (hc : c = '{' ∨ c = '[' ∨ c = ']') : Refuses J s col (scalar J) m i := by
  have h1 : c ≠ '-' ∧ isDigit c = false ∧ c ≠ 't' ∧ c ≠ 'f' ∧ c ≠ 'n' ∧ c ≠ '"' := by
    rcases hc with rfl | rfl | rfl <;> decide
  obtain ⟨h1, h2, h3, h4, h5, h6⟩ := h1
  refine .alt (.alt (.alt (.alt ?_ ?_) ?_) ?_) ?_
  · exact .fmap (.label (refuses_token (by rw [hs, numLen_none h1 h2])))
  · exact .fmap (.label (refuses_token (by rw [hs, intLen_none h1 h2])))
  · exact .fmap (.label (refuses_token (by rw [hs, boolLen_none h3 h4])))
  · exact .fmap (.label (refuses_token (by rw [hs, nullLen_none h5])))
  · exact .fmap (.fmap (.label (refuses_token (by rw [hs, strLen_none h6]))))

theorem value_refuses {l : List Char} (hs : s.drop i = ']' :: l) : Refuses J s col value m i := by
  refine .ref rfl (.label (.alt (.alt (.recoverWith (scalar_refuses hs (.inr (.inr rfl)))) ?_) ?_))
  · exact .recover (.label (.seqWith (refuses_punct hs (by decide))))
  · exact .recover (.label (.seqWith (refuses_punct hs (by decide))))

theorem member_refuses {l : List Char} (hs : s.drop i = '}' :: l) : Refuses J s col (member J) m i :=
  .seqWith (.seqWith (.recoverWith (.fmap (.label (refuses_token (by rw [hs, strLen_none (by decide)]))))))

/-- What can be followed by a mark or nothing is read. -/
def Reads (J : Fns F) (s : List Char) (col : Nat → Nat → Prop) (m : Nat) (p : E F α) (w : List Char) (v : α) : Prop :=
  (∃ c l, w = c :: l ∧ isSpace c = false) ∧
    ∀ i post, s.drop i = w ++ post → Stop post → Gives J s col p m i v (i + w.length)

theorem notSpace_append {w l : List Char} (h : ∃ c l, w = c :: l ∧ isSpace c = false) : NotNext isSpace (w ++ l) := by
  obtain ⟨c, l, rfl, hc⟩ := h
  intro x hx
  cases hx
  exact hc

theorem commas_complete {p : E F α} {items : List (List Char × α)} {w post : List Char}
    (hit : ∀ x ∈ items, Reads J s col m p x.1 x.2) (hc : Commas (items.map (·.1)) w)
    (hs : s.drop i = w ++ post) (hp : Stop post) (hpc : ∃ y l, post = y :: l ∧ y ≠ ',')
    (hno : items = [] → Refuses J s col p m i) :
    Gives J s col (.sepBy p (punct ',')) m i (items.map (·.2)) (i + w.length) := by
  cases items with
  | nil =>
    cases hc
    exact Gives.fmap (Refuses.maybe (.seqWith (hno rfl))) rfl
  | cons x xs =>
    have key : ∀ (xs : List (List Char × α)) (u w : List Char), (∀ y ∈ xs, Reads J s col m p y.1 y.2) →
        Commas (u :: xs.map (·.1)) w → ∃ w', w = u ++ w' ∧ Stop (w' ++ post) ∧ ∀ i, s.drop i = w' ++ post →
          Gives J s col (.many (.seqr (punct ',') p)) m i (xs.map (·.2)) (i + w'.length) := by
      intro xs
      induction xs with
      | nil =>
        intro u w _ h
        cases h
        refine ⟨[], by simp, hp, fun i hi => ?_⟩
        obtain ⟨y, l, rfl, hy⟩ := hpc
        exact Refuses.none (.seqWith (refuses_punct hi hy.symm))
      | cons y ys ih =>
        intro u w hy h
        cases h with
        | @more _ c _ _ r hc h =>
          obtain ⟨w', rfl, hst, h'⟩ := ih _ _ (fun z hz => hy z (List.mem_cons_of_mem _ hz)) h
          obtain ⟨hy1, hy2⟩ := hy y List.mem_cons_self
          refine ⟨c ++ (y.1 ++ w'), rfl, ?_, fun i hi => ?_⟩
          · rw [List.append_assoc]
            exact hc.stop (.inl rfl)
          · simp only [List.append_assoc] at hi
            have hi1 := drop_append hi
            have hi2 := drop_append hi1
            have g1 := gives_punct (J := J) (col := col) (m := m) hc hi (notSpace_append hy1)
            have g2 := hy2 _ _ hi1 hst
            have g3 := h' _ hi2
            have hpos : 0 < c.length := by obtain ⟨b, rfl, -⟩ := hc; simp
            have := Gives.item (Gives.seqWith (mg := fun _ b => b) g1 g2) (by omega) g3
            simp only [List.length_append, List.map_cons]
            rw [← Nat.add_assoc, ← Nat.add_assoc]
            exact this
    obtain ⟨w', rfl, hst, h⟩ := key xs x.1 w (fun y hy => hit y (List.mem_cons_of_mem _ hy)) hc
    rw [List.append_assoc] at hs
    have g1 := (hit x List.mem_cons_self).2 _ _ hs hst
    have g2 := h _ (drop_append hs)
    rw [List.length_append, ← Nat.add_assoc]
    exact Gives.fmap (Gives.some (Gives.seqWith (mg := fun l r => (l, r)) g1 g2)) rfl

theorem brackets_complete {x y : Char} {p : E F α} {l w r post : List Char} {v : α} (hl : Mark x l) (hr : Mark y r)
    (hs : s.drop i = l ++ (w ++ r) ++ post) (hp : NotNext isSpace post) (hw : NotNext isSpace (w ++ (r ++ post)))
    (h : s.drop (i + l.length) = w ++ (r ++ post) → Gives J s col p m (i + l.length) v (i + l.length + w.length)) :
    Gives J s col (.between (punct x) (punct y) p) m i v (i + (l ++ (w ++ r)).length) := by
  simp only [List.append_assoc] at hs
  have h1 := drop_append hs
  have g1 := gives_punct (J := J) (col := col) (m := m) hl hs hw
  have g2 := h h1
  have g3 := gives_punct (J := J) (col := col) (m := m) hr (drop_append h1) hp
  have := Gives.seqWith (mg := fun _ b => b) g1 (Gives.seqWith (mg := fun a _ => a) g2 g3)
  simp only [List.length_append]
  rw [← Nat.add_assoc, ← Nat.add_assoc]
  exact this

theorem Str.reads {w : List Char} {x : String} (h : Str J w x) : Reads J s col m (string J) w x := by
  obtain ⟨t, b, rfl, hB, h0, hb, hx⟩ := h
  refine ⟨⟨'"', _, rfl, by decide⟩, fun i post hs hp => ?_⟩
  have he : ('"' :: (t ++ '"' :: b)) = ('"' :: (t ++ ['"'])) ++ b := by simp
  rw [he] at hs ⊢
  rw [List.append_assoc] at hs
  have g := gives_token (J := J) (col := col) (m := m) (f := strLen) (cut := 1) hs ?_ hb hp.notSpace
  · refine Gives.fmap g.label ?_
    simpa using hx
  · have := strLen_complete (l := b ++ post) hB h0
    simpa using this

theorem item_reads {x : Item F} (hk : Str J x.key x.name) (hc : Mark ':' x.colon)
    (hv : Reads J s col m value x.rest x.value) : Reads J s col m (member J) x.text (x.name, x.value) := by
  obtain ⟨⟨c, l, hcl, hsp⟩, hr⟩ := hk.reads (J := J) (s := s) (col := col) (m := m)
  refine ⟨⟨c, l ++ (x.colon ++ x.rest), by rw [Item.text, hcl]; rfl, hsp⟩, fun i post hs hp => ?_⟩
  simp only [Item.text, List.append_assoc] at hs
  have h1 := drop_append hs
  have h2 := drop_append h1
  have g1 := hr _ _ hs (hc.stop (.inr (.inr (.inr rfl))))
  have g2 := gives_punct (J := J) (col := col) (m := m) hc h1 (notSpace_append hv.1)
  have g3 := hv.2 _ _ h2 hp
  simp only [Item.text, List.length_append]
  rw [← Nat.add_assoc, ← Nat.add_assoc]
  exact Gives.seqWith (mg := fun l r => (l, r)) (Gives.seqWith (mg := fun a _ => a) g1.recoverWith g2) g3

theorem gives_scalar {v : V F} (h : Gives J s col (scalar J) m i v j) : Gives J s col value m i v j :=
  .ref rfl (.label (.first (.first h.recoverWith)))

theorem Integer.head {t : List Char} (h : Integer t) : ∃ c l, t = c :: l ∧ (c = '-' ∨ isDigit c = true) := by
  obtain ⟨n, hn, rfl | rfl⟩ := h
  · obtain ⟨c, l, rfl, hc⟩ := hn.head
    exact ⟨c, l, rfl, .inr hc⟩
  · exact ⟨_, _, rfl, .inl rfl⟩

theorem notSpace_num {c : Char} (h : c = '-' ∨ isDigit c = true) : isSpace c = false := by
  cases hs : isSpace c with
  | false => rfl
  | true =>
    rcases isSpace_iff.1 hs with rfl | rfl | rfl | rfl <;> revert h <;> decide

theorem value_complete {w : List Char} {v : V F} (h : Denotes J w v) : Reads J s col m value w v := by
  induction h with
  | @int t b x ht hx hb =>
    obtain ⟨c, l, hcl, hc⟩ := ht.head
    refine ⟨⟨c, l ++ b, by rw [hcl]; rfl, notSpace_num hc⟩, fun i post hs hp => gives_scalar ?_⟩
    rw [List.append_assoc] at hs
    have g := gives_token (J := J) (col := col) (m := m) (f := intLen) (cut := 0) hs
      (intLen_complete ht (notDigit (hp.notNum hb))) hb hp.notSpace
    refine .first (.first (.first (.second ?_ (Gives.fmap g.label ?_))))
    · exact .fmap (.label (refuses_token (by rw [hs, numLen_integer ht (hp.notNum hb)])))
    · simp [hx, Except.map]
  | @float t b x ht hx hb =>
    obtain ⟨n, t', hn, rfl, ht'⟩ := id ht
    obtain ⟨c, l, hcl, hc⟩ := hn.head
    refine ⟨⟨c, l ++ t' ++ b, by rw [hcl]; simp, notSpace_num hc⟩, fun i post hs hp => gives_scalar ?_⟩
    rw [List.append_assoc _ b] at hs
    have g := gives_token (J := J) (col := col) (m := m) (f := numLen) (cut := 0) hs
      (numLen_complete ht (hp.notNum hb)) hb hp.notSpace
    refine .first (.first (.first (.first (Gives.fmap g.label ?_))))
    simp only [Nat.sub_zero, List.take_length, List.drop_zero, hx, Except.map]
  | @true b hb =>
    refine ⟨⟨_, _, rfl, by decide⟩, fun i post hs hp => gives_scalar ?_⟩
    have g := gives_token (J := J) (col := col) (m := m) (f := boolLen) (cut := 0) (t := ['t', 'r', 'u', 'e'])
      (b := b) (post := post) hs rfl hb hp.notSpace
    refine .first (.first (.second (.alt ?_ ?_) (Gives.fmap g.label ?_)))
    · exact .fmap (.label (refuses_token (by rw [hs]; exact numLen_none (by decide) (by decide))))
    · exact .fmap (.label (refuses_token (by rw [hs]; exact intLen_none (by decide) (by decide))))
    · rfl
  | @false b hb =>
    refine ⟨⟨_, _, rfl, by decide⟩, fun i post hs hp => gives_scalar ?_⟩
    have g := gives_token (J := J) (col := col) (m := m) (f := boolLen) (cut := 0) (t := ['f', 'a', 'l', 's', 'e'])
      (b := b) (post := post) hs rfl hb hp.notSpace
    refine .first (.first (.second (.alt ?_ ?_) (Gives.fmap g.label ?_)))
    · exact .fmap (.label (refuses_token (by rw [hs]; exact numLen_none (by decide) (by decide))))
    · exact .fmap (.label (refuses_token (by rw [hs]; exact intLen_none (by decide) (by decide))))
    · rfl
  | @null b hb =>
    refine ⟨⟨_, _, rfl, by decide⟩, fun i post hs hp => gives_scalar ?_⟩
    have g := gives_token (J := J) (col := col) (m := m) (f := nullLen) (cut := 0) (t := ['n', 'u', 'l', 'l'])
      (b := b) (post := post) hs rfl hb hp.notSpace
    refine .first (.second (.alt (.alt ?_ ?_) ?_) (Gives.fmap g.label ?_))
    · exact .fmap (.label (refuses_token (by rw [hs]; exact numLen_none (by decide) (by decide))))
    · exact .fmap (.label (refuses_token (by rw [hs]; exact intLen_none (by decide) (by decide))))
    · exact .fmap (.label (refuses_token (by rw [hs]; exact boolLen_none (by decide) (by decide))))
    · rfl
  | @str w x hx =>
    have hr := hx.reads (J := J) (s := s) (col := col) (m := m)
    refine ⟨hr.1, fun i post hs hp => gives_scalar (.second (.alt (.alt (.alt ?_ ?_) ?_) ?_)
      (Gives.fmap (hr.2 i post hs hp) rfl))⟩
    all_goals
      obtain ⟨t, b, rfl, -⟩ := hx
      refine .fmap (.label (refuses_token ?_))
      rw [hs]
    · exact numLen_none (by decide) (by decide)
    · exact intLen_none (by decide) (by decide)
    · exact boolLen_none (by decide) (by decide)
    · exact nullLen_none (by decide)
  | @list l r w items hl hit hc hr ih =>
    refine ⟨?_, fun i post hs hp => ?_⟩
    · obtain ⟨b, rfl, -⟩ := hl
      exact ⟨_, _, rfl, by decide⟩
    have hst : Stop (r ++ post) := hr.stop (.inr (.inl rfl))
    have hrp : ∃ y l, r ++ post = y :: l ∧ y ≠ ',' := by
      obtain ⟨b, rfl, -⟩ := hr
      exact ⟨_, _, rfl, by decide⟩
    have hhead : ∃ l', s.drop i = '[' :: l' := by
      obtain ⟨b, rfl, -⟩ := hl
      exact ⟨_, hs⟩
    obtain ⟨l', hl'⟩ := hhead
    have hsp : NotNext isSpace (w ++ (r ++ post)) := by
      cases items with
      | nil => cases hc; exact hst.notSpace
      | cons x xs =>
        have := (ih x List.mem_cons_self).1
        obtain ⟨c, l, hx, hc2⟩ := this
        have : ∃ w', w = x.1 ++ w' := by
          cases xs with
          | nil => cases hc; exact ⟨[], by simp⟩
          | cons y ys => cases hc; exact ⟨_, rfl⟩
        obtain ⟨w', rfl⟩ := this
        rw [List.append_assoc]
        exact notSpace_append ⟨c, l, hx, hc2⟩
    refine .ref rfl (.label (.second (.alt (.recoverWith (scalar_refuses hl' (.inr (.inl rfl)))) ?_) (.recover (.label ?_))))
    · exact .recover (.label (.seqWith (refuses_punct hl' (by decide))))
    · refine brackets_complete hl hr hs hp.notSpace hsp fun h => Gives.fmap ?_ rfl
      refine commas_complete ih hc h hst hrp fun he => ?_
      subst he
      cases hc
      obtain ⟨b, rfl, -⟩ := hr
      exact value_refuses h
  | @dict l r w items hl hk hit hc hr ih =>
    refine ⟨?_, fun i post hs hp => ?_⟩
    · obtain ⟨b, rfl, -⟩ := hl
      exact ⟨_, _, rfl, by decide⟩
    have hst : Stop (r ++ post) := hr.stop (.inr (.inr (.inl rfl)))
    have hrp : ∃ y l, r ++ post = y :: l ∧ y ≠ ',' := by
      obtain ⟨b, rfl, -⟩ := hr
      exact ⟨_, _, rfl, by decide⟩
    have hhead : ∃ l', s.drop i = '{' :: l' := by
      obtain ⟨b, rfl, -⟩ := hl
      exact ⟨_, hs⟩
    obtain ⟨l', hl'⟩ := hhead
    have hm : ∀ x ∈ items.map (fun x => (x.text, (x.name, x.value))), Reads J s col m (member J) x.1 x.2 := by
      intro x hx
      obtain ⟨y, hy, rfl⟩ := List.mem_map.1 hx
      exact item_reads (hk y hy).1 (hk y hy).2 (ih y hy)
    have hc' : Commas ((items.map (fun x => (x.text, (x.name, x.value)))).map (·.1)) w := by
      rw [List.map_map]; exact hc
    have hsp : NotNext isSpace (w ++ (r ++ post)) := by
      cases items with
      | nil => cases hc; exact hst.notSpace
      | cons x xs =>
        have := (hm _ (List.mem_map_of_mem (List.mem_cons_self (a := x)))).1
        obtain ⟨c, l, hx, hc2⟩ := this
        have : ∃ w', w = x.text ++ w' := by
          cases xs with
          | nil => cases hc; exact ⟨[], by simp⟩
          | cons y ys => cases hc; exact ⟨_, rfl⟩
        obtain ⟨w', rfl⟩ := this
        rw [List.append_assoc]
        exact notSpace_append ⟨c, l, hx, hc2⟩
    refine .ref rfl (.label (.first (.second (.recoverWith (scalar_refuses hl' (.inl rfl))) (.recover (.label ?_)))))
    refine brackets_complete hl hr hs hp.notSpace hsp fun h => Gives.fmap
      (v := items.map fun x => (x.name, x.value)) ?_ rfl
    have := commas_complete hm hc' h hst hrp fun he => ?_
    · rw [List.map_map] at this
      exact this
    · obtain rfl := List.map_eq_nil_iff.1 he
      cases hc
      obtain ⟨b, rfl, -⟩ := hr
      exact member_refuses h

theorem parser_complete {v : V F} (h : Text J s v) : ∃ j w, Eval (env J) s col parser m 0 (.accepts v j w) := by
  obtain ⟨b, w, rfl, hb, hw⟩ := h
  have hr := value_complete (s := b ++ w) (col := col) (m := m) hw
  have h0 : (b ++ w).drop 0 = b ++ w := rfl
  have g1 := gives_ows (J := J) (col := col) (m := m) (i := 0) h0 hb (by simpa using notSpace_append (l := []) hr.1)
  have h1 : (b ++ w).drop (0 + b.length) = w ++ [] := by rw [List.append_nil]; exact drop_append h0
  have g2 := hr.2 _ [] h1 (fun x hx => by cases hx)
  have hl : 0 + b.length + w.length = (b ++ w).length := by simp
  rw [hl] at g2
  obtain ⟨ws, h⟩ := Gives.seqWith (mg := fun a _ => a) (Gives.seqWith (mg := fun _ b => b) g1 g2)
    (⟨_, .eof⟩ : Gives J (b ++ w) col .eof m (b ++ w).length () (b ++ w).length)
  exact ⟨_, ws, h⟩

end

end Reparsec.JsonText
