import Verif.Lemmas.SoundAll
import Verif.Spec.Location

/-!
# The location disciplines of `Parser.parse`, `scannerless.parse` and `lexer.parse`
-/

namespace Reparsec

variable {τ : Type}

/-- Nothing is known of `get_loc`: no claim about locations and columns. -/
def anyDisc (g : Loc → List τ → Nat → Loc) (s : List τ) : LocDisc s where
  g := g
  I _ _ := True
  rel _ _ := True
  col _ _ := True
  layout := True
  report := by intros; trivial
  stay := by intros; trivial
  update := by intros; trivial
  here := by intros; exact ⟨trivial, trivial⟩
  there := by intros; trivial

/-- `Parser.parse` with the default `get_loc`. -/
def defaultDisc (s : List τ) : LocDisc s where
  g := defaultGetLoc
  I loc _ := loc.line = 0 ∧ loc.col = 0
  rel p loc := loc = ⟨p, 0, 0⟩
  col _ c := c = 0
  layout := True
  report := by intros; rfl
  stay := by intro _ _ _ h _ _; exact h
  update := by intros; exact ⟨rfl, rfl⟩
  here := by
    rintro _ ⟨a, b, c⟩ p ⟨h1, h2⟩ _ h
    simp only at h1 h2 h
    subst h1 h2 h
    exact ⟨rfl, rfl⟩
  there := by intros; rfl

/-! ### `scannerless.parse` -/

theorem rfindNl_spec (s : List Char) (start k : Nat) :
    (∃ i, rfindNl s start k = some i ∧ start ≤ i ∧ i < k ∧ s[i]? = some '\n' ∧
        ∀ j, i < j → j < k → s[j]? ≠ some '\n') ∨
      (rfindNl s start k = none ∧ ∀ j, start ≤ j → j < k → s[j]? ≠ some '\n') := by
  induction k with
  | zero => right; simp [rfindNl]
  | succ k ih =>
    unfold rfindNl
    by_cases h1 : k < start
    · right; simp only [h1, if_true, true_and]; intro j h2 h3; omega
    · simp only [h1, if_false]
      by_cases h2 : s[k]? = some '\n'
      · left; refine ⟨k, by simp [h2], by omega, by omega, h2, ?_⟩; intro j h3 h4; omega
      · simp only [h2, if_false]
        rcases ih with ⟨i, h3, h4, h5, h6, h7⟩ | ⟨h3, h4⟩
        · left; refine ⟨i, h3, h4, by omega, h6, ?_⟩
          intro j h8 h9
          by_cases hj : j = k
          · rw [hj]; exact h2
          · exact h7 j h8 (by omega)
        · right; refine ⟨h3, ?_⟩
          intro j h8 h9
          by_cases hj : j = k
          · rw [hj]; exact h2
          · exact h4 j h8 (by omega)

theorem takeWhile_length_append {α : Type} {f : α → Bool} {a b : List α}
    (h : ∀ x ∈ a, f x = true) : ((a ++ b).takeWhile f) = a ++ b.takeWhile f := by
  induction a with
  | nil => rfl
  | cons x a ih =>
    have hx := h x (by simp)
    simp only [List.cons_append, List.takeWhile_cons, hx, if_true]
    rw [ih fun y hy => h y (by simp [hy])]

/-- The text up to `q` splits at `p`. -/
theorem take_split (s : List Char) {p q : Nat} (h : p ≤ q) :
    s.take q = s.take p ++ (s.take q).drop p := by
  rw [List.drop_take, ← List.take_append_drop p (s.take q), List.take_take, Nat.min_eq_left h,
    List.drop_take]

theorem mem_seg {s : List Char} {p q : Nat} {c : Char} (h : c ∈ (s.take q).drop p) :
    ∃ j, p ≤ j ∧ j < q ∧ s[j]? = some c := by
  obtain ⟨n, hn⟩ := List.mem_iff_getElem?.1 h
  rw [List.getElem?_drop] at hn
  obtain ⟨hlt, _⟩ := List.getElem?_eq_some_iff.1 hn
  rw [List.length_take] at hlt
  rw [List.getElem?_take_of_lt (by omega)] at hn
  exact ⟨p + n, by omega, by omega, hn⟩

theorem seg_mem {s : List Char} {p q j : Nat} {c : Char} (h1 : p ≤ j) (h2 : j < q)
    (h3 : s[j]? = some c) : c ∈ (s.take q).drop p := by
  refine List.mem_iff_getElem?.2 ⟨j - p, ?_⟩
  rw [List.getElem?_drop, List.getElem?_take_of_lt (by omega)]
  rw [show p + (j - p) = j by omega]; exact h3

theorem count_split (s : List Char) {p q : Nat} (h : p ≤ q) :
    (s.take q).count '\n' = (s.take p).count '\n' + countNl s p q := by
  rw [take_split s h, List.count_append]; rfl

/-- If there is no newline in between, the column grows by the distance. -/
theorem lineStart_same {s : List Char} {p q : Nat} (h : p ≤ q) (hq : q ≤ s.length)
    (hn : countNl s p q = 0) :
    (lineStart s q).length = (lineStart s p).length + (q - p) := by
  unfold lineStart
  rw [take_split s h, List.reverse_append, takeWhile_length_append]
  · simp; omega
  · intro x hx
    simp only [List.mem_reverse] at hx
    simp only [decide_eq_true_eq]
    rintro rfl
    exact (List.count_eq_zero.1 hn) hx

/-- If the last newline is at `i`, the column is the distance from it. -/
theorem lineStart_nl {s : List Char} {i q : Nat} (h : i < q) (hq : q ≤ s.length)
    (hi : s[i]? = some '\n') (hn : ∀ j, i < j → j < q → s[j]? ≠ some '\n') :
    (lineStart s q).length = q - i - 1 := by
  have h1 : countNl s (i + 1) q = 0 := by
    refine List.count_eq_zero.2 fun hm => ?_
    obtain ⟨j, h1, h2, h3⟩ := mem_seg hm
    exact hn j (by omega) h2 h3
  rw [lineStart_same (by omega) hq h1]
  have h2 : (lineStart s (i + 1)).length = 0 := by
    unfold lineStart
    obtain ⟨hlt, he⟩ := List.getElem?_eq_some_iff.1 hi
    rw [List.take_succ_eq_append_getElem hlt, he]
    simp
  omega

theorem countNl_pos {s : List Char} {p q : Nat} (h : countNl s p q ≠ 0) :
    ∃ j, p ≤ j ∧ j < q ∧ s[j]? = some '\n' := by
  have : '\n' ∈ (s.take q).drop p := by
    by_cases hm : '\n' ∈ (s.take q).drop p
    · exact hm
    · exact absurd (List.count_eq_zero.2 hm) h
  exact mem_seg this

theorem rfindNl_some {s : List Char} {p q : Nat} (h : countNl s p q ≠ 0) :
    ∃ i, rfindNl s p q = some i ∧ p ≤ i ∧ i < q ∧ s[i]? = some '\n' ∧
        ∀ j, i < j → j < q → s[j]? ≠ some '\n' := by
  rcases rfindNl_spec s p q with h1 | ⟨_, h2⟩
  · exact h1
  · obtain ⟨j, h3, h4, h5⟩ := countNl_pos h
    exact absurd h5 (h2 j h3 h4)

/-- One step of the computation used both by `scannerless.get_loc` and by the lexer. -/
theorem exactLoc_step {s : List Char} {p q : Nat} (h : p ≤ q) (hq : q ≤ s.length) :
    exactLoc s q = lexEndLoc s p q (exactLoc s p) := by
  unfold exactLoc lexEndLoc
  by_cases hn : countNl s p q = 0
  · simp only [hn, ne_eq, not_true_eq_false, if_false, Loc.mk.injEq, true_and]
    exact ⟨by rw [count_split s h, hn]; rfl, lineStart_same h hq hn⟩
  · obtain ⟨i, h1, h2, h3, h4, h5⟩ := rfindNl_some hn
    simp only [hn, ne_eq, not_false_eq_true, if_true, Loc.mk.injEq, true_and, h1,
      Option.getD_some]
    exact ⟨count_split s h, lineStart_nl h3 hq h4 h5⟩

theorem scannerless_exact {s : List Char} {loc : Loc} {q : Nat} (h : loc = exactLoc s loc.pos)
    (hle : loc.pos ≤ q) (hq : q ≤ s.length) : scannerlessGetLoc loc s q = exactLoc s q := by
  rw [exactLoc_step hle hq]
  unfold scannerlessGetLoc lexEndLoc
  simp only [← h]

/-- `scannerless.parse`. -/
def scannerlessDisc (s : List Char) : LocDisc s where
  g := scannerlessGetLoc
  I loc p := loc = exactLoc s loc.pos ∧ loc.pos ≤ p
  rel p loc := loc = exactLoc s p
  col p c := c = (exactLoc s p).col
  layout := True
  report := by
    rintro loc p q ⟨h1, h2⟩ h3 h4
    exact scannerless_exact h1 (by omega) h4
  stay := by rintro loc p q ⟨h1, h2⟩ h3 h4; exact ⟨h1, by omega⟩
  update := by
    rintro loc p q ⟨h1, h2⟩ h3 h4
    rw [scannerless_exact h1 (by omega) h4]
    exact ⟨rfl, Nat.le_refl _⟩
  here := by
    rintro _ loc p ⟨h1, h2⟩ h3 h4
    rw [h4] at h1
    exact ⟨h1, by rw [← h1]⟩
  there := by
    rintro _ loc p ⟨h1, h2⟩ h3 h4
    rw [scannerless_exact h1 (by omega) h3]

/-! ### `lexer.parse` -/

theorem tokenLoc_locFromStream (s : List Token) (p : Nat) : TokenLoc s p (locFromStream s p) := by
  unfold locFromStream
  split
  · next t h => exact .token h
  · next h =>
    split
    · next t h' => exact .atEnd (List.getElem?_eq_none_iff.1 h) h'
    · next h' => exact .empty (List.getLast?_eq_none_iff.1 h')

theorem locFromStream_unique {s : List Token} {q : Nat} {loc : Loc} (h : TokenLoc s q loc) :
    loc = locFromStream s q := by
  unfold locFromStream
  cases h with
  | token h => rw [h]
  | atEnd h1 h2 => rw [List.getElem?_eq_none h1, h2]
  | empty h => subst h; rfl

/-- The token list is such that comparing a token index with a character offset
(`core/types.py:29`) does no harm: the first token starts where the initial location is, and where the
character offset of an earlier token happens to be the index of a token, their locations are the same.
(In a list that `split_tokens` made, only empty tokens can have the same location, so this says that there
is no such coincidence. `C36_exact` shows that nothing less will do.) -/
structure IndexSafe (s : List Token) : Prop where
  first : ∀ t, s[0]? = some t → t.start = ⟨0, 0, 0⟩
  later : ∀ q p loc, q < p → p ≤ s.length → TokenLoc s q loc → loc.pos = p → TokenLoc s p loc

/-- `lexer.parse`; layout combinators are covered only where `IndexSafe` holds. -/
def lexerDisc (s : List Token) : LocDisc s where
  g := lexerGetLoc
  I loc p := loc = ⟨0, 0, 0⟩ ∨ ∃ q, q ≤ p ∧ loc = locFromStream s q
  rel p loc := loc = locFromStream s p
  col p c := c = (locFromStream s p).col
  layout := IndexSafe s
  report := by intros; rfl
  stay := by
    rintro loc p q h h1 h2
    exact h.imp_right fun ⟨x, h3, h4⟩ => ⟨x, by omega, h4⟩
  update := by intro loc p q h h1 h2; exact .inr ⟨q, Nat.le_refl _, rfl⟩
  here := by
    intro hs loc p h hp hpos
    have key : loc = locFromStream s p := by
      rcases h with rfl | ⟨q, h1, rfl⟩
      · simp only at hpos
        subst hpos
        unfold locFromStream
        split
        · next t h => exact (hs.first t h).symm
        · next h =>
          have : s = [] := by
            cases s with
            | nil => rfl
            | cons a s => simp at h
          subst this; rfl
      · by_cases hq : q = p
        · rw [hq]
        · exact locFromStream_unique (hs.later q p _ (by omega) hp (tokenLoc_locFromStream s q) hpos)
    exact ⟨key, by rw [key]⟩
  there := by intros; rfl

/-- `loc` is a location that a context may hold at token index `p`: the initial one, or the one of the
token at `p` or of an earlier token. -/
def heldLoc (s : List Token) (p : Nat) (loc : Loc) : Prop :=
  loc = ⟨0, 0, 0⟩ ∨ ∃ q, q ≤ p ∧ loc = locFromStream s q

/-- `lexer.parse` for any token list: the location used may be an old one, if its character offset
happens to be the token index. -/
def lexerStaleDisc (s : List Token) : LocDisc s where
  g := lexerGetLoc
  I loc p := heldLoc s p loc
  rel p loc := loc = locFromStream s p ∨ (heldLoc s p loc ∧ loc.pos = p)
  col p c := ∃ loc, (loc = locFromStream s p ∨ (heldLoc s p loc ∧ loc.pos = p)) ∧ c = loc.col
  layout := True
  report := by intros; exact .inl rfl
  stay := by
    rintro loc p q h h1 h2
    exact h.imp_right fun ⟨x, h3, h4⟩ => ⟨x, by omega, h4⟩
  update := by intro loc p q h h1 h2; exact .inr ⟨q, Nat.le_refl _, rfl⟩
  here := by intro _ loc p h hp hpos; exact ⟨.inr ⟨h, hpos⟩, loc, .inr ⟨h, hpos⟩, rfl⟩
  there := by intro _ loc p h hp hpos; exact ⟨_, .inl rfl, rfl⟩

end Reparsec
