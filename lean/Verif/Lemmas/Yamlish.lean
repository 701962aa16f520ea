import Verif.Spec.Yamlish
import Verif.Spec.Eval
import Verif.Spec.Location
import Verif.Lemmas.Chain
import Verif.Lemmas.Sound
import Verif.Lemmas.Calculator
import Verif.Lemmas.LangLemmas

/-!
# The pieces of indented documents
-/

namespace Reparsec.Yamlish

open Reparsec

variable {space : Char → Bool} {s : List Char}

/-! ### Matches -/

theorem isStart_iff {c : Char} : isStart c = true ↔ Start c := by
  simp [isStart, Start, or_assoc]

theorem isPart_iff {c : Char} : isPart c = true ↔ Start c ∨ ('0' ≤ c ∧ c ≤ '9') := by
  simp [isPart, isStart_iff]

theorem isBlank_iff {c : Char} : isBlank c = true ↔ c = ' ' ∨ c = '\t' := by
  simp [isBlank]

theorem Ident.chars {w : List Char} (h : Ident w) :
    ∃ c l, w = c :: l ∧ isStart c = true ∧ ∀ x ∈ l, isPart x = true := by
  obtain ⟨c, l, hw, hc, hl⟩ := h
  exact ⟨c, l, hw, isStart_iff.2 hc, fun x hx => isPart_iff.2 (hl x hx)⟩

theorem Colon.chars {w : List Char} (h : Colon w) :
    ∃ a b, w = a ++ ':' :: b ∧ (∀ x ∈ a, isBlank x = true) ∧ ∀ x ∈ b, isBlank x = true := by
  obtain ⟨a, b, hw, ha, hb⟩ := h
  exact ⟨a, b, hw, fun x hx => isBlank_iff.2 (ha x hx), fun x hx => isBlank_iff.2 (hb x hx)⟩

theorem slice_add (s : List Char) (i n : Nat) : slice s i (i + n) = (s.drop i).take n := by
  rw [slice, List.drop_take, Nat.add_sub_cancel_left]

theorem takeWhile_take (f : Char → Bool) (l : List Char) : l.take (l.takeWhile f).length = l.takeWhile f :=
  (List.prefix_iff_eq_take.1 (List.takeWhile_prefix f)).symm

theorem identLen_ident {l : List Char} {n : Nat} (h : identLen l = some n) : Ident (l.take n) := by
  cases l with
  | nil => cases h
  | cons c l =>
    simp only [identLen] at h
    split at h
    · next hc =>
      cases h
      refine ⟨c, l.takeWhile isPart, ?_, isStart_iff.1 hc, fun x hx => isPart_iff.1 (Calculator.takeWhile_all x hx)⟩
      rw [Nat.add_comm, List.take_succ_cons, takeWhile_take]
    · cases h

theorem eolLen_break {l : List Char} {n : Nat} (h : eolLen space l = some n) :
    ∃ l', l.take n = '\n' :: l' ∧ ∀ x ∈ l', space x = true := by
  cases l with
  | nil => cases h
  | cons c l =>
    simp only [eolLen] at h
    split at h
    · next hc =>
      cases h
      subst hc
      refine ⟨l.takeWhile space, ?_, Calculator.takeWhile_all⟩
      rw [Nat.add_comm, List.take_succ_cons, takeWhile_take]
    · cases h

theorem colonLen_colon {l : List Char} {n : Nat} (h : colonLen l = some n) : Colon (l.take n) := by
  have hl := List.takeWhile_append_dropWhile (p := isBlank) (l := l)
  simp only [colonLen] at h
  split at h
  · cases h
  · next c l' hd =>
    split at h
    · next hc =>
      cases h
      subst hc
      refine ⟨l.takeWhile isBlank, l'.takeWhile isBlank, ?_, fun x hx => isBlank_iff.1 (Calculator.takeWhile_all x hx),
        fun x hx => isBlank_iff.1 (Calculator.takeWhile_all x hx)⟩
      rw [hd] at hl
      generalize hx : l.takeWhile isBlank = x at hl
      subst hl
      rw [Nat.add_assoc, List.take_length_add_append, Nat.add_comm 1, List.take_succ_cons, takeWhile_take]
    · cases h

/-- The text does not begin with such a character. -/
def NotNext (f : Char → Bool) (l : List Char) : Prop := ∀ x, l.head? = some x → f x = false

theorem takeWhile_of {f : Char → Bool} {a l : List Char} (ha : ∀ x ∈ a, f x = true) (hl : NotNext f l) :
    (a ++ l).takeWhile f = a := by
  induction a with
  | nil =>
    cases l with
    | nil => rfl
    | cons x l => simp [hl x rfl]
  | cons x a ih =>
    rw [List.cons_append, List.takeWhile_cons, if_pos (ha x (List.mem_cons_self ..)),
      ih fun y hy => ha y (List.mem_cons_of_mem _ hy)]

theorem dropWhile_of {f : Char → Bool} {a l : List Char} (ha : ∀ x ∈ a, f x = true) (hl : NotNext f l) :
    (a ++ l).dropWhile f = l := by
  have h := List.takeWhile_append_dropWhile (p := f) (l := a ++ l)
  rw [takeWhile_of ha hl] at h
  exact List.append_cancel_left h

theorem ident_identLen {k l : List Char} (hk : Ident k) (hl : NotNext isPart l) :
    identLen (k ++ l) = some k.length := by
  obtain ⟨c, a, rfl, hc, ha⟩ := hk.chars
  rw [List.cons_append, identLen, if_pos hc, takeWhile_of ha hl, List.length_cons, Nat.add_comm]

theorem break_eolLen {c : Nat} {b l : List Char} (hb : Break space c b) (hl : NotNext space l) :
    eolLen space (b ++ l) = some b.length := by
  obtain ⟨⟨a, rfl, ha⟩, -⟩ := hb
  rw [List.cons_append, eolLen, if_pos rfl, takeWhile_of ha hl, List.length_cons, Nat.add_comm]

theorem colon_colonLen {w l : List Char} (hw : Colon w) (hl : NotNext isBlank l) :
    colonLen (w ++ l) = some w.length := by
  obtain ⟨a, b, rfl, ha, hb⟩ := hw.chars
  have hn : NotNext isBlank (':' :: (b ++ l)) := by
    intro x hx
    cases hx
    rfl
  rw [List.append_assoc, List.cons_append, colonLen, takeWhile_of ha hn, dropWhile_of ha hn]
  simp only [if_pos, takeWhile_of hb hl, List.length_append, List.length_cons]
  congr 1
  omega

/-! ### Columns -/

/-- The column at the end of a text. -/
def endCol (l : List Char) : Nat := (l.reverse.takeWhile (· ≠ '\n')).length

theorem endCol_append {l w : List Char} (h : '\n' ∈ w) : endCol (l ++ w) = endCol w := by
  have key : ∀ (a b : List Char), '\n' ∈ a → (a ++ b).takeWhile (· ≠ '\n') = a.takeWhile (· ≠ '\n') := by
    intro a b ha
    induction a with
    | nil => cases ha
    | cons x a ih =>
      rw [List.cons_append, List.takeWhile_cons, List.takeWhile_cons]
      split
      · next hx =>
        rw [ih]
        rcases List.mem_cons.1 ha with rfl | h
        · simp at hx
        · exact h
      · rfl
  rw [endCol, List.reverse_append, key _ _ (by simpa using h), ← endCol]

/-- The column of a position. -/
def colOf (s : List Char) : Nat → Nat → Prop := fun i c => c = endCol (s.take i)

theorem take_eq_append {i j : Nat} (h : i ≤ j) : s.take j = s.take i ++ slice s i j := by
  rw [slice]
  have h' := List.take_append_drop i (s.take j)
  rw [List.take_take, Nat.min_eq_left h] at h'
  exact h'.symm

/-- What comes after position `j`: an entry in its column, if anything. -/
def nextAt (s : List Char) (j : Nat) : Option Nat := if j < s.length then some (endCol (s.take j)) else none

/-! ### From parsers to documents -/

section
variable {m i j : Nat}

theorem der_regexp {f : List Char → Option Nat} {hf : ∀ l n, f l = some n → n ≤ l.length} {v : String}
    (h : Der (env space) s (colOf s) (.regexp (matcher f hf)) m i [] v j) :
    ∃ n, f (s.drop i) = some n ∧ slice s i j = (s.drop i).take n ∧ v = String.ofList (slice s i j) ∧ j = i + n := by
  obtain ⟨k, -, hk, hr⟩ := h.inv
  obtain rfl := hk rfl
  simp only [matcher, Option.map_eq_some_iff, Prod.mk.injEq, Except.ok.injEq, Option.some.injEq] at hr
  obtain ⟨n, hn, rfl, rfl⟩ := hr
  exact ⟨n, hn, slice_add .., by rw [slice_add], rfl⟩

theorem der_le {α : Type} {p : E α} {v : α} (h : Der (env space) s (colOf s) p m i [] v j) (hi : i ≤ s.length) :
    i ≤ j ∧ j ≤ s.length := ⟨(der_inOrder h hi).1, (der_inOrder h hi).2⟩

theorem der_seqWith {α β γ : Type} {p : E α} {q : E β} {mg : α → β → γ} {v : γ}
    (h : Der (env space) s (colOf s) (.seqWith p q mg) m i [] v j) :
    ∃ a b l, v = mg a b ∧ Der (env space) s (colOf s) p m i [] a l ∧ Der (env space) s (colOf s) q m l [] b j := by
  obtain ⟨es1, es2, a, b, l, he, hv, h1, h2⟩ := h.inv
  obtain ⟨rfl, rfl⟩ := List.append_eq_nil_iff.1 he.symm
  exact ⟨a, b, l, hv, h1, h2⟩

theorem der_ident {v : String} (h : Der (env space) s (colOf s) ident m i [] v j) :
    Ident (slice s i j) ∧ v = String.ofList (slice s i j) ∧ i < j := by
  obtain ⟨n, hn, hs, hv, rfl⟩ := der_regexp h
  have hI := identLen_ident hn
  refine ⟨hs ▸ hI, hv, ?_⟩
  rcases Nat.eq_zero_or_pos n with rfl | hp
  · obtain ⟨c, l, hc, -⟩ := hI
    cases hc
  · omega

theorem der_eol {v : String} (h : Der (env space) s (colOf s) (eol space) m i [] v j) :
    Break space (endCol (s.take j)) (slice s i j) := by
  obtain ⟨n, hn, hs, -, rfl⟩ := der_regexp h
  obtain ⟨l, hl, hx⟩ := eolLen_break hn
  refine ⟨⟨l, hs.trans hl, hx⟩, ?_⟩
  rw [take_eq_append (Nat.le_add_right i n), endCol_append (by rw [hs, hl]; exact List.mem_cons_self ..), endCol]

/-- What has been shown about the entries of a block. -/
def Sound (space : Char → Bool) (s : List Char) (m i : Nat) (kvs : List (String × V)) (j : Nat) : Prop :=
  i < j ∧ Entries space m (nextAt s j) (slice s i j) kvs

theorem many_sound (hi : i ≤ s.length)
    (H : ∀ i' kv l, i ≤ i' → i' ≤ l → l ≤ j → colOf s i' m → Der (env space) s (colOf s) pair m i' [] kv l →
      Sound space s m i' [kv] l)
    {kvs : List (String × V)} (h : Der (env space) s (colOf s) pairs m i [] kvs j) :
    (kvs = [] ∧ i = j) ∨ (colOf s i m ∧ Sound space s m i kvs j) := by
  induction kvs generalizing i with
  | nil =>
    rcases h.inv with ⟨-, -, rfl⟩ | ⟨_, _, _, _, _, -, h, -⟩
    · exact .inl ⟨rfl, rfl⟩
    · cases h
  | cons kv kvs ih =>
    rcases h.inv with ⟨-, h, -⟩ | ⟨es1, es2, kv', kvs', l, he, h', h1, h2⟩
    · cases h
    · cases h'
      obtain ⟨rfl, rfl⟩ := List.append_eq_nil_iff.1 he.symm
      obtain ⟨hc, h1⟩ := h1.inv
      have b1 := der_le h1 hi
      have b2 := der_le h2 b1.2
      obtain ⟨hl, h3⟩ := H i kv l (Nat.le_refl _) b1.1 b2.1 hc h1
      refine .inr ⟨hc, Nat.lt_of_lt_of_le hl b2.1, ?_⟩
      rcases ih b1.2 (fun i' kv l' h1 h2 h3 h4 h5 => H i' kv l' (Nat.le_trans b1.1 h1) h2 h3 h4 h5) h2 with
        ⟨rfl, rfl⟩ | ⟨hc', hl', h4⟩
      · exact h3
      · rw [← slice_append s b1.1 b2.1]
        refine .more ?_ h4
        rwa [nextAt, if_pos (Nat.lt_of_lt_of_le hl' b2.2), ← show m = _ from hc'] at h3

theorem pair_sound (hi : i ≤ s.length) {kv : String × V} (h : Der (env space) s (colOf s) pair m i [] kv j) :
    Sound space s m i [kv] j := by
  generalize hn : j - i = n
  induction n using Nat.strongRecOn generalizing i j m kv with
  | ind n ih =>
    obtain ⟨q, hq, h⟩ := h.inv
    cases hq
    obtain ⟨k, v, l2, rfl, h, hv⟩ := der_seqWith h
    obtain ⟨k, w, l1, rfl, hk, hw⟩ := der_seqWith h
    obtain ⟨hI, rfl, lt⟩ := der_ident hk
    have b1 := der_le hk hi
    have b2 := der_le hw b1.2
    have b3 := der_le hv b2.2
    obtain ⟨nw, hnw, hsw, -, -⟩ := der_regexp hw
    have hC : Colon (slice s l1 l2) := hsw ▸ colonLen_colon hnw
    have hlt : i < j := Nat.lt_of_lt_of_le lt (Nat.le_trans b2.1 b3.1)
    have hs : slice s i j = slice s i l1 ++ (slice s l1 l2 ++ slice s l2 j) := by
      rw [slice_append s b2.1 b3.1, slice_append s b1.1 (Nat.le_trans b2.1 b3.1)]
    rcases hv.inv with hv | hv
    · obtain ⟨a, hv, ha⟩ := hv.inv
      obtain ⟨a, u, l3, rfl, ha', hu⟩ := der_seqWith hv
      simp only [Except.ok.injEq] at ha
      subst ha
      obtain ⟨hA, rfl, -⟩ := der_ident ha'
      have b4 := der_le ha' b2.2
      have b5 := der_le hu b4.2
      refine ⟨hlt, ?_⟩
      rw [hs, ← slice_append s b4.1 b5.1]
      refine .scalar hI hC hA ?_
      rcases hu.inv with hu | hu
      · obtain ⟨b, hu, -⟩ := hu.inv
        have hB := der_eol hu
        unfold nextAt
        split
        · exact hB
        · exact .inr ⟨_, hB⟩
      · obtain ⟨rfl, rfl⟩ := hu.inv rfl
        rw [nextAt, if_neg (Nat.lt_irrefl _), slice_self]
        exact .inl rfl
    · obtain ⟨b, d, l3, rfl, hb, hd⟩ := der_seqWith hv
      have b4 := der_le hb b2.2
      have hB := der_eol hb
      obtain ⟨c, hc, hm, hd⟩ := hd.inv
      have hm : m + 4 = c := by omega
      subst hm
      obtain ⟨⟨kv, kvs⟩, hd', he⟩ := hd.inv
      simp only [Except.ok.injEq] at he
      subst he
      obtain ⟨kv', kvs', l4, he, h1, h2⟩ := der_seqWith hd'
      simp only [Prod.mk.injEq] at he
      obtain ⟨rfl, rfl⟩ := he
      have b5 := der_le h1 b4.2
      have b6 := der_le h2 b5.2
      obtain ⟨hlt', h3⟩ := ih (l4 - l3) (by omega) b4.2 h1 rfl
      refine ⟨hlt, ?_⟩
      rw [hs, ← slice_append s b4.1 (Nat.le_trans b5.1 b6.1)]
      rw [← show m + 4 = endCol (s.take l3) from hc] at hB
      refine .nested hI hC hB ?_
      rcases many_sound b5.2 (fun i' kv l h1 h2 h3 h4 h5 => ih (l - i') (by omega) (by omega) h5 rfl) h2 with
        ⟨rfl, rfl⟩ | ⟨hc', hl', h4⟩
      · exact h3
      · rw [← slice_append s b5.1 b6.1]
        refine .more ?_ h4
        rwa [nextAt, if_pos (Nat.lt_of_lt_of_le hl' b6.2), ← show m + 4 = _ from hc'] at h3

theorem parser_sound {v : V} (h : Der (env space) s (colOf s) (parser space) 0 0 [] v j) : Document space s v := by
  obtain ⟨d, u, l2, rfl, h, hu⟩ := der_seqWith h
  obtain ⟨w, d', l1, rfl, hw, hd⟩ := der_seqWith h
  obtain ⟨rfl, rfl⟩ := hu.inv rfl
  obtain ⟨kvs, hk, he⟩ := hd.inv
  simp only [Except.ok.injEq] at he
  subst he
  have b1 := der_le hw (Nat.zero_le _)
  obtain ⟨n, hn, hsw, -, rfl⟩ := der_regexp hw
  have hall : ∀ x ∈ slice s 0 (0 + n), space x = true := by
    cases hn
    rw [hsw, List.drop_zero, takeWhile_take]
    exact Calculator.takeWhile_all
  have hs : s = slice s 0 (0 + n) ++ slice s (0 + n) s.length := by
    rw [slice_append s b1.1 b1.2, slice, List.take_length, List.drop_zero]
  rcases many_sound b1.2 (fun i' kv l h1 h2 h3 h4 h5 => pair_sound (by omega) h5) hk with ⟨rfl, he⟩ | ⟨hc, -, h⟩
  · rw [← he, slice_self, List.append_nil] at hs
    rw [hs]
    exact .empty hall
  · rw [nextAt, if_neg (Nat.lt_irrefl _)] at h
    have hd := Document.entries (space := space) (w := slice s 0 (0 + n)) ⟨hall, ?_⟩ h
    · rwa [← hs] at hd
    · refine (Eq.trans hc ?_).symm
      rw [endCol, slice, List.drop_zero]

end

/-! ### From documents to parsers -/

section
variable {m i j : Nat}

/-- `p` gives `v`, read from `i` to `j`. -/
def Gives (space : Char → Bool) (s : List Char) {α : Type} (p : E α) (m i : Nat) (v : α) (j : Nat) : Prop :=
  ∃ w, Eval (env space) s (colOf s) p m i (.accepts v j w)

/-- `p` fails at `i`, without having read anything. -/
def Refuses (space : Char → Bool) (s : List Char) {α : Type} (p : E α) (m i : Nat) : Prop :=
  ∃ q w, Eval (env space) s (colOf s) p m i (.fails (.rejects q w false))

variable {α β γ : Type}

theorem Gives.map {p : E α} {v : α} {f : α → β} (h : Gives space s p m i v j) :
    Gives space s (.map p f) m i (f v) j := by
  obtain ⟨w, h⟩ := h
  exact ⟨w, .fmap h rfl⟩

theorem Gives.seqWith {p : E α} {q : E β} {mg : α → β → γ} {a : α} {b : β} {l : Nat}
    (h : Gives space s p m i a l) (h' : Gives space s q m l b j) :
    Gives space s (.seqWith p q mg) m i (mg a b) j := by
  obtain ⟨w, h⟩ := h
  obtain ⟨w', h'⟩ := h'
  exact ⟨_, .seq h h'⟩

theorem Gives.first {p q : E α} {v : α} (h : Gives space s p m i v j) : Gives space s (.alt p q) m i v j := by
  obtain ⟨w, h⟩ := h
  exact ⟨w, .altFirst h⟩

theorem Gives.second {p q : E α} {v : α} (h : Refuses space s p m i) (h' : Gives space s q m i v j) :
    Gives space s (.alt p q) m i v j := by
  obtain ⟨k, w, h⟩ := h
  obtain ⟨w', h'⟩ := h'
  exact ⟨_, .altSecond h h'⟩

theorem Gives.item {p : E α} {v : α} {vs : List α} {l : Nat} (h : Gives space s p m i v l) (hl : i < l)
    (h' : Gives space s (.many p) m l vs j) : Gives space s (.many p) m i (v :: vs) j := by
  obtain ⟨w, h⟩ := h
  obtain ⟨w', h'⟩ := h'
  exact ⟨_, .manyItem h hl h'⟩

theorem Refuses.none {p : E α} (h : Refuses space s p m i) : Gives space s (.many p) m i [] i := by
  obtain ⟨k, w, h⟩ := h
  exact ⟨_, .manyEnd h⟩

theorem Refuses.seqWith {p : E α} {q : E β} {mg : α → β → γ} (h : Refuses space s p m i) :
    Refuses space s (.seqWith p q mg) m i := by
  obtain ⟨k, w, h⟩ := h
  exact ⟨_, _, .seqFails h⟩

theorem Refuses.map {p : E α} {f : α → β} (h : Refuses space s p m i) : Refuses space s (.map p f) m i := by
  obtain ⟨k, w, h⟩ := h
  exact ⟨_, _, .fmapFails h⟩

theorem gives_regexp {f : List Char → Option Nat} {hf : ∀ l n, f l = some n → n ≤ l.length} {a b : List Char}
    (hs : s.drop i = a ++ b) (h : f (a ++ b) = some a.length) :
    Gives space s (.regexp (matcher f hf)) m i (String.ofList a) (i + a.length) := by
  refine ⟨_, .regexp ?_⟩
  simp [matcher, hs, h]

theorem refuses_regexp {f : List Char → Option Nat} {hf : ∀ l n, f l = some n → n ≤ l.length}
    (h : f (s.drop i) = none) : Refuses space s (.regexp (matcher f hf) : E String) m i := by
  refine ⟨_, _, .regexpNot (.inl ?_)⟩
  simp [matcher, h]

theorem drop_append {a b : List Char} (hs : s.drop i = a ++ b) : s.drop (i + a.length) = b := by
  rw [← List.drop_drop, hs, List.drop_left]

theorem drop_nil (hi : i ≤ s.length) (h : s.drop i = []) : i = s.length :=
  Nat.le_antisymm hi (List.drop_eq_nil_iff.1 h)

theorem endCol_break {c : Nat} {b l : List Char} (hb : Break space c b) (hs : s.drop i = b ++ l) :
    colOf s (i + b.length) c := by
  obtain ⟨⟨a, rfl, -⟩, hc⟩ := hb
  refine hc.symm.trans ?_
  rw [take_eq_append (Nat.le_add_right _ _), slice_add, hs, List.take_left, endCol_append (List.mem_cons_self ..),
    endCol]

theorem Ident.head {k l : List Char} (hk : Ident k) : ∃ x, (k ++ l).head? = some x ∧ isStart x = true := by
  obtain ⟨c, a, rfl, hc, -⟩ := hk.chars
  exact ⟨c, rfl, hc⟩

theorem Entries.head {c : Nat} {next : Option Nat} {t : List Char} {kvs : List (String × V)}
    (h : Entries space c next t kvs) : ∃ x l, t = x :: l ∧ isStart x = true := by
  induction h with
  | scalar hk => obtain ⟨c, a, rfl, hc, -⟩ := hk.chars; exact ⟨c, _, rfl, hc⟩
  | nested hk => obtain ⟨c, a, rfl, hc, -⟩ := hk.chars; exact ⟨c, _, rfl, hc⟩
  | more _ _ ih =>
    obtain ⟨x, l, rfl, hx⟩ := ih
    exact ⟨x, _, rfl, hx⟩

theorem Entries.ne_nil {c : Nat} {next : Option Nat} {t : List Char} {kvs : List (String × V)}
    (h : Entries space c next t kvs) : kvs ≠ [] := by
  cases h <;> simp

theorem notNext_break {c : Nat} {b l : List Char} {f : Char → Bool} (hf : f '\n' = false) (hb : Break space c b) :
    NotNext f (b ++ l) := by
  obtain ⟨⟨a, rfl, -⟩, -⟩ := hb
  intro x hx
  cases hx
  exact hf

theorem notNext_colon {w l : List Char} (hw : Colon w) : NotNext isPart (w ++ l) := by
  obtain ⟨a, b, rfl, ha, -⟩ := hw.chars
  intro x hx
  cases a with
  | nil => cases hx; decide
  | cons y a =>
    cases hx
    have := ha x (List.mem_cons_self ..)
    simp only [isBlank, Bool.or_eq_true, beq_iff_eq] at this
    rcases this with rfl | rfl <;> decide

theorem notBlank_start {x : Char} (h : isStart x = true) : isBlank x = false := by
  cases hb : isBlank x with
  | false => rfl
  | true =>
    simp only [isBlank, Bool.or_eq_true, beq_iff_eq] at hb
    rcases hb with rfl | rfl <;> revert h <;> decide

/-- An entry is over: in its column there is no further one. -/
theorem pairs_end {c : Nat} (hi : i ≤ s.length) (h : i = s.length ∨ ∃ c', colOf s i c' ∧ c' ≠ c) :
    Gives space s pairs c i [] i := by
  have hal : ∀ c', colOf s i c' → c' ≠ c → Refuses space s (.aligned pair) c i := fun c' h1 h2 =>
    ⟨_, _, .alignedNot h1 h2⟩
  by_cases hc : colOf s i c
  · rcases h with rfl | ⟨c', h1, h2⟩
    · have h : Refuses space s (.seq (.seql ident colon) (value space)) c s.length :=
        .seqWith (.seqWith (refuses_regexp (by rw [List.drop_length]; rfl)))
      obtain ⟨q, w, h⟩ := h
      exact Refuses.none ⟨q, w, .aligned hc (.ref rfl h)⟩
    · exact absurd (h1.trans (show c = _ from hc).symm) h2
  · exact (hal _ rfl fun h => hc h.symm).none

/-- What is shown about the entries of a block in column `c` that begins at `i`. -/
def Complete (space : Char → Bool) (s : List Char) (c i : Nat) (next : Option Nat) (kvs : List (String × V))
    (j : Nat) : Prop :=
  (∀ c', next = some c' → colOf s j c') ∧
  ∃ kv rest l, kvs = kv :: rest ∧ i < l ∧ Gives space s pair c i kv l ∧ (rest = [] → l = j) ∧
    ((∀ c', next = some c' → c' < c) → Gives space s pairs c l rest j)

theorem lt_of_drop {a b : List Char} (hs : s.drop i = a ++ b) (ha : a ≠ []) : i + a.length ≤ s.length := by
  have := congrArg List.length hs
  rw [List.length_drop, List.length_append] at this
  have := List.length_pos_iff.2 ha
  omega

/-- A pair that has been read whole. -/
theorem complete_one {c : Nat} {next : Option Nat} {kv : String × V} (hj : j ≤ s.length)
    (hc : ∀ c', next = some c' → colOf s j c') (hn : next = none → j = s.length) (hij : i < j)
    (h : Gives space s pair c i kv j) : Complete space s c i next [kv] j := by
  refine ⟨hc, kv, [], j, rfl, hij, h, fun _ => rfl, fun hlt => pairs_end hj ?_⟩
  cases next with
  | none => exact .inl (hn rfl)
  | some c' => exact .inr ⟨c', hc _ rfl, Nat.ne_of_lt (hlt _ rfl)⟩

theorem gives_pair {k w : List Char} {c : Nat} {v : V} (hk : Ident k) (hw : Colon w) {l : List Char}
    (hs : s.drop i = k ++ (w ++ l)) (hl : NotNext isBlank l)
    (h : Gives space s (value space) c (i + k.length + w.length) v j) :
    Gives space s pair c i (String.ofList k, v) j := by
  have h1 : Gives space s ident c i (String.ofList k) (i + k.length) :=
    gives_regexp hs (ident_identLen hk (notNext_colon hw))
  have h2 : Gives space s colon c (i + k.length) (String.ofList w) (i + k.length + w.length) :=
    gives_regexp (drop_append hs) (colon_colonLen hw hl)
  obtain ⟨ws, h3⟩ : Gives space s (.seq (.seql ident colon) (value space)) c i (String.ofList k, v) j :=
    Gives.seqWith (mg := Prod.mk) (Gives.seqWith (mg := fun a _ => a) h1 h2) h
  exact ⟨ws, .ref rfl h3⟩

theorem entries_complete (hsp : ∀ x, isStart x = true → space x = false) {c : Nat} {next : Option Nat} {t : List Char}
    {kvs : List (String × V)} (h : Entries space c next t kvs) :
    ∀ {i : Nat} {post : List Char}, s.drop i = t ++ post → colOf s i c → (next = none → post = []) →
      NotNext space post → (∀ c', next = some c' → c' ≤ c) → Complete space s c i next kvs (i + t.length) := by
  induction h with
  | @scalar c next k w v e hk hw hv he =>
    intro i post hs hcol hn hp hle
    have hs0 := hs
    simp only [List.append_assoc] at hs
    have hs1 := drop_append hs
    have hs2 := drop_append hs1
    have hs3 := drop_append hs2
    have hbound := lt_of_drop hs0 (by obtain ⟨c, a, rfl, -⟩ := hk; simp)
    have hpos : 0 < k.length := by obtain ⟨c, a, rfl, -⟩ := hk; simp
    have hlen : i + (k ++ (w ++ (v ++ e))).length = i + k.length + w.length + v.length + e.length := by
      simp only [List.length_append]; omega
    have hend : next = none → i + (k ++ (w ++ (v ++ e))).length = s.length := by
      intro h
      refine drop_nil hbound ?_
      rw [drop_append hs0, hn h]
    have hbl : NotNext isBlank (v ++ (e ++ post)) := by
      intro x hx
      obtain ⟨y, hy, hy'⟩ := hv.head (l := e ++ post)
      rw [hx] at hy
      cases hy
      exact notBlank_start hy'
    have hbr : ∀ c', Break space c' e →
        Gives space s (eol space) c (i + k.length + w.length + v.length) (String.ofList e)
          (i + k.length + w.length + v.length + e.length) ∧
        colOf s (i + k.length + w.length + v.length + e.length) c' := fun c' hb =>
      ⟨gives_regexp hs3 (break_eolLen hb hp), endCol_break hb hs3⟩
    have hnp : NotNext isPart (e ++ post) ∧ Gives space s (.alt (.map (eol space) fun _ => ()) .eof) c
        (i + k.length + w.length + v.length) () (i + k.length + w.length + v.length + e.length) ∧
        ∀ c', next = some c' → colOf s (i + k.length + w.length + v.length + e.length) c' := by
      have brk : ∀ c', Break space c' e → NotNext isPart (e ++ post) ∧
          Gives space s (.alt (.map (eol space) fun _ => ()) .eof) c
            (i + k.length + w.length + v.length) () (i + k.length + w.length + v.length + e.length) := fun c' he =>
        ⟨notNext_break (by decide) he, Gives.first (Gives.map (f := fun _ => ()) (hbr _ he).1)⟩
      cases next with
      | some c' =>
        refine ⟨(brk _ he).1, (brk _ he).2, fun c'' h => ?_⟩
        cases h
        exact (hbr _ he).2
      | none =>
        rcases he with rfl | ⟨c', he⟩
        · obtain rfl := hn rfl
          refine ⟨fun x hx => (by cases hx), Gives.second (Refuses.map (refuses_regexp ?_)) ?_, fun _ h => (by cases h)⟩
          · rw [hs3]; rfl
          · have : i + k.length + w.length + v.length = s.length := by
              rw [← hend rfl]; simp only [List.length_append, List.length_nil]; omega
            simp only [List.length_nil, Nat.add_zero, this]
            exact ⟨_, .eof⟩
        · exact ⟨(brk _ he).1, (brk _ he).2, fun _ h => (by cases h)⟩
    obtain ⟨hnp, hg, hc'⟩ := hnp
    rw [← hlen] at hc' hg
    refine complete_one hbound hc' hend (by rw [hlen]; omega) (gives_pair hk hw hs hbl (Gives.first ?_))
    exact Gives.map (Gives.seqWith (mg := fun a _ => a) (gives_regexp hs2 (ident_identLen hv hnp)) hg)
  | @nested c next k w b t kvs hk hw hb ht ih =>
    intro i post hs hcol hn hp hle
    have hs0 := hs
    simp only [List.append_assoc] at hs
    have hs1 := drop_append hs
    have hs2 := drop_append hs1
    have hs3 := drop_append hs2
    have hbound := lt_of_drop hs0 (by obtain ⟨c, a, rfl, -⟩ := hk; simp)
    have hpos : 0 < k.length := by obtain ⟨c, a, rfl, -⟩ := hk; simp
    have hlen : i + (k ++ (w ++ (b ++ t))).length = i + k.length + w.length + b.length + t.length := by
      simp only [List.length_append]; omega
    have hend : next = none → i + (k ++ (w ++ (b ++ t))).length = s.length := by
      intro h
      refine drop_nil hbound ?_
      rw [drop_append hs0, hn h]
    have hcb := endCol_break hb hs2
    obtain ⟨hc', kv, rest, l, rfl, hl, h1, h2, h3⟩ := ih hs3 hcb hn hp fun c' h => Nat.le_add_right_of_le (hle c' h)
    have h4 := h3 fun c' h => Nat.lt_of_le_of_lt (hle c' h) (by omega)
    have hns : NotNext space (t ++ post) := by
      intro x hx
      obtain ⟨y, a, rfl, hy⟩ := ht.head
      cases hx
      exact hsp _ hy
    have hg : Gives space s (.indented 4 (.map (.seq pair pairs) fun vs => V.dict (Json.pyDict (vs.1 :: vs.2)))) c
        (i + k.length + w.length + b.length) (.dict (Json.pyDict (kv :: rest)))
        (i + k.length + w.length + b.length + t.length) := by
      obtain ⟨ws, h⟩ := Gives.map (f := fun vs => V.dict (Json.pyDict (vs.1 :: vs.2)))
        (Gives.seqWith (mg := Prod.mk) h1 h4)
      exact ⟨ws, .indented hcb (by omega) h⟩
    rw [← hlen] at hc' hg
    refine complete_one hbound hc' hend (by rw [hlen]; omega)
      (gives_pair hk hw hs (notNext_break (by decide) hb) (Gives.second ?_ ?_))
    · refine Refuses.map (Refuses.seqWith (refuses_regexp ?_))
      rw [hs2]
      obtain ⟨⟨a, rfl, -⟩, -⟩ := hb
      rfl
    · exact Gives.seqWith (mg := fun _ b => b) (gives_regexp hs2 (break_eolLen hb hns)) hg
  | @more c next t t' kv kvs h1 h2 ih1 ih2 =>
    intro i post hs hcol hn hp hle
    rw [List.append_assoc] at hs
    have hns : NotNext space (t' ++ post) := by
      intro x hx
      obtain ⟨y, a, rfl, hy⟩ := h2.head
      cases hx
      exact hsp _ hy
    obtain ⟨hc, kv', rest, l, he, hl, hg, hr, -⟩ :=
      ih1 hs hcol (fun h => by cases h) hns fun c' h => (by cases h; exact Nat.le_refl _)
    cases he
    obtain rfl := hr rfl
    have hc := hc c rfl
    obtain ⟨hc', kv2, rest2, l2, rfl, hl2, hg2, hr2, hm⟩ := ih2 (drop_append hs) hc hn hp hle
    rw [List.length_append, ← Nat.add_assoc]
    refine ⟨hc', kv, _, _, rfl, hl, hg, fun h => (by cases h), fun hlt => Gives.item ?_ hl2 (hm hlt)⟩
    obtain ⟨ws, hg2⟩ := hg2
    exact ⟨ws, .aligned hc hg2⟩

theorem parser_complete (hsp : ∀ x, isStart x = true → space x = false) {v : V} (h : Document space s v) :
    ∃ j w, Eval (env space) s (colOf s) (parser space) 0 0 (.accepts v j w) := by
  have fin : ∀ {i : Nat} {kvs : List (String × V)} {w : List Char} {l : List Char}, s = w ++ l →
      (∀ x ∈ w, space x = true) → NotNext space l → Gives space s pairs 0 (0 + w.length) kvs s.length →
      Gives space s (parser space) 0 0 (.dict (Json.pyDict kvs)) s.length := by
    intro i kvs w l hs hw hl hg
    refine Gives.seqWith (mg := fun a _ => a) (Gives.seqWith (mg := fun _ b => b)
      (gives_regexp (a := w) (b := l) hs ?_) (Gives.map (f := fun kvs => V.dict (Json.pyDict kvs)) hg)) ⟨_, .eof⟩
    rw [owsLen, takeWhile_of hw hl]
  cases h with
  | empty hw =>
    obtain ⟨ws, h⟩ := fin (i := 0) (kvs := []) (w := s) (l := []) (List.append_nil s).symm hw (fun x hx => by cases hx)
      (by rw [Nat.zero_add]; exact pairs_end (Nat.le_refl _) (.inl rfl))
    exact ⟨_, ws, h⟩
  | @entries w t kvs hw ht =>
    have hns : NotNext space t := by
      intro x hx
      obtain ⟨y, a, rfl, hy⟩ := ht.head
      cases hx
      exact hsp _ hy
    have hd : (w ++ t).drop (0 + w.length) = t ++ [] := by
      rw [Nat.zero_add, List.drop_left, List.append_nil]
    have hcol : colOf (w ++ t) (0 + w.length) 0 := by
      refine hw.2.symm.trans ?_
      rw [Nat.zero_add, List.take_left, endCol]
    obtain ⟨-, kv, rest, l, rfl, hl, hg, -, hm⟩ := entries_complete hsp ht hd hcol (fun _ => rfl)
      (fun x hx => by cases hx) fun c' h => by cases h
    have hm := hm fun c' h => by cases h
    rw [Nat.zero_add, ← List.length_append] at hm
    obtain ⟨ws, h⟩ := fin (i := 0) (w := w) (l := t) rfl hw.1 hns (Gives.item (v := kv)
      (by obtain ⟨ws, hg⟩ := hg; exact ⟨ws, .aligned hcol hg⟩) hl hm)
    exact ⟨_, ws, h⟩

end

end Reparsec.Yamlish
