import Verif.Lemmas.Regex
import Verif.Model.RegexParsers
import Verif.Lemmas.JsonLexer

/-!
# The matches of the regular expressions of the tests
-/

namespace Reparsec

open Re JsonText

variable {β : Type}

/-- A continuation that does not depend on groups. -/
abbrev at' (k : Found → Option β) (n : Nat) : Option β := k ⟨n, []⟩

/-- `a` matches at most once at each place, without groups: `g` is the length. -/
def Det (a : Re) (g : List Char → Option Nat) : Prop :=
  ∀ {β : Type} (l : List Char) (k : Found → Option β), a.run l k = (g l).bind (at' k)

/-- What follows either never fails, or fails wherever `g` can go on. -/
def Tame (g : List Char → Option Nat) (l : List Char) (k : Found → Option β) : Prop :=
  (∀ j n, g (l.drop j) = some n → at' k j = none) ∨ ∀ j, ∃ r, at' k j = some r

theorem Tame.shift {g : List Char → Option Nat} {l : List Char} {k : Found → Option β} (h : Tame g l k) (n : Nat) :
    Tame g (l.drop n) fun m => k (Found.append ⟨n, []⟩ m) := by
  rcases h with h | h
  · refine .inl fun j i hj => ?_
    rw [List.drop_drop] at hj
    exact h _ _ hj
  · exact .inr fun j => h _

/-- The longest repetition. -/
def many (g : List Char → Option Nat) : Nat → List Char → Nat
  | 0, _ => 0
  | fuel + 1, l =>
    match g l with
    | none => 0
    | some n => n + many g fuel (l.drop n)

theorem starRun_det {a : Re} {g : List Char → Option Nat} (ha : Det a g) (hp : ∀ l, g l ≠ some 0) {fuel : Nat}
    {l : List Char} {k : Found → Option β} (hk : Tame g l k) :
    starRun a.run fuel l k = at' k (many g fuel l) := by
  induction fuel generalizing l k with
  | zero => rfl
  | succ fuel ih =>
    rw [starRun, ha, many]
    cases hg : g l with
    | none => rfl
    | some n =>
      have h0 : n ≠ 0 := fun h => hp l (h ▸ hg)
      have := ih (hk.shift n)
      simp only [at', Option.bind_some, h0, if_false] at this ⊢
      rw [this]
      rcases hk with hk | hk
      · have : at' k 0 = none := hk 0 n hg
        simp only [at'] at this
        rw [this, Option.or_none]
        rfl
      · obtain ⟨r, hr⟩ := hk (n + many g fuel (l.drop n))
        have : k (Found.append ⟨n, []⟩ ⟨many g fuel (l.drop n), []⟩) = some r := hr
        rw [this, Option.some_or]
        exact hr.symm

theorem det_cls (f : Char → Bool) : Det (.cls f) (oneLen f) := by
  intro β l k
  cases l with
  | nil => rfl
  | cons c l => simp only [Re.run, oneLen]; split <;> rfl

theorem run_eps {l : List Char} {k : Found → Option β} : Re.eps.run l k = at' k 0 := rfl
theorem run_seq {a b : Re} {l : List Char} {k : Found → Option β} :
    (Re.seq a b).run l k = a.run l fun m => b.run (l.drop m.len) fun m' => k (m.append m') := rfl
theorem run_alt {a b : Re} {l : List Char} {k : Found → Option β} :
    (Re.alt a b).run l k = (a.run l k).or (b.run l k) := rfl
theorem run_opt {a : Re} {l : List Char} {k : Found → Option β} : (opt a).run l k = (a.run l k).or (at' k 0) := rfl
theorem run_nil {f : Char → Bool} {k : Found → Option β} : (Re.cls f).run [] k = none := rfl
theorem run_cons {f : Char → Bool} {c : Char} {l : List Char} {k : Found → Option β} :
    (Re.cls f).run (c :: l) k = if f c then at' k 1 else none := rfl
theorem run_group {name : String} {a : Re} {l : List Char} {k : Found → Option β} :
    (Re.group name a).run l k = a.run l fun m => k ⟨m.len, m.caps ++ [(name, l.take m.len)]⟩ := rfl
theorem append_empty (m : Found) : Found.append ⟨0, []⟩ m = m := by simp [Found.append]

theorem det_seq {a b : Re} {g g' : List Char → Option Nat} (ha : Det a g) (hb : Det b g') :
    Det (.seq a b) fun l => (g l).bind fun n => (g' (l.drop n)).map (n + ·) := by
  intro β l k
  rw [run_seq, ha l]
  show _ = ((g l).bind fun n => (g' (l.drop n)).map (n + ·)).bind (at' k)
  cases g l with
  | none => rfl
  | some n =>
    show b.run (l.drop n) _ = ((g' (l.drop n)).map (n + ·)).bind (at' k)
    rw [hb]
    cases g' (l.drop n) with
    | none => rfl
    | some m => rfl

theorem det_alt {a b : Re} {g g' : List Char → Option Nat} (ha : Det a g) (hb : Det b g')
    (h : ∀ l n, g l = some n → g' l = none) : Det (.alt a b) fun l => (g l).or (g' l) := by
  intro β l k
  simp only [Re.run, ha l, hb l]
  cases hg : g l with
  | none => rfl
  | some n => rw [h l n hg]; simp

theorem oneLen_pos {f : Char → Bool} (l : List Char) : oneLen f l ≠ some 0 := by
  cases l with
  | nil => simp [oneLen]
  | cons c l => simp only [oneLen]; split <;> simp

theorem many_cls {f : Char → Bool} {fuel : Nat} {l : List Char} (h : l.length ≤ fuel) :
    many (oneLen f) fuel l = (l.takeWhile f).length := by
  induction fuel generalizing l with
  | zero =>
    obtain rfl := List.eq_nil_of_length_eq_zero (Nat.le_zero.1 h)
    rfl
  | succ fuel ih =>
    cases l with
    | nil => rfl
    | cons c l =>
      rw [List.length_cons] at h
      simp only [many, oneLen, List.takeWhile_cons]
      cases f c with
      | false => rfl
      | true =>
        simp only [if_true, List.length_cons, List.drop_succ_cons, List.drop_zero, ih (by omega : l.length ≤ fuel)]
        omega

theorem star_cls {f : Char → Bool} {l : List Char} {k : Found → Option β} (hk : Tame (oneLen f) l k) :
    (Re.star (.cls f)).run l k = at' k (l.takeWhile f).length := by
  have := starRun_det (fuel := l.length + 1) (det_cls f) oneLen_pos hk
  rw [many_cls (Nat.le_succ _)] at this
  exact this

theorem plus_cls {f : Char → Bool} {l : List Char} {k : Found → Option β} (hk : Tame (oneLen f) l k) :
    (plus (.cls f)).run l k =
      if (l.takeWhile f).length = 0 then none else at' k (l.takeWhile f).length := by
  cases l with
  | nil => rfl
  | cons c l =>
    have := star_cls (hk.shift 1)
    simp only [List.drop_succ_cons, List.drop_zero] at this
    simp only [plus, Re.run, List.takeWhile_cons] at this ⊢
    cases f c with
    | false => rfl
    | true =>
      simp only [if_true, List.drop_succ_cons, List.drop_zero, List.length_cons, Nat.add_one_ne_zero, if_false]
      rw [this, Nat.add_comm]
      rfl

/-! ### JSON -/

theorem some_tame (g : List Char → Option Nat) (l : List Char) (h : Found → β) : Tame g l fun m => some (h m) :=
  .inr fun _ => ⟨_, rfl⟩

theorem natRe_run {l : List Char} {k : Found → Option β} (hk : Tame (oneLen isDigit) l k) :
    (Re.alt (chr '0') (.seq (.cls isNonZero) (.star (.cls isDigit)))).run l k = (natLen l).bind (at' k) := by
  cases l with
  | nil => rfl
  | cons c l =>
    have := star_cls (hk.shift 1)
    simp only [List.drop_succ_cons, List.drop_zero] at this
    simp only [Re.run, chr, natLen, List.drop_succ_cons, List.drop_zero] at this ⊢
    by_cases h0 : c = '0'
    · subst h0
      have : isNonZero '0' = false := by decide
      simp [this]
    · cases hn : isNonZero c with
      | false => simp [h0]
      | true =>
        simp only [beq_iff_eq, h0, if_false, if_true, Option.none_or, Option.bind_some]
        exact this

theorem intRe_run {l : List Char} {k : Found → Option β} (hk : Tame (oneLen isDigit) l k) :
    intRe.run l k = (intLen l).bind (at' k) := by
  have h1 := natRe_run hk
  have h2 := natRe_run (hk.shift 1)
  rw [intRe, run_seq, run_opt]
  cases l with
  | nil => rfl
  | cons c l =>
    simp only [List.drop_succ_cons, List.drop_zero] at h2
    rw [chr, run_cons]
    simp only [at', List.drop_zero, append_empty, List.drop_succ_cons, beq_iff_eq]
    rw [h1, h2]
    by_cases hc : c = '-'
    · subst hc
      have : natLen ('-' :: l) = none := by
        rw [natLen, if_neg (by decide), if_neg (by decide)]
      simp only [if_true, intLen, this]
      cases natLen l with
      | none => rfl
      | some n => simp [Found.append]
    · simp only [hc, if_false, Option.none_or, intLen]

theorem digits_run {l : List Char} {k : Found → Option β} (hk : Tame (oneLen isDigit) l k) :
    (plus (.cls isDigit)).run l k = (digitsLen l).bind (at' k) := by
  rw [plus_cls hk, digitsLen]
  split <;> rfl

theorem fracRe_run {l : List Char} {k : Found → Option β} (hk : Tame (oneLen isDigit) l k) :
    fracRe.run l k = (fracLen l).bind (at' k) := by
  rw [fracRe, run_seq]
  cases l with
  | nil => rfl
  | cons c l =>
    have h := digits_run (hk.shift 1)
    simp only [List.drop_succ_cons, List.drop_zero] at h
    rw [chr, run_cons]
    simp only [at', List.drop_succ_cons, List.drop_zero, beq_iff_eq, fracLen]
    rw [h]
    split
    · cases digitsLen l with
      | none => rfl
      | some n => rfl
    · rfl

theorem powerRe_run {l : List Char} {k : Found → Option β} (hk : Tame (oneLen isDigit) l k) :
    (Re.seq (opt (.cls fun c => c == '-' || c == '+')) (plus (.cls isDigit))).run l k =
      (powerLen l).bind (at' k) := by
  have h1 := digits_run hk
  have h2 := digits_run (hk.shift 1)
  rw [run_seq, run_opt]
  cases l with
  | nil => rfl
  | cons c l =>
    simp only [List.drop_succ_cons, List.drop_zero] at h2
    rw [run_cons]
    simp only [at', List.drop_zero, append_empty, List.drop_succ_cons, beq_iff_eq, Bool.or_eq_true]
    rw [h1, h2, powerLen]
    by_cases hc : c = '-' ∨ c = '+'
    · have : isDigit c = false := by rcases hc with rfl | rfl <;> decide
      have : digitsLen (c :: l) = none := by simp [digitsLen, this]
      simp only [hc, if_true, this]
      cases digitsLen l with
      | none => rfl
      | some n => simp [Found.append]
    · simp only [hc, if_false, Option.none_or]

theorem expRe_run {l : List Char} {k : Found → Option β} (hk : Tame (oneLen isDigit) l k) :
    expRe.run l k = (expLen l).bind (at' k) := by
  rw [expRe, run_seq]
  cases l with
  | nil => rfl
  | cons c l =>
    have h := powerRe_run (hk.shift 1)
    simp only [List.drop_succ_cons, List.drop_zero] at h
    rw [run_cons]
    simp only [at', List.drop_succ_cons, List.drop_zero, beq_iff_eq, Bool.or_eq_true, expLen]
    rw [h]
    split
    · cases powerLen l with
      | none => rfl
      | some n => rfl
    · rfl

/-- The part of a number after the integer. -/
abbrev tailRe : Re := .alt (.seq (opt fracRe) expRe) fracRe

theorem oneLen_some {f : Char → Bool} {l : List Char} {n : Nat} (h : oneLen f l = some n) :
    ∃ c l', l = c :: l' ∧ f c = true := by
  cases l with
  | nil => cases h
  | cons c l =>
    simp only [oneLen] at h
    split at h
    · exact ⟨c, l, rfl, by assumption⟩
    · cases h

theorem frac_digit {c : Char} {l : List Char} (h : isDigit c = true) : fracLen (c :: l) = none := by
  rw [fracLen, if_neg]
  rintro rfl
  exact absurd h (by decide)

theorem exp_digit {c : Char} {l : List Char} (h : isDigit c = true) : expLen (c :: l) = none := by
  rw [expLen, if_neg]
  rintro (rfl | rfl) <;> exact absurd h (by decide)

theorem exp_frac {l : List Char} {n : Nat} (h : fracLen l = some n) : expLen l = none := by
  cases l with
  | nil => rfl
  | cons c l =>
    rw [fracLen] at h
    split at h
    · next hc => subst hc; rw [expLen, if_neg (by decide)]
    · cases h

/-- What follows never fails. -/
def Tot (k : Found → Option β) : Prop := ∀ j, ∃ r, at' k j = some r

theorem Tot.tame {g : List Char → Option Nat} {l : List Char} {k : Found → Option β} (h : Tot k) : Tame g l k := .inr h

theorem Tot.shift {k : Found → Option β} (h : Tot k) (n : Nat) : Tot fun m => k (Found.append ⟨n, []⟩ m) := fun _ => h _

theorem tailRe_run {l : List Char} {k : Found → Option β} (hk : Tot k) :
    tailRe.run l k = (tailLen l).bind (at' k) := by
  have h1 : ∀ n, expRe.run (l.drop n) (fun m' => k (Found.append ⟨n, []⟩ m')) =
      (expLen (l.drop n)).bind fun m => at' k (n + m) := fun n => expRe_run (hk.shift n).tame
  rw [run_alt, run_seq, run_opt, fracRe_run hk.tame, fracRe_run]
  · simp only [at', List.drop_zero, tailLen]
    have h0 := h1 0
    simp only [List.drop_zero, Nat.zero_add, at'] at h0
    rw [h0]
    cases hf : fracLen l with
    | none => simp
    | some n =>
      simp only [Option.bind_some, exp_frac hf, Option.bind_none, Option.or_none]
      show (expRe.run (l.drop n) _).or _ = _
      rw [h1]
      cases expLen (l.drop n) with
      | none => rfl
      | some m =>
        obtain ⟨r, hr⟩ := hk (n + m)
        simp only [at'] at hr
        simp only [Option.bind_some, at', hr, Option.some_or]
  · refine .inl fun j n hj => ?_
    obtain ⟨c, l', hl, hc⟩ := oneLen_some hj
    show expRe.run (l.drop j) _ = none
    rw [h1, hl, exp_digit hc]
    rfl

theorem numRe_run {l : List Char} {k : Found → Option β} (hk : Tot k) :
    numRe.run l k = (numLen l).bind (at' k) := by
  have h1 : ∀ n, tailRe.run (l.drop n) (fun m' => k (Found.append ⟨n, []⟩ m')) =
      (tailLen (l.drop n)).bind fun m => at' k (n + m) := fun n => tailRe_run (hk.shift n)
  rw [numRe, run_seq, intRe_run]
  · rw [numLen]
    cases intLen l with
    | none => rfl
    | some n =>
      show tailRe.run (l.drop n) _ = ((tailLen (l.drop n)).map (n + ·)).bind (at' k)
      rw [h1]
      cases tailLen (l.drop n) with
      | none => rfl
      | some m => rfl
  · refine .inl fun j n hj => ?_
    obtain ⟨c, l', hl, hc⟩ := oneLen_some hj
    show tailRe.run (l.drop j) _ = none
    rw [h1, hl, tailLen, frac_digit hc, exp_digit hc]
    rfl

theorem det_word (x : List Char) : Det (word x) (wordLen x) := by
  induction x with
  | nil => intro β l k; cases l <;> rfl
  | cons d x ih =>
    intro β l k
    rw [word, run_seq]
    cases l with
    | nil => rfl
    | cons c l =>
      rw [chr, run_cons]
      simp only [at', List.drop_succ_cons, List.drop_zero, beq_iff_eq]
      rw [ih l, wordLen, wordLen, List.isPrefixOf]
      by_cases hc : c = d
      · subst hc
        simp only [if_true, beq_self_eq_true, Bool.true_and, List.length_cons]
        split
        · show k (Found.append ⟨1, []⟩ ⟨x.length, []⟩) = k ⟨x.length + 1, []⟩
          rw [Nat.add_comm]; rfl
        · rfl
      · have : (d == c) = false := by simp [Ne.symm hc]
        simp only [hc, if_false, this, Bool.false_and]
        rfl

theorem boolRe_run {l : List Char} {k : Found → Option β} : boolRe.run l k = (boolLen l).bind (at' k) := by
  rw [boolRe, run_alt, det_word, det_word, boolLen]
  cases l with
  | nil => rfl
  | cons c l =>
    by_cases h : c = 't'
    · subst h
      have : wordLen ['f', 'a', 'l', 's', 'e'] ('t' :: l) = none := rfl
      rw [this]
      cases wordLen ['t', 'r', 'u', 'e'] ('t' :: l) with
      | none => rfl
      | some n => simp
    · have : wordLen ['t', 'r', 'u', 'e'] (c :: l) = none := by
        rw [wordLen, List.isPrefixOf]
        simp [Ne.symm h]
      rw [this]
      rfl

theorem nullRe_run {l : List Char} {k : Found → Option β} : nullRe.run l k = (nullLen l).bind (at' k) :=
  det_word _ l k

/-! ### Strings -/

/-- One character of a string, or one escape. -/
def itemLen : List Char → Option Nat
  | [] => none
  | c :: l =>
    if c = '\\' then
      match l with
      | [] => none
      | d :: l' =>
        if isSimple d then some 2
        else if d = 'u' then
          match l' with
          | h1 :: h2 :: h3 :: h4 :: _ => if isHex h1 && isHex h2 && isHex h3 && isHex h4 then some 6 else none
          | _ => none
        else none
    else if isPlain c then some 1
    else none

theorem det_item : Det itemRe itemLen := by
  intro β l k
  rw [itemRe, run_alt, run_seq]
  cases l with
  | nil => rfl
  | cons c l =>
    rw [chr, run_cons, run_cons]
    by_cases hc : c = '\\'
    · subst hc
      have : isPlain '\\' = false := by decide
      simp only [this, beq_self_eq_true, if_true, at', List.drop_succ_cons, List.drop_zero]
      rw [run_alt, run_seq, itemLen.eq_def]
      cases l with
      | nil => rfl
      | cons d l =>
        simp only [run_cons, chr, at', List.drop_succ_cons, List.drop_zero, if_true, beq_iff_eq]
        by_cases hd : isSimple d = true
        · have : d ≠ 'u' := by rintro rfl; exact absurd hd (by decide)
          simp [hd, this, Found.append]
        · by_cases hu : d = 'u'
          · subst hu
            simp only [hd, if_true]
            rcases l with _ | ⟨h1, _ | ⟨h2, _ | ⟨h3, _ | ⟨h4, l⟩⟩⟩⟩
            · rfl
            all_goals
              simp only [Re.run, List.drop_succ_cons, List.drop_zero]
              cases isHex h1 <;> try cases isHex h2
              all_goals try cases isHex h3
              all_goals try cases isHex h4
              all_goals rfl
          · simp [hd, hu]
    · simp only [beq_iff_eq, hc, if_false, Option.or_none, itemLen]
      split <;> rfl

theorem itemLen_pos (l : List Char) : itemLen l ≠ some 0 := by
  rw [itemLen.eq_def]
  repeat' split
  all_goals simp

theorem bodyLen_item (l : List Char) :
    bodyLen l = match itemLen l with | none => 0 | some n => n + bodyLen (l.drop n) := by
  rw [bodyLen.eq_def, itemLen.eq_def]
  repeat' split
  all_goals simp_all
  all_goals (rename_i h; subst h; rfl)

theorem many_item {fuel : Nat} {l : List Char} (h : l.length ≤ fuel) : many itemLen fuel l = bodyLen l := by
  induction fuel generalizing l with
  | zero =>
    obtain rfl := List.eq_nil_of_length_eq_zero (Nat.le_zero.1 h)
    rfl
  | succ fuel ih =>
    rw [many, bodyLen_item]
    cases hi : itemLen l with
    | none => rfl
    | some n =>
      have := itemLen_pos l
      have hn : n ≠ 0 := by rintro rfl; exact this hi
      simp only
      rw [ih]
      rw [List.length_drop]
      omega

theorem plusItem_run {l : List Char} {k : Found → Option β} (hk : Tame itemLen l k) :
    (plus itemRe).run l k = if bodyLen l = 0 then none else at' k (bodyLen l) := by
  rw [plus, run_seq, det_item]
  cases hi : itemLen l with
  | none =>
    have : bodyLen l = 0 := by rw [bodyLen_item, hi]
    rw [this]; rfl
  | some n =>
    have hn : n ≠ 0 := by rintro rfl; exact itemLen_pos l hi
    have hb : bodyLen l = n + bodyLen (l.drop n) := by rw [bodyLen_item, hi]
    show starRun itemRe.run ((l.drop n).length + 1) (l.drop n) _ = _
    rw [starRun_det det_item itemLen_pos (hk.shift n), many_item (Nat.le_succ _), if_neg (by omega), hb]
    rfl

theorem strRe_run {name : String} {l : List Char} {k : Found → Option β} :
    (strRe name).run l k =
      (strLen l).bind fun n => k ⟨n, [(name, (l.drop 1).take (n - 2))]⟩ := by
  rw [strRe, run_seq]
  cases l with
  | nil => rfl
  | cons c l =>
    rw [chr, run_cons, strLen]
    by_cases hc : c = '"'
    · subst hc
      simp only [beq_self_eq_true, if_true, at', List.drop_succ_cons, List.drop_zero, true_and]
      rw [run_seq, run_group, plusItem_run]
      · split
        · next h => simp [h]
        · next h =>
          simp only [at', h, ne_eq, not_false_eq_true, true_and]
          have e : l[bodyLen l]? = (l.drop (bodyLen l))[0]? := by simp
          rw [e]
          cases l.drop (bodyLen l) with
          | nil => rfl
          | cons d l' =>
            rw [run_cons]
            simp only [beq_iff_eq, List.getElem?_cons_zero, Option.some.injEq]
            split
            · show k (Found.append ⟨1, []⟩ (Found.append ⟨bodyLen l, _⟩ ⟨1, []⟩)) = k _
              simp only [Found.append, List.nil_append, List.append_nil, Nat.add_sub_cancel]
              congr 2
              omega
            · rfl
      · refine .inl fun j n hj => ?_
        show (Re.cls (· == '"')).run (l.drop j) _ = none
        cases hl : l.drop j with
        | nil => rfl
        | cons d l' =>
          rw [run_cons]
          split
          · next hd =>
            rw [beq_iff_eq] at hd
            subst hd
            rw [hl, itemLen.eq_def] at hj
            simp only [show ('"' = '\\') = False by simp, if_false, show isPlain '"' = false by decide] at hj
            cases hj
          · rfl
    · simp [hc]

end Reparsec
