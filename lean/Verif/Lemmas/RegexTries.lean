import Verif.Lemmas.Regex

/-!
# Backtracking tries the matches in the order of preference
-/

namespace Reparsec

variable {β : Type}

theorem findSome?_flatMap {γ δ : Type} (l : List γ) (f : γ → List δ) (g : δ → Option β) :
    (l.flatMap f).findSome? g = l.findSome? fun x => (f x).findSome? g := by
  induction l with
  | nil => rfl
  | cons x l ih =>
    rw [List.flatMap_cons, List.findSome?_append, ih, List.findSome?_cons]
    cases (f x).findSome? g <;> rfl

theorem findSome?_congr' {γ : Type} {l : List γ} {f g : γ → Option β} (h : ∀ x ∈ l, f x = g x) :
    l.findSome? f = l.findSome? g := by
  induction l with
  | nil => rfl
  | cons x l ih =>
    rw [List.findSome?_cons, List.findSome?_cons, h x (by simp), ih fun y hy => h y (by simp [hy])]

/-- The matches that are tried are texts that the expression describes. -/
theorem Re.Tries.lang {re : Re} {l : List Char} {ms : List Found} (h : re.Tries l ms) {m : Found} (hm : m ∈ ms) :
    m.len ≤ l.length ∧ re.Lang (l.take m.len) := by
  induction h generalizing m with
  | eps => obtain rfl := List.mem_singleton.1 hm; exact ⟨Nat.zero_le _, .eps⟩
  | cls hc => obtain rfl := List.mem_singleton.1 hm; exact ⟨by simp, .cls hc⟩
  | clsNot => cases hm
  | clsEnd => cases hm
  | seq _ _ iha ihb =>
    obtain ⟨m1, h1, hm⟩ := List.mem_flatMap.1 hm
    obtain ⟨m2, h2, rfl⟩ := List.mem_map.1 hm
    have ha := iha h1
    have hb := ihb m1 h1 h2
    rw [List.length_drop] at hb
    refine ⟨by simp only; omega, ?_⟩
    simp only [← take_add_drop]
    exact .seq ha.2 hb.2
  | alt _ _ iha ihb =>
    rcases List.mem_append.1 hm with hm | hm
    · exact ⟨(iha hm).1, .altL (iha hm).2⟩
    · exact ⟨(ihb hm).1, .altR (ihb hm).2⟩
  | star _ _ iha ihb =>
    rcases List.mem_append.1 hm with hm | hm
    · obtain ⟨m1, h1, hm⟩ := List.mem_flatMap.1 hm
      have ha := iha h1
      split at hm
      · next h0 =>
        obtain rfl := List.mem_singleton.1 hm
        rw [h0, List.take_zero]
        exact ⟨Nat.zero_le _, .none⟩
      · next h0 =>
        obtain ⟨m2, h2, rfl⟩ := List.mem_map.1 hm
        have hb := ihb m1 h1 h0 h2
        rw [List.length_drop] at hb
        refine ⟨by simp only; omega, ?_⟩
        simp only [← take_add_drop]
        exact .more ha.2 hb.2
    · obtain rfl := List.mem_singleton.1 hm; exact ⟨Nat.zero_le _, .none⟩
  | group _ ih =>
    obtain ⟨m1, h1, rfl⟩ := List.mem_map.1 hm
    exact ⟨(ih h1).1, .group (ih h1).2⟩

theorem Re.Tries.run {re : Re} {l : List Char} {ms : List Found} (h : re.Tries l ms) (k : Found → Option β) :
    re.run l k = ms.findSome? k ∧
      ∀ a, re = .star a → ∀ fuel, l.length < fuel → starRun a.run fuel l k = ms.findSome? k := by
  induction h generalizing k with
  | eps => exact ⟨by simp [Re.run], fun _ h => by cases h⟩
  | cls hc => exact ⟨by simp [Re.run, hc], fun _ h => by cases h⟩
  | clsNot hc => exact ⟨by simp [Re.run, hc], fun _ h => by cases h⟩
  | clsEnd => exact ⟨rfl, fun _ h => by cases h⟩
  | seq _ _ iha ihb =>
    refine ⟨?_, fun _ h => by cases h⟩
    rw [Re.run, (iha _).1, findSome?_flatMap]
    refine findSome?_congr' fun m hm => ?_
    rw [(ihb m hm _).1, List.findSome?_map]
    rfl
  | alt _ _ iha ihb =>
    refine ⟨?_, fun _ h => by cases h⟩
    rw [Re.run, (iha _).1, (ihb _).1, List.findSome?_append]
  | @star a l ms rest hms _ iha ihb =>
    have key : ∀ fuel, l.length < fuel → starRun a.run fuel l k =
        List.findSome? k ((ms.flatMap fun m => if m.len = 0 then [m] else
          (rest m).map fun m' => (⟨m.len + m'.len, m.caps ++ m'.caps⟩ : Found)) ++ [⟨0, []⟩]) := by
      intro fuel hf
      cases fuel with
      | zero => exact absurd hf (Nat.not_lt_zero _)
      | succ fuel =>
        rw [starRun, (iha _).1, List.findSome?_append, findSome?_flatMap, List.findSome?_cons]
        have : (ms.findSome? fun m => if m.len = 0 then k m else starRun a.run fuel (l.drop m.len)
            fun m' => k (m.append m')) = ms.findSome? fun m => List.findSome? k (if m.len = 0 then [m] else
            (rest m).map fun m' => (⟨m.len + m'.len, m.caps ++ m'.caps⟩ : Found)) := by
          refine findSome?_congr' fun m hm => ?_
          by_cases h0 : m.len = 0
          · simp [h0]
          · simp only [h0, if_false]
            have := (hms.lang hm).1
            rw [(ihb m hm h0 _).2 a rfl fuel (by rw [List.length_drop]; omega), List.findSome?_map]
            rfl
        rw [this]
        congr 1
        cases k {} <;> rfl
    refine ⟨key _ (Nat.lt_succ_self _), fun a' h => ?_⟩
    cases h
    exact key
  | group _ ih =>
    refine ⟨?_, fun _ h => by cases h⟩
    rw [Re.run, (ih _).1, List.findSome?_map]
    rfl

theorem tries_star {a : Re} (ha : ∀ l, ∃ ms, a.Tries l ms) (l : List Char) : ∃ ms, (Re.star a).Tries l ms := by
  induction hn : l.length using Nat.strongRecOn generalizing l with
  | ind n ih =>
    subst hn
    obtain ⟨ms, h⟩ := ha l
    have : ∀ m : Found, ∃ r, m ∈ ms → m.len ≠ 0 → (Re.star a).Tries (l.drop m.len) r := by
      intro m
      by_cases h0 : m ∈ ms ∧ m.len ≠ 0
      · have hl : l ≠ [] := by
          rintro rfl
          exact absurd (Nat.le_zero.1 (h.lang h0.1).1) h0.2
        have : l.length ≠ 0 := fun h => hl (List.eq_nil_of_length_eq_zero h)
        have : (l.drop m.len).length < l.length := by
          rw [List.length_drop]
          have := h0.2
          omega
        obtain ⟨r, hr⟩ := ih _ this _ rfl
        exact ⟨r, fun _ _ => hr⟩
      · exact ⟨[], fun h1 h2 => absurd ⟨h1, h2⟩ h0⟩
    obtain ⟨rest, hr⟩ := Classical.axiomOfChoice this
    exact ⟨_, .star h fun m hm h0 => hr m hm h0⟩

theorem Re.tries (re : Re) (l : List Char) : ∃ ms, re.Tries l ms := by
  induction re generalizing l with
  | eps => exact ⟨_, .eps⟩
  | cls f =>
    cases l with
    | nil => exact ⟨_, .clsEnd⟩
    | cons c l =>
      cases h : f c with
      | false => exact ⟨_, .clsNot h⟩
      | true => exact ⟨_, .cls h⟩
  | seq a b iha ihb =>
    obtain ⟨ms, h⟩ := iha l
    obtain ⟨rest, hr⟩ := Classical.axiomOfChoice fun m : Found => ihb (l.drop m.len)
    exact ⟨_, .seq h fun m _ => hr m⟩
  | alt a b iha ihb =>
    obtain ⟨ms, h⟩ := iha l
    obtain ⟨ms', h'⟩ := ihb l
    exact ⟨_, .alt h h'⟩
  | star a ih => exact tries_star ih l
  | group n a ih =>
    obtain ⟨ms, h⟩ := ih l
    exact ⟨_, .group h⟩

theorem Re.Tries.match {re : Re} {l : List Char} {ms : List Found} (h : re.Tries l ms) : re.match l = ms.head? := by
  rw [Re.match, (h.run some).1]
  cases ms <;> rfl

theorem Re.Tries.unique {re : Re} {l : List Char} {ms ms' : List Found} (h : re.Tries l ms) (h' : re.Tries l ms') :
    ms = ms' := by
  induction h generalizing ms' with
  | eps => cases h'; rfl
  | cls hc => cases h' with
    | cls => rfl
    | clsNot hc' => rw [hc] at hc'; cases hc'
  | clsNot hc => cases h' with
    | clsNot => rfl
    | cls hc' => rw [hc] at hc'; cases hc'
  | clsEnd => cases h'; rfl
  | @seq a b l ms rest _ _ iha ihb =>
    cases h' with
    | @seq _ _ _ ms' rest' h1 h2 =>
      obtain rfl := iha h1
      have : ∀ m ∈ ms, rest m = rest' m := fun m hm => ihb m hm (h2 m hm)
      clear ihb h2 iha h1
      simp only [List.flatMap]
      congr 1
      exact List.map_congr_left fun m hm => by rw [this m hm]
  | alt _ _ iha ihb =>
    cases h' with
    | alt h1 h2 => rw [iha h1, ihb h2]
  | @star a l ms rest _ _ iha ihb =>
    cases h' with
    | @star _ _ ms' rest' h1 h2 =>
      obtain rfl := iha h1
      congr 1
      simp only [List.flatMap]
      congr 1
      refine List.map_congr_left fun m hm => ?_
      split
      · rfl
      · next h0 => rw [ihb m hm h0 (h2 m hm h0)]
  | group _ ih =>
    cases h' with
    | group h1 => rw [ih h1]

/-- The texts of groups are described by their expressions, and are parts of the text. -/
theorem Re.Tries.caps {re : Re} {l : List Char} {ms : List Found} (h : re.Tries l ms) {m : Found} (hm : m ∈ ms)
    {name : String} {t : List Char} (ht : (name, t) ∈ m.caps) :
    ∃ a, (Re.group name a).Has re ∧ a.Lang t ∧ t <:+: l := by
  induction h generalizing m with
  | eps => obtain rfl := List.mem_singleton.1 hm; cases ht
  | cls hc => obtain rfl := List.mem_singleton.1 hm; cases ht
  | clsNot => cases hm
  | clsEnd => cases hm
  | seq _ _ iha ihb =>
    obtain ⟨m1, h1, hm⟩ := List.mem_flatMap.1 hm
    obtain ⟨m2, h2, rfl⟩ := List.mem_map.1 hm
    rcases List.mem_append.1 ht with ht | ht
    · obtain ⟨a, h3, h4⟩ := iha h1 ht
      exact ⟨a, .inr (.inl h3), h4⟩
    · obtain ⟨a, h3, h4, h5⟩ := ihb m1 h1 h2 ht
      exact ⟨a, .inr (.inr h3), h4, h5.trans (List.drop_suffix _ _).isInfix⟩
  | alt _ _ iha ihb =>
    rcases List.mem_append.1 hm with hm | hm
    · obtain ⟨a, h3, h4⟩ := iha hm ht
      exact ⟨a, .inr (.inl h3), h4⟩
    · obtain ⟨a, h3, h4⟩ := ihb hm ht
      exact ⟨a, .inr (.inr h3), h4⟩
  | star _ _ iha ihb =>
    rcases List.mem_append.1 hm with hm | hm
    · obtain ⟨m1, h1, hm⟩ := List.mem_flatMap.1 hm
      split at hm
      · obtain rfl := List.mem_singleton.1 hm
        obtain ⟨a, h3, h4⟩ := iha h1 ht
        exact ⟨a, .inr h3, h4⟩
      · next h0 =>
        obtain ⟨m2, h2, rfl⟩ := List.mem_map.1 hm
        rcases List.mem_append.1 ht with ht | ht
        · obtain ⟨a, h3, h4⟩ := iha h1 ht
          exact ⟨a, .inr h3, h4⟩
        · obtain ⟨a, h3, h4, h5⟩ := ihb m1 h1 h0 h2 ht
          exact ⟨a, h3, h4, h5.trans (List.drop_suffix _ _).isInfix⟩
    · obtain rfl := List.mem_singleton.1 hm; cases ht
  | group h' ih =>
    obtain ⟨m1, h1, rfl⟩ := List.mem_map.1 hm
    rcases List.mem_append.1 ht with ht | ht
    · obtain ⟨a, h3, h4⟩ := ih h1 ht
      exact ⟨a, .inr h3, h4⟩
    · obtain ⟨rfl, rfl⟩ := Prod.mk.inj (List.mem_singleton.1 ht)
      exact ⟨_, .inl rfl, (h'.lang h1).2, (List.take_prefix _ _).isInfix⟩

theorem Found.group_eq (m : Found) (name : String) (l : List Char) : m.group name = m.value l (some name) := by
  simp only [Found.group, Found.value]
  congr 1
  rw [← List.head?_reverse, ← List.filter_reverse, List.head?_filter]
  congr 1

end Reparsec
