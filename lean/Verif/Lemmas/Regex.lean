import Verif.Spec.Regex

/-!
# Backtracking finds a match if there is one
-/

namespace Reparsec

variable {β γ : Type}

/-! ### What is found is described -/

theorem take_add_drop (l : List Char) (m n : Nat) : l.take m ++ (l.drop m).take n = l.take (m + n) :=
  List.take_add.symm

theorem starRun_sound {a : Re} {f : List Char → (Found → Option β) → Option β} {fuel : Nat} {l : List Char}
    {k : Found → Option β} {r : β}
    (hf : ∀ l k r, f l k = some r → ∃ m : Found, m.len ≤ l.length ∧ a.Lang (l.take m.len) ∧ k m = some r)
    (h : starRun f fuel l k = some r) :
    ∃ m : Found, m.len ≤ l.length ∧ (Re.star a).Lang (l.take m.len) ∧ k m = some r := by
  induction fuel generalizing l k with
  | zero => exact ⟨{}, Nat.zero_le _, .none, h⟩
  | succ fuel ih =>
    simp only [starRun, Option.or_eq_some_iff] at h
    rcases h with h | ⟨-, h⟩
    · obtain ⟨m, hm, hl, h⟩ := hf _ _ _ h
      split at h
      · refine ⟨m, hm, ?_, h⟩
        have := Re.Lang.more hl .none
        rwa [List.append_nil] at this
      · obtain ⟨m', hm', hl', h⟩ := ih h
        rw [List.length_drop] at hm'
        refine ⟨_, ?_, ?_, h⟩
        · simp only [Found.append]; omega
        · simp only [Found.append, ← take_add_drop]
          exact .more hl hl'
    · exact ⟨{}, Nat.zero_le _, .none, h⟩

theorem Re.run_sound {re : Re} {l : List Char} {k : Found → Option β} {r : β} (h : re.run l k = some r) :
    ∃ m : Found, m.len ≤ l.length ∧ re.Lang (l.take m.len) ∧ k m = some r := by
  induction re generalizing l k r with
  | eps => exact ⟨{}, Nat.zero_le _, .eps, h⟩
  | cls f =>
    cases l with
    | nil => cases h
    | cons c l =>
      simp only [Re.run] at h
      split at h
      · next hc => exact ⟨⟨1, []⟩, by simp, .cls hc, h⟩
      · cases h
  | seq a b iha ihb =>
    obtain ⟨m, hm, hl, h⟩ := iha h
    obtain ⟨m', hm', hl', h⟩ := ihb h
    rw [List.length_drop] at hm'
    refine ⟨_, ?_, ?_, h⟩
    · simp only [Found.append]; omega
    · simp only [Found.append, ← take_add_drop]
      exact .seq hl hl'
  | alt a b iha ihb =>
    simp only [Re.run, Option.or_eq_some_iff] at h
    rcases h with h | ⟨-, h⟩
    · obtain ⟨m, hm, hl, h⟩ := iha h
      exact ⟨m, hm, .altL hl, h⟩
    · obtain ⟨m, hm, hl, h⟩ := ihb h
      exact ⟨m, hm, .altR hl, h⟩
  | star a ih => exact starRun_sound (fun l k r h => ih h) h
  | group name a ih =>
    obtain ⟨m, hm, hl, h⟩ := ih h
    exact ⟨⟨m.len, m.caps ++ [(name, l.take m.len)]⟩, hm, .group hl, h⟩

/-! ### If nothing is found, everything was tried -/

theorem Re.Lang.uncons {re : Re} {w : List Char} (h : re.Lang w) {a : Re} (hr : re = .star a) :
    w = [] ∨ ∃ u v, u ≠ [] ∧ w = u ++ v ∧ a.Lang u ∧ (Re.star a).Lang v := by
  induction h with
  | none => exact .inl rfl
  | @more b u v hu hv _ ih =>
    cases hr
    cases u with
    | nil => exact ih rfl
    | cons c u => exact .inr ⟨c :: u, v, by simp, rfl, hu, hv⟩
  | _ => cases hr

theorem starRun_complete {a : Re} {f : List Char → (Found → Option β) → Option β} {fuel : Nat} {l w : List Char}
    {k : Found → Option β}
    (hf : ∀ w l k, a.Lang w → f (w ++ l) k = none → ∃ caps, k ⟨w.length, caps⟩ = none)
    (hw : (Re.star a).Lang w) (hn : w.length ≤ fuel) (h : starRun f fuel (w ++ l) k = none) :
    ∃ caps, k ⟨w.length, caps⟩ = none := by
  induction fuel generalizing w k with
  | zero =>
    obtain rfl := List.eq_nil_of_length_eq_zero (Nat.le_zero.1 hn)
    exact ⟨_, h⟩
  | succ fuel ih =>
    simp only [starRun, Option.or_eq_none_iff] at h
    obtain ⟨h1, h2⟩ := h
    rcases hw.uncons rfl with rfl | ⟨u, v, hu0, rfl, hu, hv⟩
    · exact ⟨_, h2⟩
    · rw [List.append_assoc] at h1
      obtain ⟨caps, h3⟩ := hf _ _ _ hu h1
      have h0 : u.length ≠ 0 := fun h => hu0 (List.eq_nil_of_length_eq_zero h)
      simp only [h0, if_false, List.drop_left] at h3
      rw [List.length_append] at hn
      obtain ⟨caps', h4⟩ := ih hv (by omega) h3
      refine ⟨caps ++ caps', ?_⟩
      rw [List.length_append]
      exact h4

theorem Re.run_complete {re : Re} {w l : List Char} {k : Found → Option β} (hw : re.Lang w)
    (h : re.run (w ++ l) k = none) : ∃ caps, k ⟨w.length, caps⟩ = none := by
  induction re generalizing w l k with
  | eps => cases hw; exact ⟨_, h⟩
  | cls f =>
    cases hw with
    | cls hc =>
      simp only [Re.run, List.cons_append, hc, if_true] at h
      exact ⟨_, h⟩
  | seq a b iha ihb =>
    cases hw with
    | seq h1 h2 =>
      rw [List.append_assoc] at h
      obtain ⟨caps, h⟩ := iha h1 h
      simp only [List.drop_left] at h
      obtain ⟨caps', h⟩ := ihb h2 h
      refine ⟨caps ++ caps', ?_⟩
      rw [List.length_append]
      exact h
  | alt a b iha ihb =>
    simp only [Re.run, Option.or_eq_none_iff] at h
    cases hw with
    | altL h1 => exact iha h1 h.1
    | altR h1 => exact ihb h1 h.2
  | star a ih => exact starRun_complete (fun w l k hw h => ih hw h) hw (by simp; omega) h
  | group name a ih =>
    cases hw with
    | group h1 =>
      obtain ⟨caps, h⟩ := ih h1 h
      exact ⟨_, h⟩

theorem Re.match_sound {re : Re} {l : List Char} {m : Found} (h : re.match l = some m) :
    m.len ≤ l.length ∧ re.Lang (l.take m.len) := by
  obtain ⟨m', h1, h2, h3⟩ := Re.run_sound h
  cases h3
  exact ⟨h1, h2⟩

theorem Re.match_none {re : Re} {l : List Char} : re.match l = none ↔ ¬ ∃ w r, l = w ++ r ∧ re.Lang w := by
  constructor
  · rintro h ⟨w, r, rfl, hw⟩
    obtain ⟨caps, h⟩ := Re.run_complete hw h
    cases h
  · intro h
    cases hm : re.match l with
    | none => rfl
    | some m =>
      have := Re.match_sound hm
      exact absurd ⟨_, _, (List.take_append_drop m.len l).symm, this.2⟩ h

/-! ### Calculating -/

/-- What follows does not look at the groups before it. -/
theorem starRun_map {f : {β : Type} → List Char → (Found → Option β) → Option β} {fuel : Nat} {l : List Char}
    {k : Found → Option β} {g : β → γ}
    (hf : ∀ l (k : Found → Option β), f l (fun m => (k m).map g) = (f l k).map g) :
    starRun f fuel l (fun m => (k m).map g) = (starRun f fuel l k).map g := by
  induction fuel generalizing l k with
  | zero => rfl
  | succ fuel ih =>
    simp only [starRun, Option.map_or]
    rw [← hf]
    congr 1
    congr 1
    funext m
    split
    · rfl
    · exact ih (k := fun m' => k (m.append m'))

theorem Re.run_map {re : Re} {l : List Char} {k : Found → Option β} {g : β → γ} :
    re.run l (fun m => (k m).map g) = (re.run l k).map g := by
  induction re generalizing l k with
  | eps => rfl
  | cls f =>
    cases l with
    | nil => rfl
    | cons c l => simp only [Re.run]; split <;> rfl
  | seq a b iha ihb =>
    simp only [Re.run]
    rw [← iha]
    congr 1
    funext m
    exact ihb (k := fun m' => k (m.append m'))
  | alt a b iha ihb => simp only [Re.run, Option.map_or, iha, ihb]
  | star a ih => exact starRun_map (f := fun {β} => a.run (β := β)) fun l k => ih
  | group name a ih => exact ih (k := fun m => k ⟨m.len, m.caps ++ [(name, l.take m.len)]⟩)

/-- If nothing can go wrong afterwards, the first match counts. -/
theorem Re.run_first {re : Re} {l : List Char} {g : Found → β} :
    re.run l (fun m => some (g m)) = (re.match l).map g :=
  Re.run_map (k := some)

end Reparsec
