import Verif.Props.Recovery
import Verif.Spec.Insertions
import Verif.Spec.Wants

/-!
# More insertions: the candidates found with a budget are found with a larger one too

By induction on the evaluation with the larger budget (`Rec.budget`).
-/

namespace Reparsec

variable {τ ρ : Type} {Γ : ρ → Type} {α β γ : Type}

/-- `xs` are, in order, counterparts of some of the `ys`. -/
inductive Among (R : α → β → Prop) : List α → List β → Prop
  | nil {ys} : Among R [] ys
  | take {x y xs ys} : R x y → Among R xs ys → Among R (x :: xs) (y :: ys)
  | drop {y xs ys} : Among R xs ys → Among R xs (y :: ys)

namespace Among

theorem map {γ δ : Type} {R : α → β → Prop} {S : γ → δ → Prop} {f : α → γ} {g : β → δ} {xs : List α} {ys : List β}
    (h : Among R xs ys) (hf : ∀ x y, R x y → S (f x) (g y)) : Among S (xs.map f) (ys.map g) := by
  induction h with
  | nil => exact .nil
  | take h _ ih => exact .take (hf _ _ h) ih
  | drop _ ih => exact .drop ih

theorem append_left {R : α → β → Prop} {xs : List α} {ys : List β} (h : Among R xs ys) (zs : List β) :
    Among R xs (zs ++ ys) := by
  induction zs with
  | nil => exact h
  | cons z zs ih => exact .drop ih

theorem append_right {R : α → β → Prop} {xs : List α} {ys : List β} (h : Among R xs ys) (zs : List β) :
    Among R xs (ys ++ zs) := by
  induction h with
  | nil => exact .nil
  | take h _ ih => exact .take h ih
  | drop _ ih => exact .drop ih

theorem append {R : α → β → Prop} {xs xs' : List α} {ys ys' : List β} (h : Among R xs ys)
    (h' : Among R xs' ys') : Among R (xs ++ xs') (ys ++ ys') := by
  induction h with
  | nil => exact h'.append_left _
  | take h _ ih => exact .take h ih
  | drop _ ih => exact .drop ih

theorem filter {R : α → β → Prop} {f : α → Bool} {g : β → Bool} {xs : List α} {ys : List β} (h : Among R xs ys)
    (hf : ∀ x y, R x y → f x = g y) : Among R (xs.filter f) (ys.filter g) := by
  induction h with
  | nil => exact .nil
  | take h _ ih =>
    rw [List.filter_cons, List.filter_cons, hf _ _ h]
    split
    · exact .take h ih
    · exact ih
  | drop _ ih =>
    rw [List.filter_cons]
    split
    · exact .drop ih
    · exact ih

theorem mem {R : α → β → Prop} {xs : List α} {ys : List β} (h : Among R xs ys) {x : α} (hx : x ∈ xs) :
    ∃ y ∈ ys, R x y := by
  induction h with
  | nil => cases hx
  | take h _ ih =>
    rcases List.mem_cons.1 hx with rfl | hx
    · exact ⟨_, List.mem_cons_self, h⟩
    · obtain ⟨y, hy, h⟩ := ih hx; exact ⟨y, List.mem_cons_of_mem _ hy, h⟩
  | drop _ ih => obtain ⟨y, hy, h⟩ := ih hx; exact ⟨y, List.mem_cons_of_mem _ hy, h⟩

theorem mono {R R' : α → β → Prop} {xs : List α} {ys : List β} (h : Among R xs ys)
    (hr : ∀ x y, R x y → R' x y) : Among R' xs ys := by
  induction h with
  | nil => exact .nil
  | take h _ ih => exact .take (hr _ _ h) ih
  | drop _ ih => exact .drop ih

end Among

/-- At most as many insertions; a negative number means no limit. -/
def Fewer (r r' : Int) : Prop := r' < 0 ∨ 0 ≤ r ∧ r ≤ r'

theorem Fewer.pred {r r' : Int} (h : Fewer r r') (hr : r ≠ 0) : Fewer (r - 1) (r' - 1) := by
  unfold Fewer at *; omega

theorem Fewer.ne {r r' : Int} (h : Fewer r r') (hr : r ≠ 0) : r' ≠ 0 := by
  unfold Fewer at *; omega

theorem Fewer.zero {r : Int} (h : Fewer r 0) : r = 0 := by
  unfold Fewer at *; omega

/-- Budgets; if `A`, then not being allowed to repair is less than any budget. -/
def BudgetLe (A : Prop) : Option Int → Option Int → Prop
  | none, none => True
  | none, some _ => A
  | some r, some r' => Fewer r r'
  | some _, none => False

/-- The same kinds of findings are to be expected. -/
def Tight (b b' : Option Int) : Prop := b ≠ some 0 ∧ (b = none → b' = none)

theorem tight_none : Tight none none := ⟨(by simp), fun _ => rfl⟩

/-- The same candidate, but for the number of insertions left. -/
def CandLe (c d : Cand α) : Prop := Fewer c.left d.left ∧ { c with left := 0 } = { d with left := 0 }

namespace CandLe

theorem iff {c d : Cand α} : CandLe c d ↔ Fewer c.left d.left ∧ c.cost = d.cost ∧ c.auto = d.auto ∧
    c.fixes = d.fixes ∧ c.value = d.value ∧ c.stop = d.stop ∧ c.wants = d.wants ∧ c.begun = d.begun := by
  unfold CandLe
  simp

theorem mk' {l l' : Int} {c : Cand α} (h : Fewer l l') : CandLe { c with left := l } { c with left := l' } :=
  ⟨h, rfl⟩

end CandLe

/-- `o` is what is found with the smaller budget, `o'` with the larger one. -/
def FindLe (A : Prop) (b b' : Option Int) : Finding α → Finding α → Prop
  | .accepts v j w, .accepts v' j' w' => v = v' ∧ j = j' ∧ w = w'
  | .rejects q w c, .rejects q' w' c' => c = c' ∧ (Tight b b' → c = false → q = q' ∧ w = w')
  | .rejects _ _ c, .repairs _ _ _ c' => A ∧ c = c' ∧ (c = false → ¬ Tight b b')
  | .repairs cs q w c, .repairs cs' q' w' c' =>
    c = c' ∧ (Tight b b' → c = false → q = q' ∧ w = w') ∧ Among CandLe cs cs'
  | _, _ => False

section
variable {A : Prop} {b b' : Option Int}

theorem FindLe.weaken {o o' : Finding α} (h : FindLe A none none o o') : FindLe A b b' o o' := by
  cases o <;> cases o' <;> try exact h
  · exact ⟨h.1, fun _ => h.2 tight_none⟩
  · exact ⟨h.1, h.2.1, fun hc => absurd tight_none (h.2.2 hc)⟩
  · exact ⟨h.1, fun _ => h.2.1 tight_none, h.2.2⟩

theorem FindLe.map {o o' : Finding α} {f : α → β} (h : FindLe A b b' o o') :
    FindLe A b b' (o.map f) (o'.map f) := by
  cases o <;> cases o' <;> try exact h
  · obtain ⟨rfl, rfl, rfl⟩ := h; exact ⟨rfl, rfl, rfl⟩
  · refine ⟨h.1, h.2.1, h.2.2.map fun x y hxy => ?_⟩
    rw [CandLe.iff] at hxy ⊢
    obtain ⟨h0, h1, h2, h3, h4, h5, h6, h7⟩ := hxy
    exact ⟨h0, h1, h2, h3, congrArg f h4, h5, h6, h7⟩

theorem FindLe.final {o o' : Finding α} (h : FindLe A b b' o o') (hf : o'.final) : o.final := by
  cases o <;> cases o' <;> try exact h.elim
  · exact hf
  · exact h.1.trans hf
  · exact h.2.1.trans hf
  · exact h.1.trans hf

theorem FindLe.calm {o o' : Finding α} (h : FindLe A b b' o o') : o.calm := by
  cases o <;> cases o' <;> trivial

theorem FindLe.gaveUp {o o' : Finding α} (h : FindLe A b b' o o') (hf : o'.gaveUp = none) :
    o.gaveUp = none := by
  cases o with
  | accepts => rfl
  | raises => rfl
  | rejects q w c =>
    cases o' with
    | rejects q' w' c' => obtain ⟨rfl, -⟩ := h; cases c <;> first | rfl | cases hf
    | repairs cs' q' w' c' => obtain ⟨-, rfl, -⟩ := h; cases c <;> first | rfl | cases hf
    | _ => exact h.elim
  | repairs cs q w c =>
    cases o' with
    | repairs cs' q' w' c' => obtain ⟨rfl, -⟩ := h; cases c <;> first | rfl | cases hf
    | _ => exact h.elim

theorem FindLe.rejects_inv {o : Finding α} {q : Nat} {w : List String}
    (h : FindLe A none none o (.rejects q w false)) : o = .rejects q w false := by
  cases o with
  | rejects q' w' c =>
    obtain ⟨rfl, h⟩ := h
    obtain ⟨rfl, rfl⟩ := h tight_none rfl
    rfl
  | _ => exact h.elim

theorem FindLe.accepts_inv {o : Finding α} {v : α} {j : Nat} {w : List String}
    (h : FindLe A b b' o (.accepts v j w)) : o = .accepts v j w := by
  cases o with
  | accepts => obtain ⟨rfl, rfl, rfl⟩ := h; rfl
  | _ => exact h.elim

theorem FindLe.after {o o' : Finding α} {i j : Nat} {w : List String} {k k' : Int}
    (h : FindLe A (if i < j then some k else b) (if i < j then some k' else b') o o') :
    FindLe A b b' (o.after i j w) (o'.after i j w) := by
  by_cases hij : i < j
  · have hd : decide (i < j) = true := by simpa using hij
    cases o <;> cases o' <;> try exact h.elim
    · obtain ⟨rfl, rfl, rfl⟩ := h; exact ⟨rfl, rfl, rfl⟩
    · obtain ⟨rfl, -⟩ := h
      exact ⟨rfl, fun _ h => by simp [hij] at h⟩
    · obtain ⟨ha, rfl, -⟩ := h
      exact ⟨ha, rfl, fun h => by simp [hij] at h⟩
    · obtain ⟨rfl, -, h⟩ := h
      refine ⟨rfl, fun _ h => by simp [hij] at h, h.map fun x y hxy => ?_⟩
      rw [CandLe.iff] at hxy ⊢
      obtain ⟨h0, h1, h2, h3, h4, h5, h6, h7⟩ := hxy
      refine ⟨h0, h1, h2, ?_, h4, h5, ?_, ?_⟩ <;> simp only [Cand.after, h3, h6, h7]
  · rw [if_neg hij, if_neg hij] at h
    cases o <;> cases o' <;> try exact h.elim
    · obtain ⟨rfl, rfl, rfl⟩ := h; exact ⟨rfl, rfl, rfl⟩
    · obtain ⟨rfl, h⟩ := h
      refine ⟨rfl, fun ht hc => ?_⟩
      rw [Bool.or_eq_false_iff] at hc
      obtain ⟨rfl, rfl⟩ := h ht hc.1
      exact ⟨rfl, rfl⟩
    · obtain ⟨ha, rfl, h⟩ := h
      exact ⟨ha, rfl, fun hc => h (Bool.or_eq_false_iff.1 hc).1⟩
    · obtain ⟨rfl, h', h⟩ := h
      refine ⟨rfl, fun ht hc => ?_, h.map fun x y hxy => ?_⟩
      · rw [Bool.or_eq_false_iff] at hc
        obtain ⟨rfl, rfl⟩ := h' ht hc.1
        exact ⟨rfl, rfl⟩
      · rw [CandLe.iff] at hxy ⊢
        obtain ⟨h0, h1, h2, h3, h4, h5, h6, h7⟩ := hxy
        refine ⟨h0, h1, h2, ?_, h4, h5, ?_, ?_⟩ <;> simp only [Cand.after, h3, h6, h7]

theorem CandLe.relabel {c d : Cand α} {w : List String} (h : CandLe c d) :
    CandLe (c.relabel w) (d.relabel w) := by
  rw [CandLe.iff] at h ⊢
  obtain ⟨h0, h1, h2, h3, h4, h5, h6, h7⟩ := h
  refine ⟨h0, h1, h2, ?_, h4, h5, ?_, h7⟩ <;> simp only [Cand.relabel, h3, h6, h7]

theorem FindLe.relabel {o o' : Finding α} {i : Nat} {w : List String} (h : FindLe A b b' o o') :
    FindLe A b b' (o.relabel i w) (o'.relabel i w) := by
  cases o <;> cases o' <;> try exact h.elim
  · obtain ⟨rfl, rfl, rfl⟩ := h; exact ⟨rfl, rfl, rfl⟩
  · obtain ⟨rfl, h⟩ := h
    refine ⟨rfl, fun ht hc => ?_⟩
    obtain ⟨rfl, rfl⟩ := h ht hc
    exact ⟨rfl, rfl⟩
  · exact h
  · obtain ⟨rfl, h', h⟩ := h
    refine ⟨rfl, fun ht hc => ?_, h.map fun x y => CandLe.relabel⟩
    obtain ⟨rfl, rfl⟩ := h' ht hc
    exact ⟨rfl, rfl⟩

theorem FindLe.promoted {o o' : Finding α} (h : FindLe A b b' o o') :
    FindLe A b b' o.promoted o'.promoted := by
  cases o <;> cases o' <;> try exact h
  refine ⟨h.1, h.2.1, h.2.2.map fun x y hxy => ?_⟩
  rw [CandLe.iff] at hxy ⊢
  obtain ⟨h0, h1, h2, h3, h4, h5, h6, h7⟩ := hxy
  exact ⟨h0, h1, rfl, h3, h4, h5, h6, h7⟩

theorem among_mapM {fn : α → Except Exn β} {cs cs' : List (Cand α)} (h : Among CandLe cs cs') :
    ∀ {ds' : List (Cand β)}, (cs'.mapM fun c => (fn c.value).map fun v => c.withValue v) = .ok ds' →
      ∃ ds, (cs.mapM fun c => (fn c.value).map fun v => c.withValue v) = .ok ds ∧ Among CandLe ds ds' := by
  induction h with
  | nil => exact fun _ => ⟨[], rfl, .nil⟩
  | @take x y xs ys hxy _ ih =>
    intro ds' h
    rw [List.mapM_cons] at h ⊢
    rw [CandLe.iff] at hxy
    obtain ⟨h0, h1, h2, h3, h4, h5, h6, h7⟩ := hxy
    rw [h4]
    cases hv : fn y.value with
    | error e => rw [hv] at h; cases h
    | ok v =>
      rw [hv] at h
      cases hds : ys.mapM fun c => (fn c.value).map fun v => c.withValue v with
      | error e => rw [hds] at h; cases h
      | ok es =>
        rw [hds] at h
        cases h
        obtain ⟨ds, h8, h9⟩ := ih hds
        refine ⟨x.withValue v :: ds, by rw [h8]; rfl, .take ?_ h9⟩
        rw [CandLe.iff]
        exact ⟨h0, h1, h2, h3, rfl, h5, h6, h7⟩
  | @drop y xs ys _ ih =>
    intro ds' h
    rw [List.mapM_cons] at h
    cases hv : fn y.value with
    | error e => rw [hv] at h; cases h
    | ok v =>
      rw [hv] at h
      cases hds : ys.mapM fun c => (fn c.value).map fun v => c.withValue v with
      | error e => rw [hds] at h; cases h
      | ok es =>
        rw [hds] at h
        cases h
        obtain ⟨ds, h8, h9⟩ := ih hds
        exact ⟨ds, h8, .drop h9⟩

theorem FindLe.mapM {o o' : Finding α} {fn : α → Except Exn β} (h : FindLe A b b' o o')
    (hc : (o'.mapM fn).calm) : FindLe A b b' (o.mapM fn) (o'.mapM fn) := by
  cases o <;> cases o' <;> try exact h.elim
  · obtain ⟨rfl, rfl, rfl⟩ := h
    rename_i v j w
    simp only [Finding.mapM] at hc ⊢
    cases hv : fn v with
    | error e => rw [hv] at hc; exact hc.elim
    | ok v' => exact ⟨rfl, rfl, rfl⟩
  · exact h
  · rename_i q w c cs' q' w' c'
    simp only [Finding.mapM] at hc ⊢
    cases hv : cs'.mapM fun c => (fn c.value).map fun v => c.withValue v with
    | error e => rw [hv] at hc; exact hc.elim
    | ok ds => exact h
  · rename_i cs q w c cs' q' w' c'
    simp only [Finding.mapM] at hc ⊢
    cases hv : cs'.mapM fun c => (fn c.value).map fun v => c.withValue v with
    | error e => rw [hv] at hc; exact hc.elim
    | ok ds =>
      obtain ⟨es, h1, h2⟩ := among_mapM h.2.2 hv
      rw [h1]
      exact ⟨h.1, h.2.1, h2⟩

/-- What follows one candidate. -/
theorem CandLe.andThen {k k' : Int} {merge : α → β → γ} {c c' : Cand α} {o o' : Finding β} (hk : Fewer k k')
    (hc : CandLe c c') (h : FindLe A b b' o o') :
    Among CandLe (c.andThen k merge o) (c'.andThen k' merge o') := by
  rw [CandLe.iff] at hc
  obtain ⟨h0, h1, h2, h3, h4, h5, h6, h7⟩ := hc
  cases o <;> cases o' <;> try exact h.elim
  · obtain ⟨rfl, rfl, rfl⟩ := h
    refine .take ?_ .nil
    rw [CandLe.iff]
    refine ⟨?_, h1, h2, h3, ?_, rfl, ?_, ?_⟩ <;> simp only [h4, h5, h6, h7]
    split
    · exact hk
    · exact h0
  · exact .nil
  · exact .nil
  · refine h.2.2.map fun x y hxy => ?_
    rw [CandLe.iff] at hxy ⊢
    obtain ⟨g0, g1, g2, g3, g4, g5, g6, g7⟩ := hxy
    refine ⟨g0, ?_, h2, ?_, ?_, g5, ?_, ?_⟩ <;> simp only [h1, h3, h4, h6, h7, g1, g3, g4, g6, g7]

/-- What follows all the candidates. -/
theorem among_andThenAll {X : Cand α → Finding β → Prop} {B B' : Cand α → Option Int} {k k' : Int}
    {merge : α → β → γ} {cs cs' : List (Cand α)} (hk : Fewer k k') (h : Among CandLe cs cs') :
    ∀ {os' : List (Finding β)}, os'.length = cs'.length →
      (∀ (n : Nat) (d' : Cand α) o', cs'[n]? = some d' → os'[n]? = some o' → ∀ d, CandLe d d' →
        ∃ o, X d o ∧ FindLe A (B d) (B' d') o o') →
      ∃ os, os.length = cs.length ∧
        (∀ (n : Nat) (d : Cand α) o, cs[n]? = some d → os[n]? = some o → X d o) ∧ (∀ o ∈ os, o.calm) ∧
        Among CandLe (andThenAll k merge cs os) (andThenAll k' merge cs' os') := by
  induction h with
  | nil => exact fun _ _ => ⟨[], rfl, fun n d o hd => by simp at hd, by simp, .nil⟩
  | @take x y xs ys hxy _ ih =>
    intro os' hl H
    cases os' with
    | nil => cases hl
    | cons o' os' =>
      obtain ⟨os, h1, h2, h3, h4⟩ := ih (os' := os') (by simpa using hl)
        fun n d' o' hd ho => H (n + 1) d' o' hd ho
      obtain ⟨o, h5, h6⟩ := H 0 y o' rfl rfl x hxy
      refine ⟨o :: os, by simp [h1], ?_, ?_, ?_⟩
      · rintro (_ | n) d o2 hd ho
        · cases hd; cases ho; exact h5
        · exact h2 n d o2 hd ho
      · intro o2 ho
        rcases List.mem_cons.1 ho with rfl | ho
        · exact h6.calm
        · exact h3 o2 ho
      · exact (CandLe.andThen hk hxy h6).append h4
  | @drop y xs ys _ ih =>
    intro os' hl H
    cases os' with
    | nil => cases hl
    | cons o' os' =>
      obtain ⟨os, h1, h2, h3, h4⟩ := ih (os' := os') (by simpa using hl)
        fun n d' o' hd ho => H (n + 1) d' o' hd ho
      exact ⟨os, h1, h2, h3, h4.append_left _⟩

/-- Alternatives. -/
theorem FindLe.choice {r r' : Int} {q q' : Nat} {w : List String} {o1 o2 o1' o2' : Finding α}
    (hq : q = q') (h1 : FindLe A (some r) (some r') o1 o1') (h2 : FindLe A (some r) (some r') o2 o2')
    (hA : A → (∀ cs q w c, o1' = .repairs cs q w c → c = false) ∧ (∀ cs q w c, o2' = .repairs cs q w c → c = false))
    (hno : r = 0 → ∀ cs q w, o2 = .repairs cs q w false → ∀ c ∈ cs, c.auto = false)
    (hn1 : ∀ v j w, o1 ≠ .accepts v j w) (hn2 : ∀ v j w, o2 ≠ .accepts v j w) :
    FindLe A (some r) (some r') (Finding.choice q w o1 o2) (Finding.choice q' w o1' o2') := by
  subst hq
  have hfil : ∀ {cs cs' : List (Cand α)}, Among CandLe cs cs' →
      Among CandLe (cs.filter fun d => !d.auto) (cs'.filter fun d => !d.auto) := fun h =>
    h.filter fun x y hxy => by rw [CandLe.iff] at hxy; rw [hxy.2.2.1]
  have hrel : ∀ {cs cs' : List (Cand α)}, Among CandLe cs cs' →
      Among CandLe (cs.map (Cand.relabel w)) (cs'.map (Cand.relabel w)) := fun h =>
    h.map fun _ _ => CandLe.relabel
  have hkeep : ∀ {cs : List (Cand α)}, (∀ c ∈ cs, c.auto = false) → cs.filter (fun d => !d.auto) = cs := by
    intro cs h
    exact List.filter_eq_self.2 fun c hc => by simp [h c hc]
  cases o1 with
  | accepts v j w => exact absurd rfl (hn1 v j w)
  | raises e => exact h1.elim
  | rejects q1 w1 c1 =>
    cases o1' with
    | accepts => exact h1.elim
    | raises e => exact h1.elim
    | rejects q1' w1' c1' =>
      cases o2 with
      | accepts v j w => exact absurd rfl (hn2 v j w)
      | raises e => exact h2.elim
      | rejects q2 w2 c2 =>
        cases o2' with
        | accepts => exact h2.elim
        | raises e => exact h2.elim
        | rejects q2' w2' c2' => exact ⟨rfl, fun _ _ => ⟨rfl, rfl⟩⟩
        | repairs ds' q2' w2' c2' =>
          obtain ⟨ha, rfl, h⟩ := h2
          obtain rfl := (hA ha).2 _ _ _ _ rfl
          exact ⟨ha, rfl, h⟩
      | repairs ds q2 w2 c2 =>
        cases o2' with
        | repairs ds' q2' w2' c2' =>
          obtain ⟨rfl, h, hs⟩ := h2
          refine ⟨rfl, fun ht hc => ?_, hrel hs⟩
          subst hc
          obtain ⟨rfl, rfl⟩ := h ht rfl
          exact ⟨rfl, rfl⟩
        | _ => exact h2.elim
    | repairs cs' q1' w1' c1' =>
      obtain ⟨ha, rfl, h⟩ := h1
      obtain rfl := (hA ha).1 _ _ _ _ rfl
      have hr : r = 0 := by
        refine Classical.not_not.1 fun hr => h rfl ⟨by simpa using hr, by simp⟩
      cases o2 with
      | accepts v j w => exact absurd rfl (hn2 v j w)
      | raises e => exact h2.elim
      | rejects q2 w2 c2 =>
        cases o2' with
        | accepts => exact h2.elim
        | raises e => exact h2.elim
        | rejects q2' w2' c2' => exact ⟨ha, rfl, h⟩
        | repairs ds' q2' w2' c2' =>
          obtain ⟨-, rfl, -⟩ := h2
          obtain rfl := (hA ha).2 _ _ _ _ rfl
          exact ⟨ha, rfl, h⟩
      | repairs ds q2 w2 c2 =>
        cases o2' with
        | repairs ds' q2' w2' c2' =>
          obtain ⟨rfl, h3, hs⟩ := h2
          obtain rfl := (hA ha).2 _ _ _ _ rfl
          refine ⟨rfl, fun ht _ => absurd ht (h rfl), hrel ?_⟩
          have := hfil hs
          rw [hkeep (hno hr _ _ _ rfl)] at this
          exact this.append_left _
        | _ => exact h2.elim
  | repairs cs q1 w1 c1 =>
    cases o1' with
    | repairs cs' q1' w1' c1' =>
      obtain ⟨rfl, h, hs⟩ := h1
      cases o2 with
      | accepts v j w => exact absurd rfl (hn2 v j w)
      | raises e => exact h2.elim
      | rejects q2 w2 c2 =>
        cases o2' with
        | accepts => exact h2.elim
        | raises e => exact h2.elim
        | rejects q2' w2' c2' =>
          refine ⟨rfl, fun ht hc => ?_, hrel hs⟩
          subst hc
          obtain ⟨rfl, rfl⟩ := h ht rfl
          exact ⟨rfl, rfl⟩
        | repairs ds' q2' w2' c2' =>
          obtain ⟨ha, rfl, h3⟩ := h2
          obtain rfl := (hA ha).1 _ _ _ _ rfl
          obtain rfl := (hA ha).2 _ _ _ _ rfl
          exact ⟨rfl, fun ht _ => absurd ht (h3 rfl), hrel (hs.append_right _)⟩
      | repairs ds q2 w2 c2 =>
        cases o2' with
        | repairs ds' q2' w2' c2' =>
          obtain ⟨rfl, h3, hs'⟩ := h2
          refine ⟨rfl, fun ht hc => ?_, hrel (hs.append (hfil hs'))⟩
          rw [Bool.or_eq_false_iff] at hc
          obtain ⟨rfl, rfl⟩ := hc
          obtain ⟨rfl, rfl⟩ := h ht rfl
          exact ⟨rfl, rfl⟩
        | _ => exact h2.elim
    | _ => exact h1.elim

theorem Finding.choice_calm {q : Nat} {w : List String} {o1 o2 : Finding α}
    (h : (Finding.choice q w o1 o2).calm) : o1.calm ∧ o2.calm := by
  cases o1 <;> cases o2 <;> first | exact ⟨trivial, trivial⟩ | exact h.elim

end

/-! ### No automatic insertions without a budget -/

/-- Among candidates from the place where nothing has been consumed, none is automatic. -/
def Finding.noAuto : Finding α → Prop
  | .repairs cs _ _ false => ∀ c ∈ cs, c.auto = false
  | _ => True

theorem andThenAll_auto {k : Int} {merge : α → β → γ} {cs : List (Cand α)} {os : List (Finding β)}
    (h : ∀ c ∈ cs, c.auto = false) : ∀ c ∈ andThenAll k merge cs os, c.auto = false := by
  induction cs generalizing os with
  | nil => intro c hc; simp [andThenAll] at hc
  | cons d cs ih =>
    cases os with
    | nil => intro c hc; simp [andThenAll] at hc
    | cons o os =>
      intro c hc
      simp only [andThenAll, List.zipWith_cons_cons, List.flatten_cons, List.mem_append] at hc
      rcases hc with hc | hc
      · have hd := h d List.mem_cons_self
        cases o with
        | accepts v j w => cases List.mem_singleton.1 hc; exact hd
        | rejects => cases hc
        | repairs ds q w b =>
          obtain ⟨e, -, rfl⟩ := List.mem_map.1 hc
          exact hd
        | raises => cases hc
      · exact ih (fun c hc => h c (List.mem_cons_of_mem _ hc)) c hc

theorem mapM_auto {fn : α → Except Exn β} {cs : List (Cand α)} :
    ∀ {ds : List (Cand β)}, (cs.mapM fun c => (fn c.value).map fun v => c.withValue v) = .ok ds →
      (∀ c ∈ cs, c.auto = false) → ∀ c ∈ ds, c.auto = false := by
  induction cs with
  | nil => intro ds h _ c hc; cases h; cases hc
  | cons y ys ih =>
    intro ds h ha c hc
    rw [List.mapM_cons] at h
    cases hv : fn y.value with
    | error e => rw [hv] at h; cases h
    | ok v =>
      rw [hv] at h
      cases hds : ys.mapM fun c => (fn c.value).map fun v => c.withValue v with
      | error e => rw [hds] at h; cases h
      | ok es =>
        rw [hds] at h
        cases h
        rcases List.mem_cons.1 hc with rfl | hc
        · exact ha y List.mem_cons_self
        · exact ih hds (fun c hc => ha c (List.mem_cons_of_mem _ hc)) c hc

theorem Finding.noAuto_choice {q : Nat} {w : List String} {o1 o2 : Finding α} (h1 : o1.noAuto) (h2 : o2.noAuto) :
    (Finding.choice q w o1 o2).noAuto := by
  have hrel : ∀ {cs : List (Cand α)}, (∀ c ∈ cs, c.auto = false) →
      ∀ c ∈ cs.map (Cand.relabel w), c.auto = false := by
    intro cs h c hc
    obtain ⟨d, hd, rfl⟩ := List.mem_map.1 hc
    exact h d hd
  cases o1 with
  | raises => trivial
  | accepts v j w =>
    cases o2 with
    | repairs ds q2 w2 c2 => cases c2 <;> first | trivial | exact hrel h2
    | _ => trivial
  | rejects q1 w1 c1 =>
    cases o2 with
    | repairs ds q2 w2 c2 => cases c2 <;> first | trivial | exact hrel h2
    | _ => trivial
  | repairs cs q1 w1 c1 =>
    cases o2 with
    | raises => trivial
    | accepts v j w => cases c1 <;> first | trivial | exact hrel h1
    | rejects q2 w2 c2 => cases c1 <;> first | trivial | exact hrel h1
    | repairs ds q2 w2 c2 =>
      cases c1 <;> cases c2 <;> try trivial
      refine hrel fun c hc => ?_
      rcases List.mem_append.1 hc with hc | hc
      · exact h1 c hc
      · exact h2 c (List.mem_filter.1 hc).1

theorem Rec.noAuto [BEq τ] {env : Env τ ρ Γ} {s : List τ} {col : Nat → Nat → Prop} {k : Int} {p : P τ ρ Γ α}
    {m i : Nat} {b : Option Int} {o : Finding α} (h : Rec env s col k p m i b o) :
    b = none ∨ b = some 0 → o.noAuto := by
  have hz : ∀ {r : Int}, (some r : Option Int) = none ∨ some r = some 0 → r = 0 := by
    intro r h
    rcases h with h | h
    · cases h
    · cases h; rfl
  induction h with
  | eofSkip _ => intro _ c hc; cases List.mem_singleton.1 hc; rfl
  | satisfySkip _ _ _ _ => intro _ c hc; cases List.mem_singleton.1 hc; rfl
  | symSkip _ _ _ _ =>
    intro hb c hc
    obtain rfl := hz hb
    simp only [insertions, if_true, List.nil_append] at hc
    cases List.mem_singleton.1 hc; rfl
  | symNever _ =>
    intro hb c hc
    obtain rfl := hz hb
    simp [insertions] at hc
  | literalSkip _ _ _ =>
    intro hb c hc
    obtain rfl := hz hb
    simp only [insertions, if_true, List.nil_append] at hc
    cases List.mem_singleton.1 hc; rfl
  | literalNever _ =>
    intro hb c hc
    obtain rfl := hz hb
    simp [insertions] at hc
  | regexpSkip _ _ _ _ => intro _ c hc; cases List.mem_singleton.1 hc; rfl
  | @fmap α β p fn m i b o _ ih =>
    intro hb
    have := ih hb
    cases o with
    | accepts v j w => simp only [Finding.mapM]; split <;> trivial
    | rejects => trivial
    | raises => trivial
    | repairs cs q w c =>
      simp only [Finding.mapM]
      split
      · rename_i ds hds
        cases c with
        | true => trivial
        | false => exact mapM_auto hds this
      · trivial
  | @altFinal α p q m i b o _ hf _ =>
    intro _
    cases o with
    | repairs cs q w c => cases (show c = true from hf); trivial
    | _ => trivial
  | @altSecondFinal α p q m i b q1 w1 o _ _ hf _ _ =>
    intro _
    cases o with
    | repairs cs q w c => cases (show c = true from hf); trivial
    | _ => trivial
  | altRepair _ _ _ _ _ _ ih1 ih2 => exact fun hb => Finding.noAuto_choice (ih1 hb) (ih2 hb)
  | @bind α β p f m i b a j w o _ _ _ ih =>
    intro hb
    cases o with
    | repairs cs q w' c =>
      simp only [Finding.after]
      by_cases hij : i < j
      · simp only [hij, decide_true, Bool.or_true]; trivial
      · rw [if_neg hij] at ih
        have := ih hb
        cases c with
        | true => trivial
        | false =>
          simp only [hij, decide_false, Bool.or_false]
          intro d hd
          obtain ⟨e, he, rfl⟩ := List.mem_map.1 hd
          exact this e he
    | _ => trivial
  | @bindRepairs α β p f m i b cs q w c os _ _ _ _ ih _ =>
    intro hb
    have := ih hb
    cases c with
    | true => trivial
    | false => exact andThenAll_auto this
  | seq _ ih => exact ih
  | maybe _ ih => exact ih
  | @manyItem α p m i b v j w o _ _ _ _ ih =>
    intro _
    have := ih (.inl rfl)
    cases o with
    | repairs cs q w c =>
      cases c with
      | true => trivial
      | false =>
        intro d hd
        obtain ⟨e, he, rfl⟩ := List.mem_map.1 hd
        exact this e he
    | _ => trivial
  | @manyRepairs α p m i b cs q w c os _ _ _ _ ih _ =>
    intro _
    have := ih (.inl rfl)
    cases c with
    | true => trivial
    | false => exact andThenAll_auto this
  | @attempt α p m i o _ =>
    intro _
    cases o with
    | accepts => trivial
    | fails e => cases e <;> trivial
  | attemptRepair _ ih => exact ih
  | @label α p x m i b o _ ih =>
    intro hb
    have := ih hb
    cases o with
    | repairs cs q w c =>
      cases c with
      | true => trivial
      | false =>
        intro d hd
        obtain ⟨e, he, rfl⟩ := List.mem_map.1 hd
        exact this e he
    | _ => trivial
  | @recover α p m i b o _ ih =>
    intro hb
    cases o with
    | repairs cs q w c =>
      cases c with
      | true => trivial
      | false =>
        intro d hd
        obtain ⟨e, he, rfl⟩ := List.mem_map.1 hd
        rfl
    | _ => trivial
  | recoverWith _ ih => exact ih
  | recoverWithFnNo _ _ ih => exact ih
  | recoverWithFn _ hr _ _ _ => exact fun hb => absurd (hz hb) hr
  | block _ _ ih => exact ih
  | aligned _ _ ih => exact ih
  | indented _ _ _ ih => exact ih
  | ref _ _ ih => exact ih
  | _ => exact fun _ => trivial

/-! ### Alternatives that unexpectedly work count as stuck -/

def Finding.flat : Finding α → Finding α
  | .accepts _ _ _ => .rejects 0 [] false
  | o => o

theorem Finding.choice_flat {q : Nat} {w : List String} {o1 o2 : Finding α} :
    Finding.choice q w o1.flat o2.flat = Finding.choice q w o1 o2 := by
  cases o1 <;> cases o2 <;> rfl

theorem FindLe.flat {A : Prop} {b b' : Option Int} {o o' : Finding α} (h : FindLe A b b' o o') :
    FindLe A b b' o.flat o'.flat := by
  cases o <;> cases o' <;> first | exact h | exact h.elim | exact ⟨rfl, fun _ _ => ⟨rfl, rfl⟩⟩

theorem FindLe.choice' {A : Prop} {r r' : Int} {q : Nat} {w : List String} {o1 o2 o1' o2' : Finding α}
    (h1 : FindLe A (some r) (some r') o1 o1') (h2 : FindLe A (some r) (some r') o2 o2')
    (hA : A → (∀ cs q w c, o1' = .repairs cs q w c → c = false) ∧ (∀ cs q w c, o2' = .repairs cs q w c → c = false))
    (hno : r = 0 → o2.noAuto) :
    FindLe A (some r) (some r') (Finding.choice q w o1 o2) (Finding.choice q w o1' o2') := by
  rw [← Finding.choice_flat (o1 := o1), ← Finding.choice_flat (o1 := o1')]
  refine FindLe.choice rfl h1.flat h2.flat (fun ha => ⟨fun cs q w c h => ?_, fun cs q w c h => ?_⟩)
    (fun hr cs q w h => ?_) (fun v j w h => ?_) (fun v j w h => ?_)
  · refine (hA ha).1 cs q w c ?_
    cases o1' <;> first | exact h | cases h
  · refine (hA ha).2 cs q w c ?_
    cases o2' <;> first | exact h | cases h
  · have := hno hr
    cases o2 <;> first | cases h
    exact this
  · cases o1 <;> cases h
  · cases o2 <;> cases h

/-! ### The induction -/

section
variable [BEq τ] {env : Env τ ρ Γ} {s : List τ}

theorem Rec.stops (c : Nat → Nat) {k : Int} {p : P τ ρ Γ α} {m i : Nat} {b : Option Int} {o : Finding α}
    (hi : i ≤ s.length) (h : Rec env s (fun q x => x = c q) k p m i b o) :
    (∀ v j w, o = .accepts v j w → i ≤ j ∧ j ≤ s.length) ∧
      ∀ cs q w x, o = .repairs cs q w x → ∀ d ∈ cs, d.stop ≤ s.length := by
  have hcol : ∀ i k k', (colDisc c s).col i k → (colDisc c s).col i k' → k = k' :=
    fun _ _ _ h h' => h.trans h'.symm
  obtain ⟨n, h⟩ := rec_complete (colDisc c s) hcol (.inl trivial) h hi (.inl trivial)
  have hc : CtxOK (colDisc c s) { loc := ⟨i, 0, c i⟩, mark := m, getLocFn := (colDisc c s).g } i :=
    ⟨rfl, rfl⟩
  have := h n (Nat.le_refl _) _ hc rfl
  constructor
  · rintro v j w rfl
    obtain ⟨r, h1, rfl, rfl, rfl, -⟩ := this.inv_accepts
    have hf := frame_denote env n p s i _ k b (.ok r) hi h1
    exact ⟨hf.lo, hf.hi⟩
  · rintro cs q w x rfl d hd
    obtain ⟨l, hl, rfl⟩ := List.getElem_of_mem hd
    obtain ⟨-, -, -, -, -, -, -, hstop⟩ := this.candidates (frame_denote env n p) hi
    exact hstop l _ (List.getElem?_eq_getElem hl)

/-- The node is not `attempt` if `A`, and does not insert values of the user's unless `A`. -/
def P.budgetSafe (A : Prop) : {α : Type} → P τ ρ Γ α → Prop := fun p => (A → p.notAttempt) ∧ (A ∨ p.notInsert)

theorem FindLe.refl_plain {A : Prop} {o : Outcome α} (h : o.finding.calm) :
    FindLe A none none o.finding o.finding := by
  cases o with
  | accepts => exact ⟨rfl, rfl, rfl⟩
  | fails e =>
    cases e with
    | rejects => exact ⟨rfl, fun _ _ => ⟨rfl, rfl⟩⟩
    | raises => exact h.elim

theorem insertions_among {r r' : Int} {i : Nat} {v : α} {l : String} (h : Fewer r r') :
    Among CandLe (insertions r i v l) (insertions r' i v l) := by
  unfold insertions
  by_cases hr : r = 0
  · rw [if_pos hr]; exact .nil
  · rw [if_neg hr, if_neg (h.ne hr)]
    exact .take ⟨h.pred hr, rfl⟩ .nil

/-- Nothing was consumed. -/
def Finding.Idle (o : Finding α) : Prop := ∀ cs q w c, o = .repairs cs q w c → c = false

theorem FindLe.idle {A : Prop} {b b' : Option Int} {q : Nat} {w : List String} {o' : Finding α}
    (h : FindLe A b b' (.rejects q w false) o') : o'.Idle := by
  rintro cs q w c rfl
  exact h.2.1.symm

theorem Rec.budget (A : Prop) (c : Nat → Nat)
    (henv : ∀ x q, env x = some q → q.All (P.budgetSafe A)) {k k' : Int} (hk : Fewer k k')
    {p : P τ ρ Γ α} {m i : Nat} {b' : Option Int} {o' : Finding α}
    (h : Rec env s (fun q x => x = c q) k' p m i b' o') :
    i ≤ s.length → p.All (P.budgetSafe A) → o'.calm → ∀ b, BudgetLe A b b' →
      ∃ o, Rec env s (fun q x => x = c q) k p m i b o ∧ FindLe A b b' o o' := by
  have hnt : ∀ {r' : Int}, ¬ Tight none (some r') := fun h => by cases h.2 rfl
  induction h with
  | pure => exact fun _ _ _ b _ => ⟨_, .pure, rfl, rfl, rfl⟩
  | pureFn => exact fun _ _ _ b _ => ⟨_, .pureFn, rfl, rfl, rfl⟩
  | unexpected => exact fun _ _ _ b _ => ⟨_, .unexpected, rfl, fun _ _ => ⟨rfl, rfl⟩⟩
  | eof => exact fun _ _ _ b _ => ⟨_, .eof, rfl, rfl, rfl⟩
  | eofNot h =>
    intro _ _ _ b hb
    cases b with
    | some r => exact hb.elim
    | none => exact ⟨_, .eofNot h, rfl, fun _ _ => ⟨rfl, rfl⟩⟩
  | eofSkip h =>
    intro _ _ _ b hb
    cases b with
    | none => exact ⟨_, .eofNot h, hb, rfl, fun _ => hnt⟩
    | some r => exact ⟨_, .eofSkip h, rfl, fun _ _ => ⟨rfl, rfl⟩, .take ⟨hk, rfl⟩ .nil⟩
  | satisfy h1 h2 => exact fun _ _ _ b _ => ⟨_, .satisfy h1 h2, rfl, rfl, rfl⟩
  | satisfyNot h =>
    intro _ _ _ b hb
    cases b with
    | some r => exact hb.elim
    | none => exact ⟨_, .satisfyNot h, rfl, fun _ _ => ⟨rfl, rfl⟩⟩
  | satisfySkip h1 h2 h3 h4 =>
    intro _ _ _ b hb
    cases b with
    | none => exact ⟨_, .satisfyNot (h2 _ (Nat.le_refl _) h1), hb, rfl, fun _ => hnt⟩
    | some r => exact ⟨_, .satisfySkip h1 h2 h3 h4, rfl, fun _ _ => ⟨rfl, rfl⟩, .take ⟨hk, rfl⟩ .nil⟩
  | satisfyNever h =>
    intro _ _ _ b hb
    cases b with
    | none => exact ⟨_, .satisfyNot (h _ (Nat.le_refl _)), rfl, fun _ _ => ⟨rfl, rfl⟩⟩
    | some r => exact ⟨_, .satisfyNever h, rfl, fun _ _ => ⟨rfl, rfl⟩⟩
  | sym h1 h2 => exact fun _ _ _ b _ => ⟨_, .sym h1 h2, rfl, rfl, rfl⟩
  | symNot h =>
    intro _ _ _ b hb
    cases b with
    | some r => exact hb.elim
    | none => exact ⟨_, .symNot h, rfl, fun _ _ => ⟨rfl, rfl⟩⟩
  | symSkip h1 h2 h3 h4 =>
    intro _ _ _ b hb
    cases b with
    | none => exact ⟨_, .symNot (h2 _ (Nat.le_refl _) h1), hb, rfl, fun _ => hnt⟩
    | some r => exact ⟨_, .symSkip h1 h2 h3 h4, rfl, fun _ _ => ⟨rfl, rfl⟩,
        (insertions_among hb).append (.take ⟨hk, rfl⟩ .nil)⟩
  | symNever h =>
    intro _ _ _ b hb
    cases b with
    | none => exact ⟨_, .symNot (h _ (Nat.le_refl _)), hb, rfl, fun _ => hnt⟩
    | some r => exact ⟨_, .symNever h, rfl, fun _ _ => ⟨rfl, rfl⟩, insertions_among hb⟩
  | literal h => exact fun _ _ _ b _ => ⟨_, .literal h, rfl, rfl, rfl⟩
  | literalNot h =>
    intro _ _ _ b hb
    cases b with
    | some r => exact hb.elim
    | none => exact ⟨_, .literalNot h, rfl, fun _ _ => ⟨rfl, rfl⟩⟩
  | literalSkip h1 h2 h3 =>
    intro _ _ _ b hb
    cases b with
    | none => exact ⟨_, .literalNot (h2 _ (Nat.le_refl _) h1), hb, rfl, fun _ => hnt⟩
    | some r => exact ⟨_, .literalSkip h1 h2 h3, rfl, fun _ _ => ⟨rfl, rfl⟩,
        (insertions_among hb).append (.take ⟨hk, rfl⟩ .nil)⟩
  | literalNever h =>
    intro _ _ _ b hb
    cases b with
    | none => exact ⟨_, .literalNot (h _ (Nat.le_refl _)), hb, rfl, fun _ => hnt⟩
    | some r => exact ⟨_, .literalNever h, rfl, fun _ _ => ⟨rfl, rfl⟩, insertions_among hb⟩
  | regexp h => exact fun _ _ _ b _ => ⟨_, .regexp h, rfl, rfl, rfl⟩
  | regexpNot h =>
    intro _ _ _ b hb
    cases b with
    | some r => exact hb.elim
    | none => exact ⟨_, .regexpNot h, rfl, fun _ _ => ⟨rfl, rfl⟩⟩
  | regexpSkip h1 h2 h3 h4 =>
    intro _ _ _ b hb
    cases b with
    | none => exact ⟨_, .regexpNot (h3 _ (Nat.le_refl _) h1), hb, rfl, fun _ => hnt⟩
    | some r => exact ⟨_, .regexpSkip h1 h2 h3 h4, rfl, fun _ _ => ⟨rfl, rfl⟩, .take ⟨hk, rfl⟩ .nil⟩
  | regexpNever h1 h2 =>
    intro _ _ _ b hb
    cases b with
    | none => exact ⟨_, .regexpNot h1, rfl, fun _ _ => ⟨rfl, rfl⟩⟩
    | some r => exact ⟨_, .regexpNever h1 h2, rfl, fun _ _ => ⟨rfl, rfl⟩⟩
  | @fmap α β p fn m i b' o' _ ih =>
    intro hi ha hc b hb
    have hc' : o'.calm := by cases o' <;> trivial
    obtain ⟨o, h1, h2⟩ := ih hi ha.2 hc' b hb
    exact ⟨_, .fmap h1, h2.mapM hc⟩
  | altFirst _ ih =>
    intro hi ha _ b _
    obtain ⟨o, h1, h2⟩ := ih hi ha.2.1 trivial none trivial
    cases h2.accepts_inv
    exact ⟨_, .altFirst h1, rfl, rfl, rfl⟩
  | altFinal _ hf ih =>
    intro hi ha hc b _
    obtain ⟨o, h1, h2⟩ := ih hi ha.2.1 hc none trivial
    exact ⟨_, .altFinal h1 (h2.final hf), h2.weaken⟩
  | altSecond _ _ ih1 ih2 =>
    intro hi ha _ b _
    obtain ⟨o1, h1, h2⟩ := ih1 hi ha.2.1 trivial none trivial
    obtain ⟨o2, h3, h4⟩ := ih2 hi ha.2.2 trivial none trivial
    cases h2.rejects_inv
    cases h4.accepts_inv
    exact ⟨_, .altSecond h1 h3, rfl, rfl, rfl⟩
  | altSecondFinal _ _ hf ih1 ih2 =>
    intro hi ha hc b _
    obtain ⟨o1, h1, h2⟩ := ih1 hi ha.2.1 trivial none trivial
    obtain ⟨o2, h3, h4⟩ := ih2 hi ha.2.2 hc none trivial
    cases h2.rejects_inv
    exact ⟨_, .altSecondFinal h1 h3 (h4.final hf), h4.weaken⟩
  | altNeither _ _ ih1 ih2 =>
    intro hi ha _ b hb
    cases b with
    | some r => exact hb.elim
    | none =>
      obtain ⟨o1, h1, h2⟩ := ih1 hi ha.2.1 trivial none trivial
      obtain ⟨o2, h3, h4⟩ := ih2 hi ha.2.2 trivial none trivial
      cases h2.rejects_inv
      cases h4.rejects_inv
      exact ⟨_, .altNeither h1 h3, rfl, fun _ _ => ⟨rfl, rfl⟩⟩
  | @altRepair α p q m i r' q1 w1 q2 w2 o1' o2' _ _ _ _ ih1 ih2 ih3 ih4 =>
    intro hi ha hc b hb
    obtain ⟨hc1, hc2⟩ := Finding.choice_calm hc
    obtain ⟨o1, h1, h2⟩ := ih1 hi ha.2.1 trivial none trivial
    obtain ⟨o2, h3, h4⟩ := ih2 hi ha.2.2 trivial none trivial
    cases h2.rejects_inv
    cases h4.rejects_inv
    have hidle : A → o1'.Idle ∧ o2'.Idle := by
      intro hA
      obtain ⟨o1, h5, h6⟩ := ih3 hi ha.2.1 hc1 none hA
      obtain ⟨o2, h7, h8⟩ := ih4 hi ha.2.2 hc2 none hA
      cases C60_functional c hi h1 h5
      cases C60_functional c hi h3 h7
      exact ⟨h6.idle, h8.idle⟩
    cases b with
    | none =>
      have hA : A := hb
      obtain ⟨g1, g2⟩ := hidle hA
      refine ⟨_, .altNeither h1 h3, ?_⟩
      cases o1' with
      | raises => exact hc1.elim
      | accepts v j w =>
        cases o2' with
        | raises => exact hc2.elim
        | accepts => exact ⟨rfl, fun ht => absurd ht hnt⟩
        | rejects => exact ⟨rfl, fun ht => absurd ht hnt⟩
        | repairs ds q w x => cases g2 _ _ _ _ rfl; exact ⟨hA, rfl, fun _ => hnt⟩
      | rejects q w x =>
        cases o2' with
        | raises => exact hc2.elim
        | accepts => exact ⟨rfl, fun ht => absurd ht hnt⟩
        | rejects => exact ⟨rfl, fun ht => absurd ht hnt⟩
        | repairs ds q w x => cases g2 _ _ _ _ rfl; exact ⟨hA, rfl, fun _ => hnt⟩
      | repairs cs q w x =>
        cases g1 _ _ _ _ rfl
        cases o2' with
        | raises => exact hc2.elim
        | accepts => exact ⟨hA, rfl, fun _ => hnt⟩
        | rejects => exact ⟨hA, rfl, fun _ => hnt⟩
        | repairs ds q w x => cases g2 _ _ _ _ rfl; exact ⟨hA, rfl, fun _ => hnt⟩
    | some r =>
      obtain ⟨o1, h5, h6⟩ := ih3 hi ha.2.1 hc1 (some r) hb
      obtain ⟨o2, h7, h8⟩ := ih4 hi ha.2.2 hc2 (some r) hb
      exact ⟨_, .altRepair h1 h3 h5 h7, h6.choice' h8 hidle fun hr => h7.noAuto (.inr (by rw [hr]))⟩
  | bindRejects _ ih =>
    intro hi ha _ b hb
    obtain ⟨o, h1, h2⟩ := ih hi ha.2.1 trivial b hb
    cases o with
    | rejects q w x => exact ⟨_, .bindRejects h1, h2⟩
    | _ => exact h2.elim
  | @bind α β p f m i b' a j w o' h0 _ ih1 ih2 =>
    intro hi ha hc b hb
    have hc' : o'.calm := by cases o' <;> trivial
    obtain ⟨o1, h1, h2⟩ := ih1 hi ha.2.1 trivial b hb
    cases h2.accepts_inv
    have hj := (h0.stops c hi).1 _ _ _ rfl
    obtain ⟨o2, h3, h4⟩ := ih2 hj.2 (ha.2.2 a) hc' (if i < j then some k else b) (by
      split
      · exact hk
      · exact hb)
    exact ⟨_, .bind h1 h3, h4.after⟩
  | @bindRepairs α β p f m i b' cs' q' w' x' os' h0 hl _ hcs ih1 ih2 =>
    intro hi ha _ b hb
    obtain ⟨o1, h1, h2⟩ := ih1 hi ha.2.1 trivial b hb
    have hst := (h0.stops c hi).2 _ _ _ _ rfl
    cases o1 with
    | accepts => exact h2.elim
    | raises => exact h2.elim
    | rejects q w x => exact ⟨_, .bindRejects h1, h2⟩
    | repairs cs q w x =>
      obtain ⟨h3, h4, h5⟩ := h2
      obtain ⟨os, h6, h7, h8, h9⟩ := among_andThenAll (A := A)
        (X := fun d o => Rec env s (fun q x => x = c q) k (f d.value) m d.stop (some d.left) o)
        (B := fun d => some d.left) (B' := fun d => some d.left)
        (merge := fun (_ : α) (v : β) => v) hk h5 hl
        (fun n d' o' hd ho d hdd => by
          have hdd' := CandLe.iff.1 hdd
          obtain ⟨o, h6, h7⟩ := ih2 n d' o' hd ho (hst d' (List.mem_of_getElem? hd)) (ha.2.2 _)
            (hcs o' (List.mem_of_getElem? ho)) (some d.left) hdd.1
          exact ⟨o, by rw [hdd'.2.2.2.2.1, hdd'.2.2.2.2.2.1]; exact h6, h7⟩)
      exact ⟨_, .bindRepairs h1 h6 h7 h8, h3, h4, h9⟩
  | seq _ ih =>
    intro hi ha hc b hb
    obtain ⟨o, h1, h2⟩ := ih hi ⟨⟨fun _ => trivial, .inr trivial⟩, ha.2.1, fun _ =>
      ⟨⟨fun _ => trivial, .inr trivial⟩, ha.2.2⟩⟩ hc b hb
    exact ⟨_, .seq h1, h2⟩
  | maybe _ ih =>
    intro hi ha hc b hb
    obtain ⟨o, h1, h2⟩ := ih hi ⟨⟨fun _ => trivial, .inr trivial⟩,
      ⟨⟨fun _ => trivial, .inr trivial⟩, ha.2⟩, ⟨fun _ => trivial, .inr trivial⟩⟩ hc b hb
    exact ⟨_, .maybe h1, h2⟩
  | @manyItem α p m i b' v j w o' h0 hij _ ih1 ih2 =>
    intro hi ha hc b hb
    have hc' : o'.calm := by cases o' <;> trivial
    obtain ⟨o1, h1, h2⟩ := ih1 hi ha.2 trivial none trivial
    cases h2.accepts_inv
    have hj := (h0.stops c hi).1 _ _ _ rfl
    obtain ⟨o2, h3, h4⟩ := ih2 hj.2 ha hc' none trivial
    exact ⟨_, .manyItem h1 hij h3, h4.map.weaken⟩
  | manyEnd _ ih =>
    intro hi ha _ b hb
    obtain ⟨o1, h1, h2⟩ := ih hi ha.2 trivial none trivial
    cases h2.rejects_inv
    exact ⟨_, .manyEnd h1, rfl, rfl, rfl⟩
  | manyRejects _ ih =>
    intro hi ha _ b hb
    obtain ⟨o, h1, h2⟩ := ih hi ha.2 trivial none trivial
    cases o with
    | rejects q w x =>
      obtain ⟨rfl, h2⟩ := h2
      exact ⟨_, .manyRejects h1, rfl, fun _ hx => by cases hx⟩
    | _ => exact h2.elim
  | @manyRepairs α p m i b' cs' q' w' x' os' h0 hl _ hcs ih1 ih2 =>
    intro hi ha _ b hb
    obtain ⟨o1, h1, h2⟩ := ih1 hi ha.2 trivial none trivial
    have hst := (h0.stops c hi).2 _ _ _ _ rfl
    cases o1 with
    | accepts => exact h2.elim
    | raises => exact h2.elim
    | rejects q w x =>
      obtain ⟨hA, rfl, h3⟩ := h2
      cases x with
      | false => exact absurd tight_none (h3 rfl)
      | true => exact ⟨_, .manyRejects h1, hA, rfl, fun hx => by cases hx⟩
    | repairs cs q w x =>
      obtain ⟨h3, h4, h5⟩ := h2
      obtain ⟨os, h6, h7, h8, h9⟩ := among_andThenAll (A := A)
        (X := fun d o => Rec env s (fun q x => x = c q) k (.many p) m d.stop none o)
        (B := fun _ => none) (B' := fun _ => none)
        (merge := List.cons) hk h5 hl
        (fun n d' o' hd ho d hdd => by
          have hdd' := CandLe.iff.1 hdd
          obtain ⟨o, h6, h7⟩ := ih2 n d' o' hd ho (hst d' (List.mem_of_getElem? hd)) ha
            (hcs o' (List.mem_of_getElem? ho)) none trivial
          exact ⟨o, by rw [hdd'.2.2.2.2.2.1]; exact h6, h7⟩)
      exact ⟨_, .manyRepairs h1 h6 h7 h8, h3, fun _ => h4 tight_none, h9⟩
  | attempt h =>
    intro hi ha hc b hb
    cases b with
    | some r => exact hb.elim
    | none => exact ⟨_, .attempt h, FindLe.refl_plain hc⟩
  | attemptRepair _ ih =>
    intro hi ha hc b hb
    cases b with
    | none => exact (ha.1.1 hb).elim
    | some r =>
      obtain ⟨o, h1, h2⟩ := ih hi ha.2 hc (some r) hb
      exact ⟨_, .attemptRepair h1, h2⟩
  | @label α p x m i b' o' _ ih =>
    intro hi ha hc b hb
    have hc' : o'.calm := by cases o' <;> trivial
    obtain ⟨o, h1, h2⟩ := ih hi ha.2 hc' b hb
    exact ⟨_, .label h1, h2.relabel⟩
  | @recover α p m i b' o' _ ih =>
    intro hi ha hc b hb
    have hc' : o'.calm := by cases o' <;> trivial
    obtain ⟨o, h1, h2⟩ := ih hi ha.2 hc' b hb
    exact ⟨_, .recover h1, h2.promoted⟩
  | recoverWith _ ih =>
    intro hi ha hc b hb
    obtain ⟨o, h1, h2⟩ := ih hi ⟨⟨fun _ => trivial, ha.1.2⟩, ha.2⟩ hc b hb
    exact ⟨_, .recoverWith h1, h2⟩
  | @recoverWithFnNo α p fn lbl m i b' o' _ hcond ih =>
    intro hi ha hc b hb
    obtain ⟨o, h1, h2⟩ := ih hi ha.2 hc b hb
    refine ⟨_, .recoverWithFnNo h1 ?_, h2⟩
    rcases hcond with rfl | rfl | hg
    · cases b with
      | none => exact .inl rfl
      | some r => exact hb.elim
    · cases b with
      | none => exact .inl rfl
      | some r => rw [Fewer.zero hb]; exact .inr (.inl rfl)
    · exact .inr (.inr (h2.gaveUp hg))
  | @recoverWithFn α p fn lbl m i r' o' x _ hr' hg hx ih =>
    intro hi ha hc b hb
    have hA : A := ha.1.2.elim id fun h => h.elim
    have hc' : o'.calm := by cases o' <;> trivial
    obtain ⟨o, h1, h2⟩ := ih hi ha.2 hc' b hb
    by_cases hz : b = none ∨ b = some 0
    · refine ⟨_, .recoverWithFnNo h1 (hz.imp_right .inl), ?_⟩
      have hnt' : ¬ Tight b (some r') := by
        rcases hz with rfl | rfl
        · exact hnt
        · exact fun h => h.1 rfl
      cases o' with
      | accepts => exact absurd rfl hg
      | raises => exact absurd rfl hg
      | rejects q' w' x' =>
        cases x' with
        | true => exact absurd rfl hg
        | false =>
          cases o with
          | rejects q w x => obtain ⟨rfl, -⟩ := h2; exact ⟨hA, rfl, fun _ => hnt'⟩
          | _ => exact h2.elim
      | repairs cs' q' w' x' =>
        cases x' with
        | true => exact absurd rfl hg
        | false =>
          cases o with
          | rejects q w x => obtain ⟨-, rfl, -⟩ := h2; exact ⟨hA, rfl, fun _ => hnt'⟩
          | repairs cs q w x =>
            obtain ⟨rfl, -, h2⟩ := h2
            exact ⟨rfl, fun ht => absurd ht hnt', .drop h2⟩
          | _ => exact h2.elim
    · cases b with
      | none => exact absurd (.inl rfl) hz
      | some r =>
        have hr : r ≠ 0 := fun h => hz (.inr (by rw [h]))
        have ht : Tight (some r) (some r') := ⟨fun h => hz (.inr h), fun h => by cases h⟩
        cases o' with
        | accepts => exact absurd rfl hg
        | raises => exact absurd rfl hg
        | rejects q' w' x' =>
          cases x' with
          | true => exact absurd rfl hg
          | false =>
            cases o with
            | rejects q w x =>
              obtain ⟨rfl, h2⟩ := h2
              obtain ⟨rfl, rfl⟩ := h2 ht rfl
              exact ⟨_, .recoverWithFn h1 hr (by simp [Finding.gaveUp]) hx, rfl, fun _ _ => ⟨rfl, rfl⟩,
                .take ⟨Fewer.pred hb hr, rfl⟩ .nil⟩
            | _ => exact h2.elim
        | repairs cs' q' w' x' =>
          cases x' with
          | true => exact absurd rfl hg
          | false =>
            cases o with
            | rejects q w x => obtain ⟨-, rfl, h2⟩ := h2; exact absurd ht (h2 rfl)
            | repairs cs q w x =>
              obtain ⟨rfl, h3, h2⟩ := h2
              obtain ⟨rfl, rfl⟩ := h3 ht rfl
              exact ⟨_, .recoverWithFn h1 hr (by simp [Finding.gaveUp]) hx, rfl, fun _ _ => ⟨rfl, rfl⟩,
                .take ⟨Fewer.pred hb hr, rfl⟩ h2⟩
            | _ => exact h2.elim
  | block h0 _ ih =>
    intro hi ha hc b hb
    obtain ⟨o, h1, h2⟩ := ih hi ha.2 hc b hb
    exact ⟨_, .block h0 h1, h2⟩
  | aligned h0 _ ih =>
    intro hi ha hc b hb
    obtain ⟨o, h1, h2⟩ := ih hi ha.2 hc b hb
    exact ⟨_, .aligned h0 h1, h2⟩
  | alignedNot h1 h2 => exact fun _ _ _ b _ => ⟨_, .alignedNot h1 h2, rfl, fun _ _ => ⟨rfl, rfl⟩⟩
  | indented h0 h0' _ ih =>
    intro hi ha hc b hb
    obtain ⟨o, h1, h2⟩ := ih hi ha.2 hc b hb
    exact ⟨_, .indented h0 h0' h1, h2⟩
  | indentedNot h1 h2 => exact fun _ _ _ b _ => ⟨_, .indentedNot h1 h2, rfl, fun _ _ => ⟨rfl, rfl⟩⟩
  | ref h0 _ ih =>
    intro hi ha hc b hb
    obtain ⟨o, h1, h2⟩ := ih hi (henv _ _ h0) hc b hb
    exact ⟨_, .ref h0 h1, h2⟩
  | pureFnRaises => exact fun _ _ hc => hc.elim
  | satisfyRaises _ _ => exact fun _ _ hc => hc.elim
  | satisfySkipRaises _ _ _ _ => exact fun _ _ hc => hc.elim
  | regexpRaises _ => exact fun _ _ hc => hc.elim
  | regexpSkipRaises _ _ _ _ => exact fun _ _ hc => hc.elim
  | altRepairRaises => exact fun _ _ hc => hc.elim
  | bindRaises => exact fun _ _ hc => hc.elim
  | bindRepairsRaises => exact fun _ _ hc => hc.elim
  | manyRaises => exact fun _ _ hc => hc.elim
  | manyEmpty => exact fun _ _ hc => hc.elim
  | manyRepairsRaises => exact fun _ _ hc => hc.elim
  | recoverWithFnRaises => exact fun _ _ hc => hc.elim
  | refUndefined => exact fun _ _ hc => hc.elim

end

end Reparsec
