import Verif.Spec.Grammar
import Verif.Lemmas.Frame

/-!
# Facts about derivations and edits
-/

namespace Reparsec

variable {τ ρ : Type} {Γ : ρ → Type} {α β γ : Type}

theorem InOrder.le {i j : Nat} {es : List Edit} (h : InOrder i es j) : i ≤ j := by
  induction es generalizing i with
  | nil => exact h
  | cons e es ih => have h1 := ih h.2; have h2 := h.1; omega

theorem InOrder.mono {i i' j : Nat} {es : List Edit} (h : i' ≤ i) (ho : InOrder i es j) :
    InOrder i' es j := by
  cases es with
  | nil => exact Nat.le_trans h ho
  | cons e es => exact ⟨Nat.le_trans h ho.1, ho.2⟩

theorem InOrder.append {i j k : Nat} {es es' : List Edit} (h : InOrder i es j)
    (h' : InOrder j es' k) : InOrder i (es ++ es') k := by
  induction es generalizing i with
  | nil =>
    cases es' with
    | nil => have h1 : i ≤ j := h; have h2 : j ≤ k := h'; show i ≤ k; omega
    | cons e es' =>
      have h1 : i ≤ j := h
      exact ⟨Nat.le_trans h1 h'.1, h'.2⟩
  | cons e es ih => exact ⟨h.1, ih h.2⟩

theorem InOrder.single {i j : Nat} {op : RepairOp} (h : i + op.width ≤ j) :
    InOrder i [⟨i, op⟩] j := ⟨Nat.le_refl _, h⟩

@[simp] theorem edits_nil : edits [] = [] := rfl

@[simp] theorem edits_append (a b : List Step) : edits (a ++ b) = edits a ++ edits b := by
  simp [edits]

@[simp] theorem edits_asked (es : List Step) : edits (es.map Step.asked) = edits es := by
  simp [edits, Step.asked]

@[simp] theorem edits_eq_nil {es : List Step} : edits es = [] ↔ es = [] := by simp [edits]

@[simp] theorem edits_skip (i n : Nat) : edits [.skip i n] = [⟨i, .skip n⟩] := rfl
@[simp] theorem edits_auto (i : Nat) (l : String) : edits [.autoInsert i l] = [⟨i, .insert l⟩] := rfl
@[simp] theorem edits_user (i : Nat) (l : String) : edits [.userInsert i l] = [⟨i, .insert l⟩] := rfl

@[simp] theorem startsAuto_append {a b : List Step} (h : a ≠ []) :
    startsAuto (a ++ b) = startsAuto a := by
  cases a with
  | nil => exact absurd rfl h
  | cons => rfl

@[simp] theorem startsAuto_asked (es : List Step) : startsAuto (es.map Step.asked) = false := by
  cases es <;> rfl

theorem der_inOrder [BEq τ] {env : Env τ ρ Γ} {s : List τ} {col} {p : P τ ρ Γ α} {m i es v j}
    (h : Der env s col p m i es v j) (hi : i ≤ s.length) :
    InOrder i (edits es) j ∧ j ≤ s.length := by
  induction h with
  | pure | pureFn | maybeNone | manyNil => exact ⟨Nat.le_refl _, hi⟩
  | eof => exact ⟨Nat.le_refl _, Nat.le_refl _⟩
  | eofSkip => exact ⟨InOrder.single (by simp only [RepairOp.width]; omega), Nat.le_refl _⟩
  | satisfy h _ | sym h _ =>
    have := (List.getElem?_eq_some_iff.1 h).1
    exact ⟨Nat.le_succ _, this⟩
  | satisfySkip h1 h _ | symSkip h1 h _ =>
    have := (List.getElem?_eq_some_iff.1 h).1
    exact ⟨InOrder.single (by simp only [RepairOp.width]; omega), this⟩
  | symInsert | literalInsert | recoverWithInsert | recoverWithFnInsert =>
    exact ⟨InOrder.single (by simp [RepairOp.width]), hi⟩
  | literal hh => next h _ _ => 
    have := startsWith_le h hh
    exact ⟨Nat.le_add_right _ _, this⟩
  | literalSkip h1 hh => next h _ _ _ => 
    have := startsWith_le h hh
    exact ⟨InOrder.single (by simp only [RepairOp.width]; omega), this⟩
  | @regexp _ mt _ _ _ _ h => exact mt.bounds _ _ _ _ hi h
  | @regexpSkip _ mt _ _ _ _ _ h1 h2 h =>
    have := mt.bounds _ _ _ _ (Nat.le_of_lt h2) h
    exact ⟨InOrder.single (by simp only [RepairOp.width]; omega), this.2⟩
  | fmap _ _ ih | altL _ ih | altR _ ih | maybeSome _ ih | attempt _ ih | label _ ih
  | recoverWith _ ih | recoverWithFn _ ih | block _ _ ih | aligned _ _ ih
  | indented _ _ _ ih | ref _ _ ih => exact ih hi
  | recover _ ih => rw [edits_asked]; exact ih hi
  | bind _ _ ih1 ih2 | seqWith _ _ ih1 ih2 | manyCons _ _ ih1 ih2 =>
    have h1 := ih1 hi
    have h2 := ih2 h1.2
    rw [edits_append]
    exact ⟨h1.1.append h2.1, h2.2⟩

theorem insertsAt_append (q : Nat) (es es' : List Edit) :
    insertsAt q (es ++ es') = insertsAt q es + insertsAt q es' := by
  simp [insertsAt]

@[simp] theorem insertsAt_nil (q : Nat) : insertsAt q [] = 0 := rfl

@[simp] theorem insertsAt_skip (q i n : Nat) : insertsAt q [⟨i, .skip n⟩] = 0 := by
  simp [insertsAt]

theorem insertsAt_insert (q i : Nat) (l : String) :
    insertsAt q [⟨i, .insert l⟩] = if i = q then 1 else 0 := by
  by_cases h : i = q <;> simp [insertsAt, h]

theorem insertsAt_cons (q : Nat) (e : Edit) (es : List Edit) :
    insertsAt q (e :: es) = insertsAt q [e] + insertsAt q es := insertsAt_append q [e] es

theorem insertsAt_single_ne {q : Nat} {e : Edit} (h : e.pos ≠ q) : insertsAt q [e] = 0 := by
  obtain ⟨p, op⟩ := e
  cases op with
  | skip => simp
  | insert l => rw [insertsAt_insert]; simp at h; simp [h]

theorem InOrder.insertsAt_lt {i j q : Nat} {es : List Edit} (h : InOrder i es j) (hq : q < i) :
    insertsAt q es = 0 := by
  induction es generalizing i with
  | nil => rfl
  | cons e es ih =>
    have h1 := h.1
    rw [insertsAt_cons, ih h.2 (by omega), insertsAt_single_ne (by omega)]

theorem InOrder.insertsAt_gt {i j q : Nat} {es : List Edit} (h : InOrder i es j) (hq : j < q) :
    insertsAt q es = 0 := by
  induction es generalizing i with
  | nil => rfl
  | cons e es ih =>
    have h1 := InOrder.le h.2
    rw [insertsAt_cons, ih h.2, insertsAt_single_ne (by omega)]

theorem Der.toSeqWith [BEq τ] {env : Env τ ρ Γ} {s : List τ} {col} {p : P τ ρ Γ α}
    {q : P τ ρ Γ β} {merge : α → β → γ} {m i es v j}
    (h : Der env s col (.bind p fun a => .fmap q fun b => .ok (merge a b)) m i es v j) :
    Der env s col (.seqWith p q merge) m i es v j := by
  cases h with
  | bind h1 h2 =>
    cases h2 with
    | fmap h2 h3 => cases h3; exact .seqWith h1 h2

theorem Der.inv_alt [BEq τ] {env : Env τ ρ Γ} {s : List τ} {col} {p q : P τ ρ Γ α} {m i es v j}
    (h : Der env s col (.alt p q) m i es v j) :
    Der env s col p m i es v j ∨ Der env s col q m i es v j := by
  cases h with
  | altL h => exact .inl h
  | altR h => exact .inr h

theorem Der.inv_fmap [BEq τ] {env : Env τ ρ Γ} {s : List τ} {col} {p : P τ ρ Γ α}
    {fn : α → Except Exn β} {m i es v j} (h : Der env s col (.fmap p fn) m i es v j) :
    ∃ a, Der env s col p m i es a j ∧ fn a = .ok v := by
  cases h with
  | fmap h h' => exact ⟨_, h, h'⟩

theorem Der.inv_pure [BEq τ] {env : Env τ ρ Γ} {s : List τ} {col} {x : α} {m i es v j}
    (h : Der env s col (.pure x) m i es v j) : es = [] ∧ v = x ∧ j = i := by
  cases h; exact ⟨rfl, rfl, rfl⟩

theorem Der.toMaybe [BEq τ] {env : Env τ ρ Γ} {s : List τ} {col} {p : P τ ρ Γ α} {m i es v j}
    (h : Der env s col (.alt (.fmap p fun a => .ok (some a)) (.pure none)) m i es v j) :
    Der env s col (.maybe p) m i es v j := by
  rcases h.inv_alt with h | h
  · obtain ⟨a, h1, h2⟩ := h.inv_fmap
    cases h2; exact .maybeSome h1
  · obtain ⟨rfl, rfl, rfl⟩ := h.inv_pure; exact .maybeNone

theorem stuck_le [BEq τ] {env : Env τ ρ Γ} {s : List τ} {col} {p : P τ ρ Γ α} {m i q}
    (h : Stuck env s col p m i q) : i ≤ s.length → i ≤ q ∧ q ≤ s.length := by
  induction h <;> intro hi
  case bindR hd _ ih =>
    have := der_inOrder hd hi
    have h1 := this.1.le
    have := ih this.2; omega
  case seqR hd _ ih =>
    have := der_inOrder hd hi
    have h1 := this.1.le
    have := ih this.2; omega
  case manyLater hd _ ih =>
    have := der_inOrder hd hi
    have h1 := this.1.le
    have := ih this.2; omega
  all_goals first | exact ⟨Nat.le_refl _, hi⟩ | (rename_i ih; exact ih hi)

theorem Stuck.inv_fmap [BEq τ] {env : Env τ ρ Γ} {s : List τ} {col} {p : P τ ρ Γ α}
    {fn : α → Except Exn β} {m i q} (h : Stuck env s col (.fmap p fn) m i q) :
    Stuck env s col p m i q := by
  cases h with
  | fmap h => exact h

theorem Stuck.inv_alt [BEq τ] {env : Env τ ρ Γ} {s : List τ} {col} {p p' : P τ ρ Γ α} {m i q}
    (h : Stuck env s col (.alt p p') m i q) :
    Stuck env s col p m i q ∨ Stuck env s col p' m i q := by
  cases h with
  | altL h => exact .inl h
  | altR h => exact .inr h

theorem Stuck.inv_pure [BEq τ] {env : Env τ ρ Γ} {s : List τ} {col} {x : α} {m i q}
    (h : Stuck env s col (.pure x) m i q) : False := by
  cases h

theorem Stuck.toSeqWith [BEq τ] {env : Env τ ρ Γ} {s : List τ} {col} {p : P τ ρ Γ α}
    {p' : P τ ρ Γ β} {merge : α → β → γ} {m i q}
    (h : Stuck env s col (.bind p fun a => .fmap p' fun b => .ok (merge a b)) m i q) :
    Stuck env s col (.seqWith p p' merge) m i q := by
  cases h with
  | bindL h => exact .seqL h
  | bindR h1 h2 => exact .seqR h1 h2.inv_fmap

theorem Stuck.toMaybe [BEq τ] {env : Env τ ρ Γ} {s : List τ} {col} {p : P τ ρ Γ α} {m i q}
    (h : Stuck env s col (.alt (.fmap p fun a => .ok (some a)) (.pure none)) m i q) :
    Stuck env s col (.maybe p) m i q := by
  rcases h.inv_alt with h | h
  · exact .maybe h.inv_fmap
  · exact h.inv_pure.elim

theorem Stuck.inv_recoverWithFn [BEq τ] {env : Env τ ρ Γ} {s : List τ} {col} {p : P τ ρ Γ α}
    {fn : List τ → Nat → Except Exn α} {lbl : α → String} {m i q}
    (h : Stuck env s col (.recoverWithFn p fn lbl) m i q) :
    Stuck env s col p m i q ∨ (q = i ∧ ∃ q', Stuck env s col p m i q') := by
  cases h with
  | recoverWithFn h => exact .inl h
  | recoverWithFnHere h => exact .inr ⟨rfl, _, h⟩

end Reparsec
