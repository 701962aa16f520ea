import Verif.Lemmas.GrammarLemmas

/-!
# From derivations with edits to words
-/

namespace Reparsec

variable {τ ρ : Type} {Γ : ρ → Type} {α β γ : Type}

theorem slice_self (s : List τ) (i : Nat) : slice s i i = [] := by
  simp [slice]

theorem slice_append (s : List τ) {i j k : Nat} (h : i ≤ j) (h' : j ≤ k) :
    slice s i j ++ slice s j k = slice s i k := by
  apply List.ext_getElem?
  intro n
  simp only [slice, List.getElem?_append, List.getElem?_drop, List.getElem?_take,
    List.length_drop, List.length_take]
  by_cases hn : n < min j s.length - i
  · rw [if_pos hn, if_pos (by omega), if_pos (by omega)]
  · rw [if_neg hn]
    by_cases hs : s.length ≤ i + n
    · simp only [List.getElem?_eq_none hs, ite_self]
      rw [List.getElem?_eq_none (by omega)]
      simp
    · rw [show j + (n - (min j s.length - i)) = i + n by omega]

theorem slice_one {s : List τ} {i : Nat} {t : τ} (h : s[i]? = some t) :
    slice s i (i + 1) = [t] := by
  obtain ⟨hlt, he⟩ := List.getElem?_eq_some_iff.1 h
  unfold slice
  rw [List.take_succ_eq_append_getElem hlt, he, List.drop_append]
  simp [Nat.min_eq_left (Nat.le_of_lt hlt)]

theorem slice_prefix [BEq τ] : ∀ {x s : List τ} {i : Nat}, x.isPrefixOf (s.drop i) = true →
    (x == slice s i (i + x.length)) = true := by
  have key : ∀ (x t : List τ), x.isPrefixOf t = true → (x == t.take x.length) = true := by
    intro x
    induction x with
    | nil => intro t _; rfl
    | cons a x ih =>
      intro t h
      cases t with
      | nil => simp at h
      | cons b t =>
        simp only [List.isPrefixOf_cons_cons, Bool.and_eq_true] at h
        simp only [List.length_cons, List.take_succ_cons, List.cons_beq_cons, Bool.and_eq_true]
        exact ⟨h.1, ih t h.2⟩
  intro x s i h
  have := key x _ h
  rwa [show slice s i (i + x.length) = (s.drop i).take x.length from by
    unfold slice; rw [List.drop_take, Nat.add_sub_cancel_left]]

theorem edited_append (tok : String → List τ) (s : List τ) {i j k : Nat} {es es' : List Edit}
    (h : InOrder i es j) (h' : InOrder j es' k) :
    edited tok s i (es ++ es') k = edited tok s i es j ++ edited tok s j es' k := by
  induction es generalizing i with
  | nil =>
    have hij : i ≤ j := h
    cases es' with
    | nil =>
      have hjk : j ≤ k := h'
      exact (slice_append s hij hjk).symm
    | cons e es' =>
      have hje := h'.1
      simp only [List.nil_append, edited]
      rw [← List.append_assoc, slice_append s hij hje]
  | cons e es ih =>
    have ih := ih h.2
    obtain ⟨q, op⟩ := e
    cases op with
    | skip n =>
      simp only [List.cons_append, edited, List.append_assoc]
      simp only [RepairOp.width] at ih
      rw [ih]
    | insert l =>
      simp only [List.cons_append, edited, List.append_assoc]
      simp only [RepairOp.width, Nat.add_zero] at ih
      rw [ih]

/-- A derivation with edits gives a word of the language: the edited input. -/
theorem Der.lang [BEq τ] {env : Env τ ρ Γ} {s : List τ} {col} {p : P τ ρ Γ α} {m i es v j}
    (tok : String → List τ) (hb : es ≠ [] → ∀ x : τ, (x == x) = true)
    (henv : es ≠ [] → ∀ i q, env i = some q → q.All (P.labelled env tok))
    (h : Der env s col p m i es v j) (hi : i ≤ s.length)
    (hp : es ≠ [] → p.All (P.labelled env tok)) : Lang env p (edited tok s i (edits es) j) v := by
  have appR : ∀ {es es' : List Step}, es' ≠ [] → es ++ es' ≠ [] := by
    intro es es' h1 h2; exact h1 (List.append_eq_nil_iff.1 h2).2
  have appL : ∀ {es es' : List Step}, es ≠ [] → es ++ es' ≠ [] := by
    intro es es' h1 h2; exact h1 (List.append_eq_nil_iff.1 h2).1
  induction h with
  | pure => simp only [edits_nil, edited, slice_self]; exact .pure
  | pureFn h => simp only [edits_nil, edited, slice_self]; exact .pureFn h
  | eof => simp only [edits_nil, edited, slice_self]; exact .eof
  | @eofSkip m i h =>
    simp only [edits_skip, edited, slice_self, List.nil_append]
    rw [show i + (s.length - i) = s.length by omega, slice_self]; exact .eof
  | satisfy h h' => simp only [edits_nil, edited]; rw [slice_one h]; exact .satisfy h'
  | @satisfySkip test t m i k h1 h h' =>
    simp only [edits_skip, edited, slice_self, List.nil_append]
    rw [show i + (k - i) = k by omega, slice_one h]; exact .satisfy h'
  | sym h h' => simp only [edits_nil, edited]; rw [slice_one h]; exact .sym h'
  | @symSkip x t l m i k h1 h h' =>
    simp only [edits_skip, edited, slice_self, List.nil_append]
    rw [show i + (k - i) = k by omega, slice_one h]; exact .sym h'
  | @symInsert x l m i =>
    simp only [edits_auto, edited, slice_self, List.nil_append, List.append_nil]
    have : tok l = [x] := hp (by simp)
    rw [this]; exact .sym (hb (by simp) x)
  | literal h => simp only [edits_nil, edited]; exact .literal (slice_prefix h)
  | @literalSkip x ss h m i k h1 h2 =>
    simp only [edits_skip, edited, slice_self, List.nil_append]
    rw [show i + (k - i) = k by omega]; exact .literal (slice_prefix h2)
  | @literalInsert x ss h m i =>
    simp only [edits_auto, edited, slice_self, List.nil_append, List.append_nil]
    have : tok ss = x := hp (by simp)
    rw [this]
    refine .literal ?_
    have hb := hb (by simp)
    clear hp this h
    induction x with
    | nil => rfl
    | cons a x ih => simp [List.cons_beq_cons, hb a, ih]
  | @regexp β mt v m i j h =>
    have := mt.bounds _ _ _ _ hi h
    simp only [edits_nil, edited]
    exact .regexp this.1 this.2 h
  | @regexpSkip β mt v m i j k h1 h2 h =>
    have := mt.bounds _ _ _ _ (Nat.le_of_lt h2) h
    simp only [edits_skip, edited, slice_self, List.nil_append]
    rw [show i + (k - i) = k by omega]
    exact .regexp this.1 this.2 h
  | fmap _ h ih => exact .fmap (ih hb henv hi fun h => (hp h).2) h
  | altL _ ih => exact .altL (ih hb henv hi fun h => (hp h).2.1)
  | altR _ ih => exact .altR (ih hb henv hi fun h => (hp h).2.2)
  | bind h1 h2 ih1 ih2 =>
    have o1 := der_inOrder h1 hi
    have o2 := der_inOrder h2 o1.2
    rw [edits_append, edited_append tok s o1.1 o2.1]
    exact .bind (ih1 (fun h => hb (appL h)) (fun h => henv (appL h)) hi fun h => (hp (appL h)).2.1)
      (ih2 (fun h => hb (appR h)) (fun h => henv (appR h)) o1.2 fun h => (hp (appR h)).2.2 _)
  | seqWith h1 h2 ih1 ih2 =>
    have o1 := der_inOrder h1 hi
    have o2 := der_inOrder h2 o1.2
    rw [edits_append, edited_append tok s o1.1 o2.1]
    exact .seqWith
      (ih1 (fun h => hb (appL h)) (fun h => henv (appL h)) hi fun h => (hp (appL h)).2.1)
      (ih2 (fun h => hb (appR h)) (fun h => henv (appR h)) o1.2 fun h => (hp (appR h)).2.2)
  | maybeNone => simp only [edits_nil, edited, slice_self]; exact .maybeNone
  | maybeSome _ ih => exact .maybeSome (ih hb henv hi fun h => (hp h).2)
  | manyNil => simp only [edits_nil, edited, slice_self]; exact .manyNil
  | manyCons h1 h2 ih1 ih2 =>
    have o1 := der_inOrder h1 hi
    have o2 := der_inOrder h2 o1.2
    rw [edits_append, edited_append tok s o1.1 o2.1]
    exact .manyCons
      (ih1 (fun h => hb (appL h)) (fun h => henv (appL h)) hi fun h => (hp (appL h)).2)
      (ih2 (fun h => hb (appR h)) (fun h => henv (appR h)) o1.2 fun h => hp (appR h))
  | attempt _ ih => exact .attempt (ih hb henv hi fun h => (hp h).2)
  | label _ ih => exact .label (ih hb henv hi fun h => (hp h).2)
  | recover _ ih =>
    rw [edits_asked]
    simp only [ne_eq, List.map_eq_nil_iff] at hb henv hp
    exact .recover (ih hb henv hi fun h => (hp h).2)
  | recoverWith _ ih => exact .recoverWith (ih hb henv hi fun h => (hp h).2)
  | @recoverWithInsert _ p x vs m i =>
    simp only [edits_user, edited, slice_self, List.nil_append, List.append_nil]
    exact .recoverWith (hp (by simp)).1
  | recoverWithFn _ ih => exact .recoverWithFn (ih hb henv hi fun h => (hp h).2)
  | @recoverWithFnInsert _ p fn lbl x m i hx =>
    simp only [edits_user, edited, slice_self, List.nil_append, List.append_nil]
    exact .recoverWithFn ((hp (by simp)).1 _ _ _ hx)
  | block _ _ ih => exact .block (ih hb henv hi fun h => (hp h).2)
  | aligned _ _ ih => exact .aligned (ih hb henv hi fun h => (hp h).2)
  | indented _ _ _ ih => exact .indented (ih hb henv hi fun h => (hp h).2)
  | ref he _ ih => exact .ref he (ih hb henv hi fun h => henv h _ _ he)

end Reparsec
