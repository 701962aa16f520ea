import Verif.Spec.Calculator
import Verif.Lemmas.Chain

/-!
# The pieces of the calculator
-/

namespace Reparsec.Calculator

open Reparsec

variable {C : Chars}

/-! ### Words -/

theorem slice_takeWhile (s : List Char) (i : Nat) (c : Char → Bool) :
    slice s i (i + ((s.drop i).takeWhile c).length) = (s.drop i).takeWhile c := by
  rw [slice, List.drop_take, Nat.add_sub_cancel_left]
  exact (List.prefix_iff_eq_take.1 (List.takeWhile_prefix c)).symm

theorem takeWhile_all {c : Char → Bool} {l : List Char} : ∀ x ∈ l.takeWhile c, c x = true := by
  intro x hx
  induction l with
  | nil => simp at hx
  | cons y l ih =>
    rw [List.takeWhile_cons] at hx
    split at hx
    · rcases List.mem_cons.1 hx with rfl | hx
      · assumption
      · exact ih hx
    · simp at hx

theorem lang_spaces {w v : List Char} (h : Lang (env C) (spaces C) w v) : Blank C w := by
  obtain ⟨s, i, j, -, -, hr, rfl⟩ := h.inv
  simp only [star, Option.some.injEq, Prod.mk.injEq] at hr
  rw [← hr.1, slice_takeWhile]
  exact takeWhile_all

theorem lang_number {w : List Char} {v : Int} (h : Lang (env C) (number C) w v) :
    Value C .factor w v := by
  obtain ⟨u, u', b, rfl, h1, h2⟩ := lang_seql.1 h
  obtain ⟨ds, h1, h3⟩ := h1.inv
  obtain ⟨s, i, j, -, -, hr, rfl⟩ := h1.inv
  simp only [plus] at hr
  split at hr
  · cases hr
  · next hne =>
    simp only [Option.some.injEq, Prod.mk.injEq, Except.ok.injEq] at hr
    obtain ⟨rfl, rfl⟩ := hr
    rw [slice_takeWhile]
    exact .number hne takeWhile_all (lang_spaces h2) h3

theorem lang_one {c : Char → Bool} {w v : List Char}
    (h : Lang (env C) (.regexp (one c) : E (List Char)) w v) : ∃ x, c x = true ∧ w = [x] ∧ v = [x] := by
  obtain ⟨s, i, j, -, -, hr, rfl⟩ := h.inv
  simp only [one] at hr
  split at hr
  · cases hr
  · next x hx =>
    split at hr
    · next hc =>
      simp only [Option.some.injEq, Prod.mk.injEq, Except.ok.injEq] at hr
      obtain ⟨rfl, rfl⟩ := hr
      refine ⟨x, hc, ?_, rfl⟩
      obtain ⟨h1, h2⟩ := List.getElem?_eq_some_iff.1 hx
      rw [slice, List.drop_take, Nat.add_sub_cancel_left, List.drop_eq_getElem_cons h1, h2]
      simp
    · cases hr

/-- The three operations. -/
def timesOp : Int → Int → Except Exn Int := fun a b => .ok (a * b)
def plusOp : Int → Int → Except Exn Int := fun a b => .ok (a + b)
def minusOp : Int → Int → Except Exn Int := fun a b => .ok (a - b)

theorem lang_mulOp {w : List Char} {f : Int → Int → Except Exn Int} (h : Lang (env C) (mulOp C) w f) :
    ∃ sp, w = '*' :: sp ∧ Blank C sp ∧ f = timesOp := by
  obtain ⟨u, u', b, rfl, h1, h2⟩ := lang_seql.1 h
  obtain ⟨ds, h1, h3⟩ := h1.inv
  obtain ⟨x, hx, rfl, rfl⟩ := lang_one h1
  have hx : x = '*' := by simpa using hx
  subst hx
  refine ⟨u', rfl, lang_spaces h2, ?_⟩
  exact (Except.ok.inj ((rfl : opAction ['*'] = .ok timesOp).symm.trans h3)).symm

theorem lang_addOp {w : List Char} {f : Int → Int → Except Exn Int} (h : Lang (env C) (addOp C) w f) :
    ∃ sp, Blank C sp ∧ ((w = '+' :: sp ∧ f = plusOp) ∨ (w = '-' :: sp ∧ f = minusOp)) := by
  obtain ⟨u, u', b, rfl, h1, h2⟩ := lang_seql.1 h
  obtain ⟨ds, h1, h3⟩ := h1.inv
  obtain ⟨x, hx, rfl, rfl⟩ := lang_one h1
  have hx : x = '-' ∨ x = '+' := by simpa using hx
  refine ⟨u', lang_spaces h2, ?_⟩
  rcases hx with rfl | rfl
  · exact .inr ⟨rfl, (Except.ok.inj ((rfl : opAction ['-'] = .ok minusOp).symm.trans h3)).symm⟩
  · exact .inl ⟨rfl, (Except.ok.inj ((rfl : opAction ['+'] = .ok plusOp).symm.trans h3)).symm⟩

theorem lang_paren {x : Char} {l : String} {h0 : [x] ≠ []} {w v : List Char}
    (h : Lang (env C) (.seql (.literal [x] l h0) (spaces C)) w v) : ∃ sp, w = x :: sp ∧ Blank C sp := by
  obtain ⟨u, u', b, rfl, h1, h2⟩ := lang_seql.1 h
  obtain ⟨h1, -⟩ := h1.inv
  have h1 : [x] = u := by simpa using h1
  subst h1
  exact ⟨u', rfl, lang_spaces h2⟩

/-- The words of the grammar are expressions, and have their values. -/
theorem lang_expr : ∀ {n : Nat} {w : List Char} {v : Int}, w.length ≤ n →
    Lang (env C) expr w v → Value C .expr w v := by
  intro n
  induction n using Nat.strongRecOn with
  | _ n ih =>
  intro w v hn h
  obtain ⟨q, hq, h⟩ := h.inv
  cases hq
  have hfactor : ∀ w a, Lang (env C) (factor C) w a → w.length ≤ n → Value C .factor w a := by
    intro w a h hn
    rcases h.inv with h | h
    · exact lang_number h
    · obtain ⟨u, u', b, rfl, h1, h2⟩ := lang_seqr.1 h
      obtain ⟨u2, u3, b', rfl, h4, h3⟩ := lang_seql.1 h2
      obtain ⟨sp, rfl, hb⟩ := lang_paren h1
      obtain ⟨sp', rfl, hb'⟩ := lang_paren h3
      simp only [List.cons_append, List.length_cons, List.length_append] at hn
      exact .parens hb (ih (n - 1) (by omega) (by omega) h4) hb'
  have hterm : ∀ w a, Lang (env C) (term C) w a → w.length ≤ n → Value C .term w a := by
    intro w a h
    refine lang_chainl1 (R := fun w a => w.length ≤ n → Value C .term w a) ?_ ?_ h
    · exact fun w a h hn => .term (hfactor w a h hn)
    · rintro w a wo f w' b c hr ho hb hf hn
      obtain ⟨sp, rfl, hsp, rfl⟩ := lang_mulOp ho
      cases hf
      simp only [List.cons_append, List.length_cons, List.length_append] at hn
      exact .times (hr (by omega)) hsp (hfactor _ _ hb (by omega))
  refine lang_chainl1 (R := fun w a => w.length ≤ n → Value C .expr w a) ?_ ?_ h hn
  · exact fun w a h hn => .expr (hterm w a h hn)
  · rintro w a wo f w' b c hr ho hb hf hn
    obtain ⟨sp, hsp, ⟨rfl, rfl⟩ | ⟨rfl, rfl⟩⟩ := lang_addOp ho
    · cases hf
      simp only [List.cons_append, List.length_cons, List.length_append] at hn
      exact .add (hr (by omega)) hsp (hterm _ _ hb (by omega))
    · cases hf
      simp only [List.cons_append, List.length_cons, List.length_append] at hn
      exact .sub (hr (by omega)) hsp (hterm _ _ hb (by omega))

/-! ### Positions -/

/-- The text does not go on with a digit or a space. -/
def Follow (C : Chars) (w : List Char) : Prop := ∀ x, w.head? = some x → C.digit x = false ∧ C.space x = false

theorem takeWhile_append_all {c : Char → Bool} {u w : List Char} (hu : ∀ x ∈ u, c x = true)
    (hw : ∀ x, w.head? = some x → c x = false) : (u ++ w).takeWhile c = u := by
  induction u with
  | nil =>
    cases w with
    | nil => rfl
    | cons x w => simp [hw x rfl]
  | cons x u ih =>
    rw [List.cons_append, List.takeWhile_cons, hu x List.mem_cons_self, if_pos rfl,
      ih fun y hy => hu y (List.mem_cons_of_mem _ hy)]

/-- Expressions begin with a digit or a parenthesis. -/
theorem Value.head {l : Level} {w : List Char} {v : Int} (h : Value C l w v) :
    ∃ x r, w = x :: r ∧ (C.digit x = true ∨ x = '(') := by
  induction h with
  | @number ds _ _ hn hd _ _ =>
    cases ds with
    | nil => exact absurd rfl hn
    | cons x ds => exact ⟨x, _, rfl, .inl (hd x List.mem_cons_self)⟩
  | parens _ _ _ _ => exact ⟨_, _, rfl, .inr rfl⟩
  | term _ ih => exact ih
  | times _ _ _ ih _ => obtain ⟨x, r, rfl, h⟩ := ih; exact ⟨x, _, rfl, h⟩
  | expr _ ih => exact ih
  | add _ _ _ ih _ => obtain ⟨x, r, rfl, h⟩ := ih; exact ⟨x, _, rfl, h⟩
  | sub _ _ _ ih _ => obtain ⟨x, r, rfl, h⟩ := ih; exact ⟨x, _, rfl, h⟩

theorem Value.noSpace {l : Level} {w : List Char} {v : Int} (h : Value C l w v) (hC : C.OK)
    (post : List Char) : ∀ x, (w ++ post).head? = some x → C.space x = false := by
  obtain ⟨y, r, rfl, hy⟩ := h.head
  intro x hx
  simp only [List.cons_append, List.head?_cons, Option.some.injEq] at hx
  subst hx
  rcases hy with hy | rfl
  · exact hC.apart _ hy
  · exact hC.space _ (by simp)

section
variable {s : List Char} {col : Nat → Nat → Prop} {m i : Nat} {post : List Char}

theorem drop_add {s w post : List Char} {i : Nat} (h : s.drop i = w ++ post) :
    s.drop (i + w.length) = post := by
  rw [← List.drop_drop, h, List.drop_left]

theorem der_spaces {sp : List Char} (hsp : Blank C sp) (hs : s.drop i = sp ++ post)
    (hp : ∀ x, post.head? = some x → C.space x = false) :
    Der (env C) s col (spaces C) m i [] sp (i + sp.length) := by
  refine .regexp ?_
  simp only [star, hs, takeWhile_append_all hsp hp]

theorem der_lit {x : Char} {l : String} {h0 : [x] ≠ []} {sp : List Char} (hsp : Blank C sp)
    (hs : s.drop i = x :: (sp ++ post)) (hp : ∀ x, post.head? = some x → C.space x = false) :
    Der (env C) s col (.seql (.literal [x] l h0) (spaces C)) m i [] [x] (i + (1 + sp.length)) := by
  rw [← Nat.add_assoc]
  refine .seqWith (es := []) (es' := []) (b := sp) (merge := fun a _ => a) (.literal (x := [x]) (by simp [hs])) ?_
  exact der_spaces hsp (drop_add (w := [x]) hs) hp

theorem der_op {x : Char} {c : Char → Bool} {f : Int → Int → Except Exn Int} {sp : List Char}
    (hc : c x = true) (hf : opAction [x] = .ok f) (hsp : Blank C sp)
    (hs : s.drop i = x :: (sp ++ post)) (hp : ∀ x, post.head? = some x → C.space x = false) :
    Der (env C) s col (.seql (.fmap (.regexp (one c)) opAction) (spaces C)) m i [] f
      (i + (1 + sp.length)) := by
  rw [← Nat.add_assoc]
  refine .seqWith (es := []) (es' := []) (b := sp) (merge := fun a _ => a)
    (.fmap (.regexp (v := [x]) (j := i + 1) ?_) hf) ?_
  · have : s[i]? = some x := by
      have := congrArg List.head? hs
      rwa [List.head?_drop] at this
    simp [one, this, hc]
  · exact der_spaces hsp (drop_add (w := [x]) hs) hp

/-- What the parsers of the three levels read. -/
def LevelDer (C : Chars) (s : List Char) (col : Nat → Nat → Prop) (m i : Nat) (v : Int) (j : Nat) :
    Level → Prop
  | .factor => Der (env C) s col (factor C) m i [] v j
  | .term => ChainDer (env C) s col (factor C) (mulOp C) m i v j
  | .expr => ChainDer (env C) s col (term C) (addOp C) m i v j

/-- Expressions are read wherever they stand, if no digit or space follows. -/
theorem Value.der (hC : C.OK) {l : Level} {w : List Char} {v : Int} (h : Value C l w v) :
    ∀ {s col m i post}, s.drop i = w ++ post → Follow C post → LevelDer C s col m i v (i + w.length) l := by
  have follow : ∀ {x : Char} {r : List Char}, x ∈ ['(', ')', '*', '+', '-'] → Follow C (x :: r) := by
    intro x r hx y hy
    simp only [List.head?_cons, Option.some.injEq] at hy
    subst hy
    exact ⟨hC.digit _ hx, hC.space _ hx⟩
  induction h with
  | @number ds sp v hn hd hsp hv =>
    intro s col m i post hs hp
    rw [List.append_assoc] at hs
    refine .altL ?_
    rw [List.length_append, ← Nat.add_assoc]
    refine .seqWith (es := []) (es' := []) (merge := fun a _ => a) (.fmap (.regexp (v := ds) (j := i + ds.length) ?_) hv)
      (der_spaces hsp (drop_add hs) fun x hx => (hp x hx).2)
    have htw : (s.drop i).takeWhile C.digit = ds := by
      rw [hs]
      refine takeWhile_append_all hd fun x hx => ?_
      cases sp with
      | nil => exact (hp x hx).1
      | cons y sp =>
        simp only [List.cons_append, List.head?_cons, Option.some.injEq] at hx
        subst hx
        have := hsp y List.mem_cons_self
        cases hdy : C.digit y with
        | false => rfl
        | true => rw [hC.apart y hdy] at this; cases this
    simp only [plus, htw, if_neg hn]
  | @parens sp w sp' v hsp hw hsp' ih =>
    intro s col m i post hs hp
    refine .altR ?_
    simp only [List.cons_append, List.append_assoc] at hs
    have h1 : s.drop (i + (1 + sp.length)) = w ++ (')' :: (sp' ++ post)) := by
      have := drop_add (w := '(' :: sp) (s := s) (i := i) (post := w ++ (')' :: (sp' ++ post)))
        (by simpa using hs)
      simpa [Nat.add_comm 1] using this
    have h2 : s.drop (i + (1 + sp.length) + w.length) = ')' :: (sp' ++ post) := drop_add h1
    have d1 := der_lit (col := col) (m := m) (l := "'('") (h0 := by simp) hsp hs (hw.noSpace hC _)
    have d2 := (ih (col := col) (m := m) h1 (follow (by simp))).der
    have d3 := der_lit (col := col) (m := m) (l := "')'") (h0 := by simp) hsp' h2 fun x hx => (hp x hx).2
    have := Der.seqWith (es := []) (es' := []) (merge := fun _ b => b) d1
      (.seqWith (es := []) (es' := []) (merge := fun a _ => a) (.ref (x := ()) rfl d2) d3)
    have e : i + (1 + sp.length) + w.length + (1 + sp'.length) =
        i + ('(' :: (sp ++ (w ++ ')' :: sp'))).length := by simp; omega
    rw [e] at this
    exact this
  | term _ ih =>
    intro s col m i post hs hp
    exact .first (ih hs hp)
  | @times w sp w' a b hw hsp hw' ih1 ih2 =>
    intro s col m i post hs hp
    simp only [List.cons_append, List.append_assoc] at hs
    have h1 := drop_add hs
    have h2 : s.drop (i + w.length + (1 + sp.length)) = w' ++ post := by
      have := drop_add (w := '*' :: sp) (post := w' ++ post) (by simpa using h1)
      simpa [Nat.add_comm 1] using this
    have := ChainDer.step (ih1 (col := col) (m := m) hs (follow (by simp)))
      (der_op (c := (· == '*')) (f := timesOp) rfl rfl hsp h1 (hw'.noSpace hC _)) (ih2 h2 hp) (c := a * b) rfl
    have e : i + w.length + (1 + sp.length) + w'.length = i + (w ++ '*' :: (sp ++ w')).length := by
      simp; omega
    rw [e] at this
    exact this
  | expr _ ih =>
    intro s col m i post hs hp
    exact .first (ih hs hp).der
  | @add w sp w' a b hw hsp hw' ih1 ih2 =>
    intro s col m i post hs hp
    simp only [List.cons_append, List.append_assoc] at hs
    have h1 := drop_add hs
    have h2 : s.drop (i + w.length + (1 + sp.length)) = w' ++ post := by
      have := drop_add (w := '+' :: sp) (post := w' ++ post) (by simpa using h1)
      simpa [Nat.add_comm 1] using this
    have := ChainDer.step (ih1 (col := col) (m := m) hs (follow (by simp)))
      (der_op (c := fun c => c == '-' || c == '+') (f := plusOp) rfl rfl hsp h1 (hw'.noSpace hC _))
      (ih2 h2 hp).der (c := a + b) rfl
    have e : i + w.length + (1 + sp.length) + w'.length = i + (w ++ '+' :: (sp ++ w')).length := by
      simp; omega
    rw [e] at this
    exact this
  | @sub w sp w' a b hw hsp hw' ih1 ih2 =>
    intro s col m i post hs hp
    simp only [List.cons_append, List.append_assoc] at hs
    have h1 := drop_add hs
    have h2 : s.drop (i + w.length + (1 + sp.length)) = w' ++ post := by
      have := drop_add (w := '-' :: sp) (post := w' ++ post) (by simpa using h1)
      simpa [Nat.add_comm 1] using this
    have := ChainDer.step (ih1 (col := col) (m := m) hs (follow (by simp)))
      (der_op (c := fun c => c == '-' || c == '+') (f := minusOp) rfl rfl hsp h1 (hw'.noSpace hC _))
      (ih2 h2 hp).der (c := a - b) rfl
    have e : i + w.length + (1 + sp.length) + w'.length = i + (w ++ '-' :: (sp ++ w')).length := by
      simp; omega
    rw [e] at this
    exact this

end

end Reparsec.Calculator
