import Verif.Spec.Recovery
import Verif.Lemmas.Eval

/-!
# The recovering mode shows the recovering evaluation relation: combinators
-/

namespace Reparsec

variable {τ ρ : Type} {Γ : ρ → Type} {α β γ : Type} {s : List τ}

/-- Elementwise. -/
inductive Each (R : α → β → Prop) : List α → List β → Prop
  | nil : Each R [] []
  | cons {x y xs ys} : R x y → Each R xs ys → Each R (x :: xs) (y :: ys)

namespace Each

theorem mono {R R' : α → β → Prop} {xs : List α} {ys : List β} (h : Each R xs ys)
    (f : ∀ x ∈ xs, ∀ y ∈ ys, R x y → R' x y) : Each R' xs ys := by
  induction h with
  | nil => exact .nil
  | cons h _ ih =>
    exact .cons (f _ List.mem_cons_self _ List.mem_cons_self h)
      (ih fun x hx y hy => f x (List.mem_cons_of_mem _ hx) y (List.mem_cons_of_mem _ hy))

theorem map {δ : Type} {R : α → β → Prop} {R' : γ → δ → Prop} {xs : List α} {ys : List β}
    (h : Each R xs ys) (f : α → γ) (g : β → δ)
    (hf : ∀ x ∈ xs, ∀ y ∈ ys, R x y → R' (f x) (g y)) : Each R' (xs.map f) (ys.map g) := by
  induction h with
  | nil => exact .nil
  | cons h _ ih =>
    exact .cons (hf _ List.mem_cons_self _ List.mem_cons_self h)
      (ih fun x hx y hy => hf x (List.mem_cons_of_mem _ hx) y (List.mem_cons_of_mem _ hy))

theorem append {R : α → β → Prop} {xs xs' : List α} {ys ys' : List β} (h : Each R xs ys)
    (h' : Each R xs' ys') : Each R (xs ++ xs') (ys ++ ys') := by
  induction h with
  | nil => exact h'
  | cons h _ ih => exact .cons h ih

theorem filter {R : α → β → Prop} {xs : List α} {ys : List β} (h : Each R xs ys) (f : α → Bool)
    (g : β → Bool) (hf : ∀ x ∈ xs, ∀ y ∈ ys, R x y → f x = g y) :
    Each R (xs.filter f) (ys.filter g) := by
  induction h with
  | nil => exact .nil
  | @cons x y xs ys h _ ih =>
    have ih := ih fun x hx y hy => hf x (List.mem_cons_of_mem _ hx) y (List.mem_cons_of_mem _ hy)
    have h1 := hf _ List.mem_cons_self _ List.mem_cons_self h
    cases hg : g y with
    | true =>
      rw [hg] at h1
      rw [List.filter_cons_of_pos h1, List.filter_cons_of_pos hg]
      exact .cons h ih
    | false =>
      rw [hg] at h1
      rw [List.filter_cons_of_neg (by simp [h1]), List.filter_cons_of_neg (by simp [hg])]
      exact ih

theorem length {R : α → β → Prop} {xs : List α} {ys : List β} (h : Each R xs ys) :
    xs.length = ys.length := by
  induction h with
  | nil => rfl
  | cons h _ ih => simp [ih]

theorem get {R : α → β → Prop} {xs : List α} {ys : List β} (h : Each R xs ys) {n : Nat} {x : α}
    {y : β} (hx : xs[n]? = some x) (hy : ys[n]? = some y) : R x y := by
  induction h generalizing n with
  | nil => simp at hx
  | cons h _ ih =>
    cases n with
    | zero => simp at hx hy; subst hx hy; exact h
    | succ n => exact ih hx hy

theorem of_get {R : α → β → Prop} {xs : List α} {ys : List β} (hl : ys.length = xs.length)
    (h : ∀ (n : Nat) x y, xs[n]? = some x → ys[n]? = some y → R x y) : Each R xs ys := by
  induction xs generalizing ys with
  | nil =>
    cases ys with
    | nil => exact .nil
    | cons _ _ => simp at hl
  | cons x xs ih =>
    cases ys with
    | nil => simp at hl
    | cons y ys =>
      exact .cons (h 0 x y rfl rfl) (ih (by simpa using hl) fun n x y hx hy => h (n + 1) x y hx hy)

theorem unique {R : α → β → Prop} {xs xs' : List α} {ys : List β} (h : Each R xs ys)
    (h' : Each R xs' ys) (hu : ∀ x x' y, R x y → R x' y → x = x') : xs = xs' := by
  induction h generalizing xs' with
  | nil => cases h'; rfl
  | cons h _ ih =>
    cases h' with
    | cons h1 h2 => rw [hu _ _ _ h h1, ih h2]

theorem append_inv {R : α → β → Prop} {xs xs' : List α} {ys : List β} (h : Each R (xs ++ xs') ys) :
    ∃ zs zs', ys = zs ++ zs' ∧ Each R xs zs ∧ Each R xs' zs' := by
  induction xs generalizing ys with
  | nil => exact ⟨[], ys, rfl, .nil, h⟩
  | cons x xs ih =>
    cases h with
    | cons h1 h2 =>
      obtain ⟨zs, zs', rfl, h3, h4⟩ := ih h2
      exact ⟨_, zs', rfl, .cons h1 h3, h4⟩

end Each

/-- A reported operation shows a fix. -/
structure FixShows (D : LocDisc s) (x : Fix) (i : OpItem) : Prop where
  rel : D.rel x.pos i.loc
  op : x.op = i.op
  wants : x.wants = i.expected
  begun : x.begun = i.consumed

/-- A repair shows a candidate. -/
structure CandShows (D : LocDisc s) (c : Cand α) (r : Repair τ α) : Prop where
  cost : c.cost = r.cost
  auto : c.auto = r.prio.isNone
  left : c.left = r.ins
  fixes : Each (FixShows D) c.fixes r.ops
  value : c.value = r.value
  stop : c.stop = r.pos
  ctx : CtxOK D r.ctx r.pos
  wants : c.wants = r.expected
  begun : c.begun = r.consumed

/-- A run shows the finding. -/
inductive Finds (D : LocDisc s) : Finding α → Out (Result τ α) → Prop
  | accepts {r : Ok τ α} : CtxOK D r.ctx r.pos →
      Finds D (.accepts r.value r.pos r.expected) (.ret (.ok r))
  | rejects {q : Nat} {e : Err} : D.rel q e.loc →
      Finds D (.rejects q e.expected e.consumed) (.ret (.error e))
  | repairs {q : Nat} {cs : List (Cand α)} {r : Recovered τ α} : D.rel q r.loc →
      Each (CandShows D) cs r.repairs →
      Finds D (.repairs cs q r.expected r.consumed) (.ret (.recovered r))
  | raises {e : Exn} : Finds D (.raises e) (.raise e)

variable {D : LocDisc s}

theorem Finds.ne {o : Finding α} {x : Out (Result τ α)} (h : Finds D o x) : x ≠ .diverge := by
  cases h <;> simp

theorem Finds.inv_accepts {v : α} {j : Nat} {w : List String} {x : Out (Result τ α)}
    (h : Finds D (.accepts v j w) x) :
    ∃ r, x = .ret (.ok r) ∧ r.value = v ∧ r.pos = j ∧ r.expected = w ∧ CtxOK D r.ctx j := by
  cases h with
  | accepts h => exact ⟨_, rfl, rfl, rfl, rfl, h⟩

theorem Finds.inv_rejects {q : Nat} {w : List String} {b : Bool} {x : Out (Result τ α)}
    (h : Finds D (.rejects q w b) x) :
    ∃ e, x = .ret (.error e) ∧ D.rel q e.loc ∧ e.expected = w ∧ e.consumed = b := by
  cases h with
  | rejects h => exact ⟨_, rfl, h, rfl, rfl⟩

theorem Finds.inv_repairs {cs : List (Cand α)} {q : Nat} {w : List String} {b : Bool}
    {x : Out (Result τ α)} (h : Finds D (.repairs cs q w b) x) :
    ∃ r, x = .ret (.recovered r) ∧ D.rel q r.loc ∧ r.expected = w ∧ r.consumed = b ∧
      Each (CandShows D) cs r.repairs := by
  cases h with
  | repairs h h' => exact ⟨_, rfl, h, rfl, rfl, h'⟩

theorem Finds.inv_raises {e : Exn} {x : Out (Result τ α)} (h : Finds D (.raises e) x) :
    x = .raise e := by
  cases h with
  | raises => rfl

theorem Finds.mk_accepts {v : α} {j : Nat} {w : List String} {r : Ok τ α} (h1 : r.value = v)
    (h2 : r.pos = j) (h3 : r.expected = w) (h4 : CtxOK D r.ctx r.pos) :
    Finds D (.accepts v j w) (.ret (.ok r)) := by
  subst h1 h2 h3; exact .accepts h4

theorem Finds.mk_rejects {q : Nat} {w : List String} {b : Bool} {e : Err} (h1 : D.rel q e.loc)
    (h2 : e.expected = w) (h3 : e.consumed = b) :
    Finds (α := α) D (.rejects q w b) (.ret (.error e)) := by
  subst h2 h3; exact .rejects h1

theorem Finds.mk_repairs {cs : List (Cand α)} {q : Nat} {w : List String} {b : Bool}
    {r : Recovered τ α} (h1 : D.rel q r.loc) (h2 : r.expected = w) (h3 : r.consumed = b)
    (h4 : Each (CandShows D) cs r.repairs) :
    Finds D (.repairs cs q w b) (.ret (.recovered r)) := by
  subst h2 h3; exact .repairs h1 h4

theorem Finds.unique (hrel : ∀ q q' loc, D.rel q loc → D.rel q' loc → q = q') {o o' : Finding α}
    {x : Out (Result τ α)} (h : Finds D o x) (h' : Finds D o' x) : o = o' := by
  cases h with
  | accepts h => cases h' with | accepts h' => rfl
  | rejects h => cases h' with | rejects h' => rw [hrel _ _ _ h h']
  | raises => cases h' with | raises => rfl
  | repairs h h1 =>
    cases h' with
    | repairs h' h2 =>
      rw [hrel _ _ _ h h']
      have := h1.unique h2 ?_
      · rw [this]
      · rintro ⟨c1, c2, c3, c4, c5, c6, c7, c8⟩ ⟨d1, d2, d3, d4, d5, d6, d7, d8⟩ r ha hb
        cases (show c1 = d1 from ha.cost.trans hb.cost.symm)
        cases (show c2 = d2 from ha.auto.trans hb.auto.symm)
        cases (show c3 = d3 from ha.left.trans hb.left.symm)
        cases (show c5 = d5 from ha.value.trans hb.value.symm)
        cases (show c6 = d6 from ha.stop.trans hb.stop.symm)
        cases (show c7 = d7 from ha.wants.trans hb.wants.symm)
        cases (show c8 = d8 from ha.begun.trans hb.begun.symm)
        have : c4 = d4 := by
          refine ha.fixes.unique hb.fixes ?_
          rintro ⟨a1, a2, a3, a4⟩ ⟨b1, b2, b3, b4⟩ i hx hy
          cases (show a1 = b1 from hrel _ _ _ hx.rel hy.rel)
          cases (show a2 = b2 from hx.op.trans hy.op.symm)
          cases (show a3 = b3 from hx.wants.trans hy.wants.symm)
          cases (show a4 = b4 from hx.begun.trans hy.begun.symm)
          rfl
        rw [this]

theorem Finds.le {o : Finding α} {x y : Out (Result τ α)} (h : Finds D o x) (hle : x.Le y) :
    Finds D o y := by
  rcases hle with hle | rfl
  · exact absurd hle h.ne
  · exact h

/-! ### Bookkeeping -/

theorem FixShows.after {x : Fix} {i : OpItem} (h : FixShows D x i) (w : List String) (b : Bool) :
    FixShows D (x.after b w) (i.prependExpected w b) := by
  obtain ⟨h1, h2, h3, h4⟩ := h
  unfold Fix.after OpItem.prependExpected
  rw [h4]
  cases hb : i.consumed with
  | true => exact ⟨h1, h2, h3, h4⟩
  | false => exact ⟨h1, h2, by simp [h3], by simp⟩

theorem FixShows.relabel {x : Fix} {i : OpItem} (h : FixShows D x i) (w : List String) :
    FixShows D (x.relabel w) (i.setExpected w) := by
  obtain ⟨h1, h2, h3, h4⟩ := h
  unfold Fix.relabel OpItem.setExpected
  rw [h4]
  cases hb : i.consumed with
  | true => exact ⟨h1, h2, h3, h4⟩
  | false => exact ⟨h1, h2, rfl, rfl⟩

theorem CandShows.after {c : Cand α} {r : Repair τ α} (h : CandShows D c r) (w : List String)
    (b : Bool) : CandShows D (c.after b w) (r.prependExpected w b) where
  cost := h.cost
  auto := h.auto
  left := h.left
  fixes := h.fixes.map _ _ fun _ _ _ _ h => h.after w b
  value := h.value
  stop := h.stop
  ctx := h.ctx
  wants := by simp [Cand.after, Repair.prependExpected, h.wants, h.begun]
  begun := by simp [Cand.after, Repair.prependExpected, h.begun]

theorem CandShows.relabel {c : Cand α} {r : Repair τ α} (h : CandShows D c r) (w : List String) :
    CandShows D (c.relabel w) (r.setExpected w) where
  cost := h.cost
  auto := h.auto
  left := h.left
  fixes := h.fixes.map _ _ fun _ _ _ _ h => h.relabel w
  value := h.value
  stop := h.stop
  ctx := h.ctx
  wants := by simp [Cand.relabel, Repair.setExpected, h.wants, h.begun]
  begun := h.begun

theorem CandShows.withValue {c : Cand α} {r : Repair τ α} (h : CandShows D c r) (v : β) :
    CandShows D (c.withValue v)
      { cost := r.cost, prio := r.prio, ins := r.ins, ops := r.ops, value := v, pos := r.pos,
        ctx := r.ctx, expected := r.expected, consumed := r.consumed } :=
  ⟨h.cost, h.auto, h.left, h.fixes, rfl, h.stop, h.ctx, h.wants, h.begun⟩

theorem CandShows.fmap {c : Cand α} {r : Repair τ α} (h : CandShows D c r) (f : α → β) :
    CandShows D (c.map f) (r.fmap f) := by
  have := h.withValue (f c.value)
  unfold Cand.map Repair.fmap
  rw [← h.value]
  exact this

theorem Finds.fmap {o : Finding α} {x : Result τ α} (h : Finds D o (.ret x)) (f : α → β) :
    Finds D (o.map f) (.ret (x.fmap f)) := by
  cases h with
  | accepts h => exact .mk_accepts rfl rfl rfl h
  | rejects h => exact .mk_rejects h rfl rfl
  | repairs h h' =>
    exact .mk_repairs h rfl rfl (h'.map _ _ fun _ _ _ _ h => h.fmap f)

theorem finds_after {o : Finding α} {x : Out (Result τ α)} {i j : Nat} {w : List String} {b : Bool}
    (h : Finds D o x) (hb : b = decide (i < j))
    (hx : ∀ r, x = .ret (.ok r) → r.consumed = decide (j < r.pos)) :
    Finds D (o.after i j w) (x.bind fun r => .ret (r.prependExpected w b)) := by
  subst hb
  cases h with
  | raises => exact .raises
  | @accepts r hc =>
    have hcons := hx r rfl
    simp only [Out.bind_ret, Finding.after, Result.prependExpected, Ok.prependExpected, hcons]
    by_cases hlt : j < r.pos <;> simp [hlt]
    · exact .accepts hc
    · exact .mk_accepts rfl rfl rfl hc
  | @rejects q e hr =>
    obtain ⟨loc, ex, c⟩ := e
    cases c with
    | true => exact .mk_rejects hr rfl rfl
    | false => exact .mk_rejects hr rfl rfl
  | repairs hr h' => exact .mk_repairs hr rfl rfl (h'.map _ _ fun _ _ _ _ h => h.after w _)

theorem finds_relabel {o : Finding α} {x : Out (Result τ α)} {i : Nat} {w : List String}
    (h : Finds D o x) (hx : ∀ r, x = .ret (.ok r) → r.consumed = decide (i < r.pos)) :
    Finds D (o.relabel i w) (x.bind fun r => .ret (r.setExpected w)) := by
  cases h with
  | raises => exact .raises
  | @accepts r hc =>
    have hcons := hx r rfl
    simp only [Out.bind_ret, Finding.relabel, Result.setExpected, Ok.setExpected, hcons]
    by_cases hlt : i < r.pos <;> simp [hlt]
    · exact .accepts hc
    · exact .mk_accepts rfl rfl rfl hc
  | @rejects q e hr =>
    obtain ⟨loc, ex, c⟩ := e
    cases c with
    | true => exact .mk_rejects hr rfl rfl
    | false => exact .mk_rejects hr rfl rfl
  | repairs hr h' => exact .mk_repairs hr rfl rfl (h'.map _ _ fun _ _ _ _ h => h.relabel w)

theorem finds_setCtx {o : Finding α} {x : Out (Result τ α)} {c : Ctx τ} (h : Finds D o x)
    (hc : ∀ r, x = .ret (.ok r) → CtxOK D c r.pos)
    (hc' : ∀ r, x = .ret (.recovered r) → ∀ y ∈ r.repairs, CtxOK D c y.pos) :
    Finds D o (x.bind fun r => .ret (r.setCtx c)) := by
  cases h with
  | raises => exact .raises
  | @accepts r h => exact .mk_accepts rfl rfl rfl (hc r rfl)
  | rejects h => exact .rejects h
  | @repairs q cs r hr h' =>
    refine .mk_repairs hr rfl rfl ?_
    have := h'.map (R' := CandShows D) id (fun p => { p with ctx := c }) fun x _ y hy h =>
      ⟨h.cost, h.auto, h.left, h.fixes, h.value, h.stop, hc' r rfl y hy, h.wants, h.begun⟩
    rwa [List.map_id] at this

theorem each_fmapM {cs : List (Cand α)} {rs : List (Repair τ α)} (h : Each (CandShows D) cs rs)
    (fn : α → Except Exn β) :
    (∃ ds ts, (cs.mapM fun c => (fn c.value).map fun v => c.withValue v) = .ok ds ∧
        repairsFmapM fn rs = .ret ts ∧ Each (CandShows D) ds ts) ∨
      ∃ e, (cs.mapM fun c => (fn c.value).map fun v => c.withValue v) = .error e ∧
        repairsFmapM fn rs = .raise e := by
  induction h with
  | nil => exact .inl ⟨[], [], rfl, rfl, .nil⟩
  | @cons c r cs rs h _ ih =>
    simp only [List.mapM_cons, repairsFmapM, Repair.fmapM, ← h.value, Out.bind_def]
    cases hf : fn c.value with
    | error e => exact .inr ⟨e, rfl, rfl⟩
    | ok v =>
      rcases ih with ⟨ds, ts, h1, h2, h3⟩ | ⟨e, h1, h2⟩
      · exact .inl ⟨c.withValue v :: ds, _, by rw [h1]; rfl, by rw [h2]; rfl, .cons (h.withValue v) h3⟩
      · exact .inr ⟨e, by rw [h1]; rfl, by rw [h2]; rfl⟩

theorem finds_fmap {f : ParseFns τ α} {fn : α → Except Exn β} {i : Nat} {ctx : Ctx τ} {k : Int}
    {b : Option Int} {o : Finding α} (h : Finds D o (f.fn s i ctx k b)) :
    Finds D (o.mapM fn) ((fmapFns f fn).fn s i ctx k b) := by
  simp only [fmapFns, fmapFn, Out.bind_def]
  generalize f.fn s i ctx k b = x at h
  cases h with
  | raises => exact .raises
  | @accepts r hc =>
    simp only [Out.bind_ret, Finding.mapM, Result.fmapM, Ok.fmapM, Out.bind_def]
    cases hf : fn r.value with
    | ok v => exact .mk_accepts rfl rfl rfl hc
    | error e => exact .raises
  | rejects hr => exact .mk_rejects hr rfl rfl
  | @repairs q cs r hr h' =>
    simp only [Out.bind_ret, Finding.mapM, Result.fmapM, Out.bind_def]
    rcases each_fmapM h' fn with ⟨ds, ts, h1, h2, h3⟩ | ⟨e, h1, h2⟩
    · rw [h1, h2]; exact .mk_repairs hr rfl rfl h3
    · rw [h1, h2]; exact .raises

/-! ### Choice -/

theorem finds_alt_first {f g : ParseFns τ α} {i : Nat} {ctx : Ctx τ} {k : Int} {b : Option Int} {v : α}
    {j : Nat} {w : List String} (h : Finds D (.accepts v j w) (f.fn s i ctx k none)) :
    Finds D (.accepts v j w) ((altFns f g).fn s i ctx k b) := by
  simp only [altFns, altFn, Out.bind_def]
  obtain ⟨r, h1, rfl, rfl, rfl, h2⟩ := h.inv_accepts
  rw [h1]; exact .accepts h2

theorem finds_alt_final {f g : ParseFns τ α} {i : Nat} {ctx : Ctx τ} {k : Int} {b : Option Int}
    {o : Finding α} (ho : o.final) (h : Finds D o (f.fn s i ctx k none)) :
    Finds D o ((altFns f g).fn s i ctx k b) := by
  simp only [altFns, altFn, Out.bind_def]
  generalize f.fn s i ctx k none = x at h
  cases h with
  | accepts h => exact ho.elim
  | rejects hr =>
    simp only [Out.bind_ret, Finding.final] at ho ⊢
    rw [if_pos ho]; exact .rejects hr
  | repairs hr h' =>
    simp only [Out.bind_ret, Finding.final] at ho ⊢
    rw [if_pos ho]; exact .repairs hr h'
  | raises => exact .raises

theorem alt_eq_second {f g : ParseFns τ α} {i : Nat} {ctx : Ctx τ} {k : Int} {b : Option Int}
    {e : Err} (h : f.fn s i ctx k none = .ret (.error e)) (he : e.consumed = false) :
    (altFns f g).fn s i ctx k b = altSecond f g s i ctx k b e.loc e.expected := by
  simp only [altFns, altFn, Out.bind_def, h, Out.bind_ret, he, Bool.false_eq_true, if_false]

theorem finds_alt_second {f g : ParseFns τ α} {i : Nat} {ctx : Ctx τ} {k : Int} {b : Option Int}
    {q1 : Nat} {w1 : List String} {v : α} {j : Nat} {w : List String} (hg : Framed g)
    (hi : i ≤ s.length) (h : Finds D (.rejects q1 w1 false) (f.fn s i ctx k none))
    (h' : Finds D (.accepts v j w) (g.fn s i ctx k none)) :
    Finds D (.accepts v j (if i < j then w else w1 ++ w)) ((altFns f g).fn s i ctx k b) := by
  obtain ⟨e, h1, h2, rfl, h3⟩ := h.inv_rejects
  rw [alt_eq_second h1 h3]
  obtain ⟨r, h4, rfl, rfl, rfl, h5⟩ := h'.inv_accepts
  have hf : OkFrame .. := hg s i ctx k none _ hi h4
  simp only [altSecond, Out.bind_def, h4, Out.bind_ret, Ok.setExpected, hf.consumed]
  by_cases hlt : i < r.pos <;> simp [hlt]
  · exact .accepts h5
  · exact .mk_accepts rfl rfl rfl h5

theorem finds_alt_second_final {f g : ParseFns τ α} {i : Nat} {ctx : Ctx τ} {k : Int} {b : Option Int}
    {q1 : Nat} {w1 : List String} {o : Finding α} (ho : o.final)
    (h : Finds D (.rejects q1 w1 false) (f.fn s i ctx k none)) (h' : Finds D o (g.fn s i ctx k none)) :
    Finds D o ((altFns f g).fn s i ctx k b) := by
  obtain ⟨e, h1, h2, rfl, h3⟩ := h.inv_rejects
  rw [alt_eq_second h1 h3]
  simp only [altSecond, Out.bind_def]
  generalize g.fn s i ctx k none = x at h'
  cases h' with
  | accepts h => exact ho.elim
  | rejects hr =>
    simp only [Out.bind_ret, Finding.final] at ho ⊢
    rw [if_pos ho]; exact .rejects hr
  | repairs hr h' =>
    simp only [Out.bind_ret, Finding.final] at ho ⊢
    rw [if_pos ho]; exact .repairs hr h'
  | raises => exact .raises

theorem alt_eq_recover {f g : ParseFns τ α} {i : Nat} {ctx : Ctx τ} {k : Int} {b : Option Int}
    {e e' : Err} (h : f.fn s i ctx k none = .ret (.error e)) (he : e.consumed = false)
    (h' : g.fn s i ctx k none = .ret (.error e')) (he' : e'.consumed = false) :
    (altFns f g).fn s i ctx k b = altRecover f g s i ctx k b e.loc (e.expected ++ e'.expected) := by
  rw [alt_eq_second h he]
  simp only [altSecond, Out.bind_def, h', Out.bind_ret, he', Bool.false_eq_true, if_false]

theorem finds_alt_neither {f g : ParseFns τ α} {i : Nat} {ctx : Ctx τ} {k : Int}
    {q1 q2 : Nat} {w1 w2 : List String}
    (h : Finds D (.rejects q1 w1 false) (f.fn s i ctx k none))
    (h' : Finds D (.rejects q2 w2 false) (g.fn s i ctx k none)) :
    Finds D (.rejects q1 (w1 ++ w2) false) ((altFns f g).fn s i ctx k none) := by
  obtain ⟨e, h1, h2, rfl, h3⟩ := h.inv_rejects
  obtain ⟨e', h1', h2', rfl, h3'⟩ := h'.inv_rejects
  rw [alt_eq_recover h1 h3 h1' h3']
  exact .mk_rejects h2 rfl rfl

theorem finds_alt_repair_raises {f g : ParseFns τ α} {i : Nat} {ctx : Ctx τ} {k r : Int}
    {q1 q2 : Nat} {w1 w2 : List String} {e : Exn}
    (h : Finds D (.rejects q1 w1 false) (f.fn s i ctx k none))
    (h' : Finds D (.rejects q2 w2 false) (g.fn s i ctx k none))
    (h'' : Finds D (.raises e) (f.fn s i ctx k (some r))) :
    Finds D (.raises e) ((altFns f g).fn s i ctx k (some r)) := by
  obtain ⟨e, h1, h2, rfl, h3⟩ := h.inv_rejects
  obtain ⟨e', h1', h2', rfl, h3'⟩ := h'.inv_rejects
  rw [alt_eq_recover h1 h3 h1' h3']
  simp only [altRecover, Out.bind_def, h''.inv_raises]
  exact .raises

theorem joinReps_filter {ctx : Ctx τ} {i : Nat} {b : Option Int} {ra rb : Recovered τ α}
    (ha : RecFrame s i ctx b ra) (hb : RecFrame s i ctx b rb) :
    joinReps ra rb = ra.repairs ++ rb.repairs.filter (fun r => r.prio.isSome) := by
  unfold joinReps
  split
  · next m hm =>
    have := ha.minPrio m hm
    congr 1
    apply List.filter_congr
    intro r hr
    rcases (hb.reps r hr).prio with h | h
    · simp [prioBelow, h]
    · simp [prioBelow, h]; omega
  · rfl

theorem finds_setExpected_rec {cs : List (Cand α)} {q : Nat} {w1 w : List String} {b : Bool}
    {r : Recovered τ α} (h1 : D.rel q r.loc) (h2 : r.expected = w1) (h3 : r.consumed = b)
    (h4 : Each (CandShows D) cs r.repairs) :
    Finds D (.repairs (cs.map (Cand.relabel w)) q (if b then w1 else w) b)
      (.ret (.recovered (r.setExpected w))) := by
  subst h2 h3
  exact .mk_repairs h1 rfl rfl (h4.map _ _ fun _ _ _ _ h => h.relabel w)

theorem finds_alt_repair {f g : ParseFns τ α} {i : Nat} {ctx : Ctx τ} {k r : Int}
    {q1 q2 : Nat} {w1 w2 : List String} {o1 o2 : Finding α} (hf : Framed f) (hg : Framed g)
    (hi : i ≤ s.length)
    (h : Finds D (.rejects q1 w1 false) (f.fn s i ctx k none))
    (h' : Finds D (.rejects q2 w2 false) (g.fn s i ctx k none))
    (ho1 : Finds D o1 (f.fn s i ctx k (some r))) (ho2 : Finds D o2 (g.fn s i ctx k (some r))) :
    Finds D (Finding.choice q1 (w1 ++ w2) o1 o2) ((altFns f g).fn s i ctx k (some r)) := by
  obtain ⟨e, h1, h2, rfl, h3⟩ := h.inv_rejects
  obtain ⟨e', h1', h2', rfl, h3'⟩ := h'.inv_rejects
  rw [alt_eq_recover h1 h3 h1' h3']
  simp only [altRecover, Out.bind_def]
  have hA := hf s i ctx k (some r)
  have hB := hg s i ctx k (some r)
  generalize f.fn s i ctx k (some r) = x at ho1 hA
  generalize g.fn s i ctx k (some r) = y at ho2 hB
  cases ho1 with
  | raises => simp only [Finding.choice]; exact .raises
  | accepts _ | rejects _ =>
    cases ho2 with
    | raises => exact .raises
    | accepts _ | rejects _ => exact .mk_rejects h2 rfl rfl
    | repairs hr2 e2 => exact finds_setExpected_rec hr2 rfl rfl e2
  | @repairs p1 cs ra hr1 e1 =>
    cases ho2 with
    | raises => exact .raises
    | accepts _ | rejects _ => exact finds_setExpected_rec hr1 rfl rfl e1
    | @repairs p2 ds rb hr2 e2 =>
      simp only [Out.bind_ret, Finding.choice]
      have hA := hA _ hi rfl
      have hB := hB _ hi rfl
      have hj := joinReps_filter hA hB
      have hE : Each (CandShows D) (cs ++ ds.filter fun d => !d.auto) (joinRepairs ra rb).repairs := by
        rw [joinRepairs_repairs, hj]
        refine e1.append (e2.filter _ _ fun c _ r _ h => ?_)
        rw [h.auto]; cases r.prio <;> rfl
      refine .mk_repairs ?_ ?_ ?_ (hE.map _ _ fun _ _ _ _ h => h.relabel _)
      · show D.rel _ (joinRepairs ra rb).loc
        unfold joinRepairs
        by_cases hca : ra.consumed = true <;> by_cases hcb : rb.consumed = true <;>
          simp [hca, hcb] <;> assumption
      · simp only [Recovered.setExpected, joinRepairs]
        by_cases hca : ra.consumed = true <;> by_cases hcb : rb.consumed = true <;> simp [hca, hcb]
      · simp [Recovered.setExpected]

/-! ### Sequences -/

theorem finds_bind_rejects {f : ParseFns τ α} {g : α → ParseFns τ β} {i : Nat} {ctx : Ctx τ} {k : Int}
    {b : Option Int} {q : Nat} {w : List String} {c : Bool}
    (h : Finds D (.rejects q w c) (f.fn s i ctx k b)) :
    Finds D (.rejects q w c) ((bindFns f g).fn s i ctx k b) := by
  simp only [bindFns, bindFn, Out.bind_def]
  obtain ⟨e, h1, h2, rfl, rfl⟩ := h.inv_rejects
  rw [h1]; exact .rejects h2

theorem finds_bind_raises {f : ParseFns τ α} {g : α → ParseFns τ β} {i : Nat} {ctx : Ctx τ} {k : Int}
    {b : Option Int} {e : Exn} (h : Finds D (.raises e) (f.fn s i ctx k b)) :
    Finds D (.raises e) ((bindFns f g).fn s i ctx k b) := by
  simp only [bindFns, bindFn, Out.bind_def, h.inv_raises]
  exact .raises

theorem bind_eq_ok {f : ParseFns τ α} {g : α → ParseFns τ β} {i : Nat} {ctx : Ctx τ} {k : Int}
    {b : Option Int} {r : Ok τ α} (hf : Framed f) (hi : i ≤ s.length)
    (h : f.fn s i ctx k b = .ret (.ok r)) :
    (bindFns f g).fn s i ctx k b =
      ((g r.value).fn s r.pos r.ctx k (if i < r.pos then some k else b)).bind fun rb =>
        .ret (rb.prependExpected r.expected (decide (i < r.pos))) := by
  have hfr : OkFrame .. := hf s i ctx k b _ hi h
  simp only [bindFns, bindFn, Out.bind_def, h, Out.bind_ret, Out.pure_def, hfr.consumed]
  by_cases hlt : i < r.pos <;> simp [hlt]

theorem finds_bind {f : ParseFns τ α} {g : α → ParseFns τ β} {i : Nat} {ctx : Ctx τ} {k : Int}
    {b : Option Int} {r : Ok τ α} {o : Finding β} (hf : Framed f) (hg : Framed (g r.value))
    (hi : i ≤ s.length) (h : f.fn s i ctx k b = .ret (.ok r))
    (h' : Finds D o ((g r.value).fn s r.pos r.ctx k (if i < r.pos then some k else b))) :
    Finds D (o.after i r.pos r.expected) ((bindFns f g).fn s i ctx k b) := by
  have hfr : OkFrame .. := hf s i ctx k b _ hi h
  rw [bind_eq_ok hf hi h]
  refine finds_after h' rfl fun r' hr' => ?_
  have hfr' : OkFrame .. := hg s r.pos r.ctx k _ _ hfr.hi hr'
  exact hfr'.consumed

/-- What one candidate gives rise to. -/
theorem each_andThen {k : Int} {merge : α → β → γ} {d : Cand α} {r : Repair τ α} {o : Finding β}
    {x : Result τ β} (h : CandShows D d r) (ho : Finds D o (.ret x))
    (hx : ∀ y, x = .ok y → r.pos ≤ y.pos ∧ y.consumed = decide (r.pos < y.pos)) :
    Each (CandShows D) (d.andThen k merge o) (contOne k merge r x) := by
  cases ho with
  | @accepts y hc =>
    obtain ⟨h1, h2⟩ := hx y rfl
    simp only [Cand.andThen, contOne]
    refine .cons ⟨h.cost, h.auto, ?_, h.fixes, by rw [h.value], rfl, hc, ?_, ?_⟩ .nil
    · simp only [h.stop, h.left]
      by_cases hlt : r.pos < y.pos
      · rw [if_pos hlt, if_neg (by omega)]
      · rw [if_neg hlt, if_pos (by omega)]
    · simp only [h.stop, h.wants, appendExpected, h2]
      by_cases hlt : r.pos < y.pos <;> simp [hlt]
    · simp [h.begun, h.stop, h2]
  | rejects _ => exact .nil
  | @repairs q cs y hr he =>
    simp only [Cand.andThen, contOne]
    refine he.map _ _ fun c _ z _ hcz => ⟨by rw [h.cost, hcz.cost], h.auto, hcz.left, ?_, ?_, hcz.stop,
      hcz.ctx, ?_, by simp [h.begun, hcz.begun]⟩
    · refine h.fixes.append (hcz.fixes.map _ _ fun x _ i _ hxi => ?_)
      rw [h.begun, h.wants]
      exact hxi.after _ _
    · simp [h.value, hcz.value]
    · simp [appendExpected, h.wants, hcz.begun, hcz.wants]

/-- Carrying on from every candidate. -/
theorem each_contReps {k : Int} {merge : α → β → γ} {K : α → Nat → Ctx τ → Int → Out (Result τ β)}
    {cs : List (Cand α)} {rs : List (Repair τ α)} {os : List (Finding β)}
    (h : Each (CandShows D) cs rs)
    (ho : Each (fun d o => o.calm ∧ ∀ r ∈ rs, CandShows D d r → Finds D o (K r.value r.pos r.ctx r.ins))
      cs os)
    (hK : ∀ r ∈ rs, ∀ y, K r.value r.pos r.ctx r.ins = .ret (.ok y) →
      r.pos ≤ y.pos ∧ y.consumed = decide (r.pos < y.pos)) :
    ∃ ts, contReps k K merge rs = .ret ts ∧ Each (CandShows D) (andThenAll k merge cs os) ts := by
  induction h generalizing os with
  | nil => cases ho; exact ⟨[], rfl, .nil⟩
  | @cons d r cs rs h hrest ih =>
    cases ho with
    | @cons _ o _ os h1 h2 =>
      obtain ⟨ts, h3, h4⟩ := ih (h2.mono fun d _ o _ ⟨ha, hb⟩ =>
          ⟨ha, fun r hr => hb r (List.mem_cons_of_mem _ hr)⟩)
        fun r hr => hK r (List.mem_cons_of_mem _ hr)
      have h5 := h1.2 r List.mem_cons_self h
      have hK := hK r List.mem_cons_self
      cases hx : K r.value r.pos r.ctx r.ins with
      | diverge => rw [hx] at h5; exact absurd rfl h5.ne
      | raise e => rw [hx] at h5; cases h5; exact h1.1.elim
      | ret x =>
        rw [hx] at h5
        refine ⟨contOne k merge r x ++ ts, ?_, ?_⟩
        · simp only [contReps, Out.bind_def, hx, Out.bind_ret, h3, Out.pure_def]
        · exact (each_andThen h h5 fun y hy => hK y (by rw [hx, hy])).append h4

/-- The first exception. -/
theorem each_contReps_raises {k : Int} {merge : α → β → γ}
    {K : α → Nat → Ctx τ → Int → Out (Result τ β)} {cs ds : List (Cand α)} {d : Cand α}
    {rs : List (Repair τ α)} {os : List (Finding β)} {e : Exn} (h : Each (CandShows D) (cs ++ d :: ds) rs)
    (ho : Each (fun d o => o.calm ∧ ∀ r ∈ rs, CandShows D d r → Finds D o (K r.value r.pos r.ctx r.ins))
      cs os)
    (he : ∀ r ∈ rs, CandShows D d r → Finds D (.raises e) (K r.value r.pos r.ctx r.ins)) :
    contReps k K merge rs = .raise e := by
  induction cs generalizing rs os with
  | nil =>
    cases h with
    | @cons _ r _ rs h _ =>
      simp only [contReps, Out.bind_def, (he r List.mem_cons_self h).inv_raises, Out.bind_raise]
  | cons d' cs ih =>
    cases h with
    | @cons _ r _ rs h hrest =>
      cases ho with
      | @cons _ o _ os h1 h2 =>
        have ih := ih hrest (h2.mono fun d _ o _ ⟨ha, hb⟩ =>
          ⟨ha, fun r hr => hb r (List.mem_cons_of_mem _ hr)⟩)
          fun r hr => he r (List.mem_cons_of_mem _ hr)
        have h5 := h1.2 r List.mem_cons_self h
        simp only [contReps, Out.bind_def]
        cases hx : K r.value r.pos r.ctx r.ins with
        | diverge => rw [hx] at h5; exact absurd rfl h5.ne
        | raise e => rw [hx] at h5; cases h5; exact h1.1.elim
        | ret x => simp only [Out.bind_ret, ih, Out.bind_raise]

/-- What carrying on from every candidate comes to. -/
theorem each_contReps_sound {k : Int} {merge : α → β → γ}
    {K : α → Nat → Ctx τ → Int → Out (Result τ β)} {R : Cand α → Finding β → Prop}
    {cs : List (Cand α)} {rs : List (Repair τ α)} (h : Each (CandShows D) cs rs)
    (hR : ∀ d r, r ∈ rs → CandShows D d r → K r.value r.pos r.ctx r.ins ≠ .diverge →
      ∃ o, R d o ∧ Finds D o (K r.value r.pos r.ctx r.ins))
    (hK : ∀ r ∈ rs, ∀ y, K r.value r.pos r.ctx r.ins = .ret (.ok y) →
      r.pos ≤ y.pos ∧ y.consumed = decide (r.pos < y.pos))
    (hne : contReps k K merge rs ≠ .diverge) :
    (∃ os ts, Each (fun d o => R d o ∧ o.calm) cs os ∧ contReps k K merge rs = .ret ts ∧
        Each (CandShows D) (andThenAll k merge cs os) ts) ∨
      ∃ cs' d ds os e, cs = cs' ++ d :: ds ∧ Each (fun d o => R d o ∧ o.calm) cs' os ∧
        R d (.raises e) ∧ contReps k K merge rs = .raise e := by
  induction h with
  | nil => exact .inl ⟨[], [], .nil, rfl, .nil⟩
  | @cons d r cs rs h hrest ih =>
    have h0 : K r.value r.pos r.ctx r.ins ≠ .diverge := fun h => hne (by simp [contReps, h])
    obtain ⟨o, h1, h2⟩ := hR d r List.mem_cons_self h h0
    have hK0 := hK r List.mem_cons_self
    simp only [contReps, Out.bind_def] at hne ⊢
    cases hx : K r.value r.pos r.ctx r.ins with
    | diverge => exact absurd hx h0
    | raise e =>
      rw [hx] at h2
      cases h2
      exact .inr ⟨[], d, cs, [], e, rfl, .nil, h1, rfl⟩
    | ret x =>
      rw [hx] at h2 hne
      simp only [Out.bind_ret] at hne ⊢
      have hcalm : o.calm := by cases h2 <;> trivial
      rcases ih (fun d r hr => hR d r (List.mem_cons_of_mem _ hr))
        (fun r hr => hK r (List.mem_cons_of_mem _ hr)) (fun h => hne (by simp [h])) with
        ⟨os, ts, h3, h4, h5⟩ | ⟨cs', d', ds, os, e, rfl, h3, h4, h5⟩
      · refine .inl ⟨o :: os, _, .cons ⟨h1, hcalm⟩ h3, by rw [h4]; rfl, ?_⟩
        exact (each_andThen h h2 fun y hy => hK0 y (by rw [hx, hy])).append h5
      · exact .inr ⟨d :: cs', d', ds, o :: os, e, rfl, .cons ⟨h1, hcalm⟩ h3, h4, by rw [h5]; rfl⟩

theorem finds_continue {k : Int} {merge : α → β → γ} {K : α → Nat → Ctx τ → Int → Out (Result τ β)}
    {r : Recovered τ α} {ts : List (Repair τ γ)} {cs : List (Cand γ)} {q : Nat} {w : List String}
    {c : Bool} (h : contReps k K merge r.repairs = .ret ts) (he : Each (CandShows D) cs ts)
    (hq : D.rel q r.loc) (hw : r.expected = w) (hc : r.consumed = c) :
    Finds D (.repairs cs q w c) (continueParse r k K merge) := by
  simp only [continueParse, Out.bind_def, h]
  exact .mk_repairs hq hw hc he

theorem finds_continue_raises {k : Int} {merge : α → β → γ}
    {K : α → Nat → Ctx τ → Int → Out (Result τ β)} {r : Recovered τ α} {e : Exn}
    (h : contReps k K merge r.repairs = .raise e) :
    Finds D (.raises e) (continueParse r k K merge) := by
  simp only [continueParse, Out.bind_def, h]
  exact .raises

end Reparsec
