import Verif.Lemmas.RecoveryPrims

/-!
# The recovering mode shows exactly the recovering evaluation relation
-/

namespace Reparsec

variable {τ ρ : Type} {Γ : ρ → Type} {α β γ : Type} {s : List τ} {D : LocDisc s}

section
variable [BEq τ] {env : Env τ ρ Γ} {k : Int}

/-- Every run that ends shows a finding of the relation. -/
def RecAt (env : Env τ ρ Γ) (D : LocDisc s) (k : Int) (p : P τ ρ Γ α) (f : ParseFns τ α) : Prop :=
  ∀ i ctx b, i ≤ s.length → CtxOK D ctx i → f.fn s i ctx k b ≠ .diverge →
    ∃ o, Rec env s D.col k p ctx.mark i b o ∧ Finds D o (f.fn s i ctx k b)

theorem rec_satisfy (test : τ → Except Exn Bool) : RecAt env D k (.satisfy test) (satisfyFns test) := by
  intro i ctx b hi hc _
  cases h0 : testAt test s i with
  | error e =>
    obtain ⟨t, h1, h2⟩ := testAt_error_iff.1 h0
    exact ⟨_, .satisfyRaises h1 h2, finds_satisfy_raises h1 h2⟩
  | ok x =>
    cases x with
    | some t =>
      obtain ⟨h1, h2⟩ := testAt_some_iff.1 h0
      exact ⟨_, .satisfy h1 h2, finds_satisfy hc h1 h2⟩
    | none =>
      have h0 := testAt_none_iff.1 h0
      cases b with
      | none => exact ⟨_, .satisfyNot h0, finds_satisfy_not hi hc h0⟩
      | some r =>
        have hstep : ∀ {c}, (∀ n, i + 1 ≤ n → n < c → testAt test s n = .ok none) →
            ∀ n, i ≤ n → n < c → ∀ t, s[n]? = some t → test t = .ok false := by
          intro c h n h1 h2
          rcases Nat.eq_or_lt_of_le h1 with rfl | h1
          · exact h0
          · exact testAt_none_iff.1 (h n h1 h2)
        rcases scan_cases (testAt test s) (s.length - (i + 1)) (i + 1) with
          ⟨c, t, h1, h2, h3, h4⟩ | h | ⟨c, e, h1, h2, h3, h4⟩
        · obtain ⟨h5, h6⟩ := testAt_some_iff.1 h3
          exact ⟨_, .satisfySkip h1 (hstep h4) h5 h6, finds_satisfy_skip hi hc h1 (hstep h4) h5 h6⟩
        · have : ∀ n, i ≤ n → ∀ t, s[n]? = some t → test t = .ok false := by
            intro n h1 t ht
            have hlt := (List.getElem?_eq_some_iff.1 ht).1
            exact hstep (c := s.length) (fun n h1 h2 => h n h1 (by omega)) n h1 hlt t ht
          exact ⟨_, .satisfyNever this, finds_satisfy_never hi hc this⟩
        · obtain ⟨t, h5, h6⟩ := testAt_error_iff.1 h3
          exact ⟨_, .satisfySkipRaises h1 (hstep h4) h5 h6, finds_satisfy_skip_raises h1 (hstep h4) h5 h6⟩

theorem rec_sym (x : τ) (l : String) : RecAt env D k (.sym x l) (symFns x l) := by
  intro i ctx b hi hc _
  cases h0 : symAt x s i with
  | some t =>
    obtain ⟨h1, h2⟩ := symAt_some_iff.1 h0
    exact ⟨_, .sym h1 h2, finds_sym hc h1 h2⟩
  | none =>
    have h0 := symAt_none_iff.1 h0
    cases b with
    | none => exact ⟨_, .symNot h0, finds_sym_not hi hc h0⟩
    | some r =>
      have hstep : ∀ {c}, (∀ n, i + 1 ≤ n → n < c → (Except.ok (symAt x s n) : Except Exn _) = .ok none) →
          ∀ n, i ≤ n → n < c → ∀ t, s[n]? = some t → (t == x) = false := by
        intro c h n h1 h2
        rcases Nat.eq_or_lt_of_le h1 with rfl | h1
        · exact h0
        · exact symAt_none_iff.1 (by simpa using h n h1 h2)
      rcases scan_cases (fun n => (.ok (symAt x s n) : Except Exn _)) (s.length - (i + 1)) (i + 1) with
        ⟨c, t, h1, h2, h3, h4⟩ | h | ⟨c, e, h1, h2, h3, h4⟩
      · obtain ⟨h5, h6⟩ := symAt_some_iff.1 (Except.ok.inj h3)
        exact ⟨_, .symSkip h1 (hstep h4) h5 h6, finds_sym_skip hi hc h1 (hstep h4) h5 h6⟩
      · have : ∀ n, i ≤ n → ∀ t, s[n]? = some t → (t == x) = false := by
          intro n h1 t ht
          have hlt := (List.getElem?_eq_some_iff.1 ht).1
          exact hstep (c := s.length) (fun n h1 h2 => h n h1 (by omega)) n h1 hlt t ht
        exact ⟨_, .symNever this, finds_sym_never hi hc this⟩
      · cases h3

theorem rec_literal (x : List τ) (l : String) (hx : x ≠ []) :
    RecAt env D k (.literal x l hx) (literalFns x l) := by
  intro i ctx b hi hc _
  cases h0 : x.isPrefixOf (s.drop i) with
  | true => exact ⟨_, .literal h0, finds_literal hx hc h0⟩
  | false =>
    cases b with
    | none => exact ⟨_, .literalNot h0, finds_literal_not hi hc h0⟩
    | some r =>
      have hn : ∀ n, (Except.ok (if startsWith x s n then some () else none) : Except Exn _) = .ok none →
          x.isPrefixOf (s.drop n) = false := by
        intro n h
        cases hs : startsWith x s n with
        | true => simp [hs] at h
        | false => exact hs
      have hstep : ∀ {c}, (∀ n, i + 1 ≤ n → n < c →
          (Except.ok (if startsWith x s n then some () else none) : Except Exn _) = .ok none) →
          ∀ n, i ≤ n → n < c → x.isPrefixOf (s.drop n) = false := by
        intro c h n h1 h2
        rcases Nat.eq_or_lt_of_le h1 with rfl | h1
        · exact h0
        · exact hn n (h n h1 h2)
      rcases scan_cases (fun n => (.ok (if startsWith x s n then some () else none) : Except Exn _))
        (s.length - (i + 1)) (i + 1) with ⟨c, t, h1, h2, h3, h4⟩ | h | ⟨c, e, h1, h2, h3, h4⟩
      · have h5 : x.isPrefixOf (s.drop c) = true := by
          cases hs : startsWith x s c with
          | true => exact hs
          | false => simp [hs] at h3
        exact ⟨_, .literalSkip h1 (hstep h4) h5, finds_literal_skip hx hi hc h1 (hstep h4) h5⟩
      · have : ∀ n, i ≤ n → x.isPrefixOf (s.drop n) = false := by
          intro n h1
          by_cases hlt : n < s.length
          · exact hstep (c := s.length) (fun n h1 h2 => h n h1 (by omega)) n h1 hlt
          · rw [List.drop_eq_nil_of_le (by omega)]
            cases x with
            | nil => exact absurd rfl hx
            | cons a x => rfl
        exact ⟨_, .literalNever this, finds_literal_never hi hc this⟩
      · cases h3

theorem rec_regexp (mt : Matcher τ β) : RecAt env D k (.regexp mt) (regexpFns mt) := by
  intro i ctx b hi hc _
  cases h0 : mt.at s i with
  | error e =>
    obtain ⟨j, h1⟩ := Matcher.at_error_iff.1 h0
    exact ⟨_, .regexpRaises h1, finds_regexp_raises h1⟩
  | ok x =>
    cases x with
    | some y =>
      obtain ⟨j, v⟩ := y
      have h1 := Matcher.at_some_iff.1 h0
      exact ⟨_, .regexp h1, finds_regexp hi hc h1⟩
    | none =>
      have h0 := Matcher.at_none_iff.1 h0
      cases b with
      | none => exact ⟨_, .regexpNot h0, finds_regexp_not hi hc h0⟩
      | some r =>
        have hstep : ∀ {c}, (∀ n, i + 1 ≤ n → n < c → mt.at s n = .ok none) →
            ∀ n, i ≤ n → n < c → mt.Misses s n := by
          intro c h n h1 h2
          rcases Nat.eq_or_lt_of_le h1 with rfl | h1
          · exact h0
          · exact Matcher.at_none_iff.1 (h n h1 h2)
        rcases scan_cases (mt.at s) (s.length - (i + 1)) (i + 1) with
          ⟨c, y, h1, h2, h3, h4⟩ | h | ⟨c, e, h1, h2, h3, h4⟩
        · obtain ⟨j, v⟩ := y
          have h5 := Matcher.at_some_iff.1 h3
          exact ⟨_, .regexpSkip h1 (by omega) (hstep h4) h5,
            finds_regexp_skip hi hc h1 (by omega) (hstep h4) h5⟩
        · have : ∀ n, i < n → n < s.length → mt.Misses s n := fun n h1 h2 =>
            Matcher.at_none_iff.1 (h n h1 (by omega))
          exact ⟨_, .regexpNever h0 this, finds_regexp_never hi hc h0 this⟩
        · obtain ⟨j, h5⟩ := Matcher.at_error_iff.1 h3
          exact ⟨_, .regexpSkipRaises h1 (by omega) (hstep h4) h5,
            finds_regexp_skip_raises h1 (by omega) (hstep h4) h5⟩

theorem rec_fmap {p : P τ ρ Γ α} {f : ParseFns τ α} (fn : α → Except Exn β) (hp : RecAt env D k p f) :
    RecAt env D k (.fmap p fn) (fmapFns f fn) := by
  intro i ctx b hi hc hne
  obtain ⟨o, h1, h2⟩ := hp i ctx b hi hc fun h => hne (by simp [fmapFns, fmapFn, h])
  exact ⟨_, .fmap h1, finds_fmap h2⟩

omit [BEq τ] in
/-- Without permission to repair, there are no candidates before input is consumed. -/
theorem Finds.cases {f : ParseFns τ α} {i : Nat} {ctx : Ctx τ} {o : Finding α} (hf : Framed f)
    (hi : i ≤ s.length) (h : Finds D o (f.fn s i ctx k none)) :
    (∃ v j w, o = .accepts v j w) ∨ o.final ∨ ∃ q w, o = .rejects q w false := by
  have hfr := hf s i ctx k none
  generalize f.fn s i ctx k none = x at h hfr
  cases h with
  | accepts h => exact .inl ⟨_, _, _, rfl⟩
  | raises => exact .inr (.inl trivial)
  | @rejects q e h =>
    obtain ⟨loc, ex, c⟩ := e
    cases c with
    | true => exact .inr (.inl rfl)
    | false => exact .inr (.inr ⟨_, _, rfl⟩)
  | @repairs q cs r h h' =>
    have hr : RecFrame .. := hfr _ hi rfl
    exact .inr (.inl (hr.consumed rfl))

theorem rec_alt {p q : P τ ρ Γ α} {f g : ParseFns τ α} (hff : Framed f) (hfg : Framed g)
    (hp : RecAt env D k p f) (hq : RecAt env D k q g) : RecAt env D k (.alt p q) (altFns f g) := by
  intro i ctx b hi hc hne
  obtain ⟨o1, h1, h2⟩ := hp i ctx none hi hc fun h => hne (by simp [altFns, altFn, h])
  rcases h2.cases hff hi with ⟨v, j, w, rfl⟩ | hfin | ⟨q1, w1, rfl⟩
  · exact ⟨_, .altFirst h1, finds_alt_first h2⟩
  · exact ⟨_, .altFinal h1 hfin, finds_alt_final hfin h2⟩
  obtain ⟨e, he1, he2, he3, he4⟩ := h2.inv_rejects
  have heq := alt_eq_second (g := g) (b := b) he1 he4
  obtain ⟨o2, h3, h4⟩ := hq i ctx none hi hc fun h => hne (by rw [heq]; simp [altSecond, h])
  rcases h4.cases hfg hi with ⟨v, j, w, rfl⟩ | hfin | ⟨q2, w2, rfl⟩
  · exact ⟨_, .altSecond h1 h3, finds_alt_second hfg hi h2 h4⟩
  · exact ⟨_, .altSecondFinal h1 h3 hfin, finds_alt_second_final hfin h2 h4⟩
  cases b with
  | none => exact ⟨_, .altNeither h1 h3, finds_alt_neither h2 h4⟩
  | some r =>
    obtain ⟨e', he1', he2', he3', he4'⟩ := h4.inv_rejects
    have heq := alt_eq_recover (b := some r) he1 he4 he1' he4'
    obtain ⟨o3, h5, h6⟩ := hp i ctx (some r) hi hc fun h => hne (by rw [heq]; simp [altRecover, h])
    by_cases hcalm : o3.calm
    · obtain ⟨o4, h7, h8⟩ := hq i ctx (some r) hi hc fun h => hne (by
        rw [heq]
        cases hx : f.fn s i ctx k (some r) with
        | diverge => simp [altRecover, hx]
        | raise e => rw [hx] at h6; cases h6; exact hcalm.elim
        | ret y => simp [altRecover, hx, h])
      exact ⟨_, .altRepair h1 h3 h5 h7, finds_alt_repair hff hfg hi h2 h4 h6 h8⟩
    · cases o3 with
      | raises e => exact ⟨_, .altRepairRaises h1 h3 h5, finds_alt_repair_raises h2 h4 h6⟩
      | accepts => exact absurd trivial hcalm
      | rejects => exact absurd trivial hcalm
      | repairs => exact absurd trivial hcalm

omit [BEq τ] in
theorem bind_eq_repairs {f : ParseFns τ α} {g : α → ParseFns τ β} {i : Nat} {ctx : Ctx τ}
    {b : Option Int} {r : Recovered τ α} (h : f.fn s i ctx k b = .ret (.recovered r)) :
    (bindFns f g).fn s i ctx k b =
      continueParse r k (fun v p' c x => (g v).fn s p' c k (some x)) fun _ v => v := by
  simp only [bindFns, bindFn, Out.bind_def, h, Out.bind_ret]

omit [BEq τ] in
theorem framed_ok {f : ParseFns τ α} (hf : Framed f) {i : Nat} {ctx : Ctx τ} {b : Option Int}
    {y : Ok τ α} (hi : i ≤ s.length) (h : f.fn s i ctx k b = .ret (.ok y)) :
    i ≤ y.pos ∧ y.consumed = decide (i < y.pos) := by
  have hfr : OkFrame .. := hf s i ctx k b _ hi h
  exact ⟨hfr.lo, hfr.consumed⟩

omit [BEq τ] in
theorem Each.and {R R' : α → β → Prop} {xs : List α} {ys : List β}
    (h : Each (fun x y => R x y ∧ R' x y) xs ys) : Each R xs ys ∧ Each R' xs ys :=
  ⟨h.mono fun _ _ _ _ h => h.1, h.mono fun _ _ _ _ h => h.2⟩

omit [BEq τ] in
theorem Each.right {R : β → Prop} {xs : List α} {ys : List β} (h : Each (fun _ y => R y) xs ys) :
    ∀ y ∈ ys, R y := by
  induction h with
  | nil => simp
  | cons h _ ih =>
    intro y hy
    rcases List.mem_cons.1 hy with rfl | hy
    · exact h
    · exact ih y hy

theorem rec_bind {p : P τ ρ Γ α} {c : α → P τ ρ Γ β} {f : ParseFns τ α} {g : α → ParseFns τ β}
    (hff : Framed f) (hfg : ∀ a, Framed (g a)) (hp : RecAt env D k p f)
    (hq : ∀ a, RecAt env D k (c a) (g a)) : RecAt env D k (.bind p c) (bindFns f g) := by
  intro i ctx b hi hc hne
  obtain ⟨o, h1, h2⟩ := hp i ctx b hi hc fun h => hne (by simp [bindFns, bindFn, h])
  cases o with
  | raises e => exact ⟨_, .bindRaises h1, finds_bind_raises h2⟩
  | rejects q w e => exact ⟨_, .bindRejects h1, finds_bind_rejects h2⟩
  | accepts v j w =>
    obtain ⟨r, h3, rfl, rfl, rfl, h4⟩ := h2.inv_accepts
    have hfr : OkFrame .. := hff s i ctx k b _ hi h3
    obtain ⟨o, h5, h6⟩ := hq r.value r.pos r.ctx (if i < r.pos then some k else b) hfr.hi h4
      fun h => hne (by rw [bind_eq_ok hff hi h3, h]; rfl)
    rw [hfr.ctx.mark] at h5
    exact ⟨_, .bind h1 h5, finds_bind hff (hfg _) hi h3 h6⟩
  | repairs cs q w e =>
    obtain ⟨r, h3, h4, rfl, rfl, h5⟩ := h2.inv_repairs
    have hfr : RecFrame .. := hff s i ctx k b _ hi h3
    have heq := bind_eq_repairs (g := g) h3
    rw [heq] at hne ⊢
    rcases each_contReps_sound (k := k) (merge := fun _ (v : β) => v)
        (K := fun v p' c x => (g v).fn s p' c k (some x))
        (R := fun d o => Rec env s D.col k (c d.value) ctx.mark d.stop (some d.left) o) h5
        (fun d y hy hd hn => by
          have hy' := hfr.reps y hy
          obtain ⟨o, h6, h7⟩ := hq y.value y.pos y.ctx (some y.ins) hy'.hi hd.ctx hn
          rw [hy'.ctx.mark] at h6
          rw [hd.value, hd.stop, hd.left]
          exact ⟨o, h6, h7⟩)
        (fun y hy z hz => framed_ok (hfg _) (hfr.reps y hy).hi hz)
        (fun h => hne (by simp [continueParse, h])) with
      ⟨os, ts, h6, h7, h8⟩ | ⟨cs', d, ds, os, e, rfl, h6, h7, h8⟩
    · obtain ⟨h9, h10⟩ := h6.and
      exact ⟨_, .bindRepairs h1 h9.length.symm (fun n d o hd ho => h9.get hd ho) h10.right,
        finds_continue h7 h8 h4 rfl rfl⟩
    · obtain ⟨h9, h10⟩ := h6.and
      exact ⟨_, .bindRepairsRaises h1 h9.length.symm (fun n d o hd ho => h9.get hd ho) h10.right h7,
        finds_continue_raises h8⟩

theorem rec_many {p : P τ ρ Γ α} {f : ParseFns τ α} (hs : Sim f) (hf : Framed f)
    (hp : RecAt env D k p f) (n : Nat) : RecAt env D k (.many p) (manyFns n f) := by
  intro i ctx b hi hc hne
  show ∃ o, _ ∧ Finds D o (manyLoop f.fn s k n i ctx false [])
  have hne : manyLoop f.fn s k n i ctx false [] ≠ .diverge := hne
  induction n generalizing i ctx b with
  | zero => exact absurd rfl hne
  | succ n ih =>
    obtain ⟨o, h1, h2⟩ := hp i ctx none hi hc fun h => hne (by simp [manyLoop, h])
    cases o with
    | raises e => exact ⟨_, .manyRaises h1, finds_many_raises h2⟩
    | rejects q w c =>
      cases c with
      | true => exact ⟨_, .manyRejects h1, finds_many_rejects h2⟩
      | false => exact ⟨_, .manyEnd h1, finds_many_end hc h2⟩
    | accepts v j w =>
      obtain ⟨r, h3, rfl, rfl, rfl, h4⟩ := h2.inv_accepts
      have hfr : OkFrame .. := hf s i ctx k none _ hi h3
      by_cases hlt : i < r.pos
      · have hne' : manyLoop f.fn s k n r.pos r.ctx false [] ≠ .diverge := by
          intro h
          apply hne
          simp only [manyLoop, Out.bind_def, h3, Out.bind_ret, hfr.consumed, hlt, decide_true,
            if_true, List.nil_append]
          exact manyLoop_acc_ne _ _ _ _ _ _ _ _ _ h
        obtain ⟨o, h5, h6⟩ := ih r.pos r.ctx none hfr.hi h4 hne' hne'
        rw [hfr.ctx.mark] at h5
        exact ⟨_, .manyItem h1 hlt h5, finds_many_item hf hi h3 hlt h6⟩
      · have he : r.pos = i := by have := hfr.lo; omega
        rw [he] at h1
        exact ⟨_, .manyEmpty h1, finds_many_empty hf hi h3 hlt⟩
    | repairs cs q w c =>
      obtain ⟨r, h3, h4, rfl, rfl, h5⟩ := h2.inv_repairs
      have hfr : RecFrame .. := hf s i ctx k none _ hi h3
      rw [many_eq_repairs h3] at hne ⊢
      have hfm : Framed (manyFns n f) := ((frame_closed.closed env).many p f n ⟨hs, hf⟩).2
      rcases each_contReps_sound (k := k) (merge := (List.cons : α → List α → List α))
          (K := fun _ p' c _ => manyLoop f.fn s k n p' c false [])
          (R := fun d o => Rec env s D.col k (.many p) ctx.mark d.stop none o) h5
          (fun d y hy hd hn => by
            have hy' := hfr.reps y hy
            obtain ⟨o, h6, h7⟩ := ih y.pos y.ctx none hy'.hi hd.ctx hn hn
            rw [hy'.ctx.mark] at h6
            rw [hd.stop]
            exact ⟨o, h6, h7⟩)
          (fun y hy z hz => framed_ok (b := none) hfm (hfr.reps y hy).hi hz)
          (fun h => hne (by simp [continueParse, h])) with
        ⟨os, ts, h6, h7, h8⟩ | ⟨cs', d, ds, os, e, rfl, h6, h7, h8⟩
      · obtain ⟨h9, h10⟩ := h6.and
        exact ⟨_, .manyRepairs h1 h9.length.symm (fun n d o hd ho => h9.get hd ho) h10.right,
          finds_continue h7 h8 h4 rfl rfl⟩
      · obtain ⟨h9, h10⟩ := h6.and
        exact ⟨_, .manyRepairsRaises h1 h9.length.symm (fun n d o hd ho => h9.get hd ho) h10.right h7,
          finds_continue_raises h8⟩

theorem rec_attempt {p : P τ ρ Γ α} {f : ParseFns τ α} (he : EvalAt env D p f)
    (hp : RecAt env D k p f) : RecAt env D k (.attempt p) (attemptFns f) := by
  intro i ctx b hi hc hne
  cases b with
  | none =>
    obtain ⟨o, h1, h2⟩ := he i ctx hi hc fun h => hne (by simp [attemptFns, attemptFn, h])
    exact ⟨_, .attempt h1, finds_attempt h2⟩
  | some r =>
    obtain ⟨o, h1, h2⟩ := hp i ctx (some r) hi hc hne
    exact ⟨_, .attemptRepair h1, h2⟩

theorem rec_label {p : P τ ρ Γ α} {f : ParseFns τ α} {x : String} (hf : Framed f)
    (hp : RecAt env D k p f) : RecAt env D k (.label p x) (labelFns f x) := by
  intro i ctx b hi hc hne
  obtain ⟨o, h1, h2⟩ := hp i ctx b hi hc fun h => hne (by simp [labelFns, h])
  exact ⟨_, .label h1, finds_label hf hi h2⟩

theorem rec_recover {p : P τ ρ Γ α} {f : ParseFns τ α}
    (hp : RecAt env D k p f) : RecAt env D k (.recover p) (recoverFns f) := by
  intro i ctx b hi hc hne
  obtain ⟨o, h1, h2⟩ := hp i ctx b hi hc fun h => hne (by simp [recoverFns, recoverFn, h])
  exact ⟨_, .recover h1, finds_recover h2⟩

theorem rec_recoverWithFn {p : P τ ρ Γ α} {f : ParseFns τ α} {fn : List τ → Nat → Except Exn α}
    {lbl : α → String} (hp : RecAt env D k p f) :
    RecAt env D k (.recoverWithFn p fn lbl) (recoverWithFnFns f fn lbl) := by
  intro i ctx b hi hc hne
  obtain ⟨o, h1, h2⟩ := hp i ctx b hi hc fun h => hne (by
    cases b <;> simp [recoverWithFnFns, recoverWithFnFn, h])
  by_cases hb : b = none ∨ b = some 0 ∨ o.gaveUp = none
  · exact ⟨_, .recoverWithFnNo h1 hb, finds_recoverWithFn_no hb h2⟩
  · simp only [not_or] at hb
    obtain ⟨hb1, hb2, hb3⟩ := hb
    cases b with
    | none => exact absurd rfl hb1
    | some r =>
      have hr : r ≠ 0 := fun h => hb2 (by rw [h])
      cases hx : fn s i with
      | ok x => exact ⟨_, .recoverWithFn h1 hr hb3 hx, finds_recoverWithFn hi hc hr hb3 hx h2⟩
      | error e => exact ⟨_, .recoverWithFnRaises h1 hr hb3 hx, finds_recoverWithFn_raises hr hb3 hx h2⟩

theorem rec_block {p : P τ ρ Γ α} {f : ParseFns τ α} (hf : Framed f) (hl : D.layout)
    (h : RecAt env D k p f) : RecAt env D k (.block p) (blockFns f) := by
  intro i ctx b hi hc hne
  obtain ⟨o, h1, h2⟩ := h i ((ctx.updateLoc s i).setMark (ctx.updateLoc s i).loc.col) b hi
    ((hc.updateLoc (Nat.le_refl _) hi).setMark _) fun h => hne (by simp [blockFns, h])
  exact ⟨_, .block (hc.here hi hl).2 h1, finds_block hf hi hc h2⟩

theorem rec_aligned {p : P τ ρ Γ α} {f : ParseFns τ α} (hl : D.layout)
    (h : RecAt env D k p f) : RecAt env D k (.aligned p) (alignedFns f) := by
  intro i ctx b hi hc hne
  have hh := hc.here hi hl
  simp only [alignedFns] at hne ⊢
  split
  · next heq =>
    rw [if_pos heq] at hne
    obtain ⟨o, h1, h2⟩ := h i (ctx.updateLoc s i) b hi (hc.updateLoc (Nat.le_refl _) hi) hne
    rw [updateLoc_mark] at h1 heq
    exact ⟨_, .aligned (heq ▸ hh.2) h1, h2⟩
  · next hn =>
    rw [updateLoc_mark] at hn
    exact ⟨_, .alignedNot hh.2 fun h => hn h.symm, .mk_rejects hh.1 rfl rfl⟩

theorem rec_indented {p : P τ ρ Γ α} {f : ParseFns τ α} {delta : Int} (hf : Framed f)
    (hl : D.layout) (h : RecAt env D k p f) :
    RecAt env D k (.indented delta p) (indentedFns delta f) := by
  intro i ctx b hi hc hne
  have hh := hc.here hi hl
  by_cases heq : ((ctx.updateLoc s i).mark : Int) + delta = (ctx.updateLoc s i).loc.col
  · obtain ⟨o, h1, h2⟩ := h i ((ctx.updateLoc s i).setMark (ctx.updateLoc s i).loc.col) b hi
      ((hc.updateLoc (Nat.le_refl _) hi).setMark _) fun h => hne (by simp [indentedFns, h, heq])
    exact ⟨_, .indented hh.2 (by rw [updateLoc_mark] at heq; exact heq) h1,
      finds_indented hf hi hc heq h2⟩
  · refine ⟨_, .indentedNot hh.2 (by rw [updateLoc_mark] at heq; exact heq), ?_⟩
    simp only [indentedFns, heq, if_false]
    exact .mk_rejects hh.1 rfl rfl

theorem rec_pure (x : α) : RecAt env D k (.pure x) (pureFns x) := fun _ _ _ _ hc _ =>
  ⟨_, .pure, .mk_accepts rfl rfl rfl hc⟩

structure RecQ (env : Env τ ρ Γ) (D : LocDisc s) (k : Int) (p : P τ ρ Γ α) (f : ParseFns τ α) :
    Prop where
  base : EvalQ env D p f
  find : (D.layout ∨ p.All P.notLayout) → RecAt env D k p f

theorem rec_closed (env : Env τ ρ Γ) (D : LocDisc s) (k : Int)
    (henv : D.layout ∨ ∀ i q, env i = some q → q.All P.notLayout) :
    Closed env (fun {_} p f => RecQ env D k p f) := by
  have ec := eval_closed env D henv
  have fc := frame_closed.closed (τ := τ) env
  exact {
    pure := fun x => ⟨ec.pure x, fun _ => rec_pure x⟩
    pureFn := fun x => ⟨ec.pureFn x, fun _ i ctx b hi hc _ => by
      cases x with
      | ok v => exact ⟨_, .pureFn, .mk_accepts rfl rfl rfl hc⟩
      | error e => exact ⟨_, .pureFnRaises, .raises⟩⟩
    unexpected := fun x => ⟨ec.unexpected x, fun _ i ctx b hi hc _ =>
      ⟨_, .unexpected, .mk_rejects (hc.report (Nat.le_refl _) hi) rfl rfl⟩⟩
    eof := ⟨ec.eof, fun _ i ctx b hi hc _ => by
      by_cases h : i = s.length
      · have := finds_eof (k := k) (b := b) hc h
        subst h; exact ⟨_, .eof, this⟩
      · cases b with
        | none => exact ⟨_, .eofNot h, finds_eof_not hi hc h⟩
        | some r => exact ⟨_, .eofSkip h, finds_eof_skip hi hc h⟩⟩
    satisfy := fun t => ⟨ec.satisfy t, fun _ => rec_satisfy t⟩
    sym := fun x l => ⟨ec.sym x l, fun _ => rec_sym x l⟩
    literal := fun x ss h => ⟨ec.literal x ss h, fun _ => rec_literal x ss h⟩
    regexp := fun m => ⟨ec.regexp m, fun _ => rec_regexp m⟩
    fmap := fun p f fn h => ⟨ec.fmap p f fn h.base, fun hl =>
      rec_fmap fn (h.find (hl.imp_right fun h => h.2))⟩
    alt := fun p q f g hf hg => ⟨ec.alt p q f g hf.base hg.base, fun hl =>
      rec_alt hf.base.frame hg.base.frame (hf.find (hl.imp_right fun h => h.2.1))
        (hg.find (hl.imp_right fun h => h.2.2))⟩
    bind := fun p f k g hf hg => ⟨ec.bind p f k g hf.base fun a => (hg a).base, fun hl =>
      rec_bind hf.base.frame (fun a => (hg a).base.frame) (hf.find (hl.imp_right fun h => h.2.1))
        fun a => (hg a).find (hl.imp_right fun h => h.2.2 a)⟩
    seqWith := fun p f q g merge hf hg => ⟨ec.seqWith p f q g merge hf.base hg.base, fun hl => by
      rw [seqFns_eq]
      intro i ctx b hi hc hne
      obtain ⟨o, h1, h2⟩ := rec_bind (c := fun a => .fmap q fun b => .ok (merge a b)) hf.base.frame
        (fun a => (fc.fmap q g (fun b => .ok (merge a b)) ⟨hg.base.sim, hg.base.frame⟩).2)
        (hf.find (hl.imp_right fun h => h.2.1))
        (fun a => rec_fmap _ (hg.find (hl.imp_right fun h => h.2.2))) i ctx b hi hc hne
      exact ⟨o, .seq h1, h2⟩⟩
    maybe := fun p f h => ⟨ec.maybe p f h.base, fun hl => by
      rw [maybeFns_eq]
      intro i ctx b hi hc hne
      obtain ⟨o, h1, h2⟩ := rec_alt
        (fc.fmap p f (fun a => .ok (some a)) ⟨h.base.sim, h.base.frame⟩).2 (fc.pure none).2
        (rec_fmap _ (h.find (hl.imp_right fun h => h.2))) (rec_pure none) i ctx b hi hc hne
      exact ⟨o, .maybe h1, h2⟩⟩
    many := fun p f fuel h => ⟨ec.many p f fuel h.base, fun hl =>
      rec_many h.base.sim h.base.frame (h.find (hl.imp_right fun h => h.2)) fuel⟩
    attempt := fun p f h => ⟨ec.attempt p f h.base, fun hl =>
      rec_attempt (h.base.eval (hl.imp_right fun h => h.2)) (h.find (hl.imp_right fun h => h.2))⟩
    label := fun p f x h => ⟨ec.label p f x h.base, fun hl =>
      rec_label h.base.frame (h.find (hl.imp_right fun h => h.2))⟩
    recover := fun p f h => ⟨ec.recover p f h.base, fun hl =>
      rec_recover (h.find (hl.imp_right fun h => h.2))⟩
    recoverWith := fun p f x vs h => ⟨ec.recoverWith p f x vs h.base, fun hl => by
      rw [recoverWithFns_eq]
      intro i ctx b hi hc hne
      obtain ⟨o, h1, h2⟩ := rec_recoverWithFn (fn := fun _ _ => .ok x) (lbl := fun _ => vs)
        (h.find (hl.imp_right fun h => h.2)) i ctx b hi hc hne
      exact ⟨o, .recoverWith h1, h2⟩⟩
    recoverWithFn := fun p f fn lbl h => ⟨ec.recoverWithFn p f fn lbl h.base, fun hl =>
      rec_recoverWithFn (h.find (hl.imp_right fun h => h.2))⟩
    block := fun p f h => ⟨ec.block p f h.base, fun hl => by
      rcases hl with hl | hl
      · exact rec_block h.base.frame hl (h.find (.inl hl))
      · exact hl.1.elim⟩
    aligned := fun p f h => ⟨ec.aligned p f h.base, fun hl => by
      rcases hl with hl | hl
      · exact rec_aligned hl (h.find (.inl hl))
      · exact hl.1.elim⟩
    indented := fun p f d h => ⟨ec.indented p f d h.base, fun hl => by
      rcases hl with hl | hl
      · exact rec_indented h.base.frame hl (h.find (.inl hl))
      · exact hl.1.elim⟩
    refDiverge := fun i => ⟨ec.refDiverge i, fun _ i ctx b hi hc hne => absurd rfl hne⟩
    refUndefined := fun i h => ⟨ec.refUndefined i h, fun _ _ ctx _ _ _ _ =>
      ⟨_, .refUndefined h, .raises⟩⟩
    refDefined := fun i p f he h => ⟨ec.refDefined i p f he h.base, fun _ i ctx b hi hc hne => by
      obtain ⟨o, h1, h2⟩ := h.find (henv.imp_right fun h => h _ p he) i ctx b hi hc hne
      exact ⟨o, .ref he h1, h2⟩⟩ }

theorem rec_denote (env : Env τ ρ Γ) (D : LocDisc s) (k : Int) (p : P τ ρ Γ α)
    (h : D.layout ∨ Everywhere env P.notLayout p) (fuel : Nat) :
    RecAt env D k p (denote env fuel p) :=
  ((rec_closed env D k (h.imp_right fun h => h.2)).denote fuel p).find
    (h.imp_right fun h => h.1)

/-! ### Completeness: every finding of the relation is what the run shows -/

/-- With enough fuel the run shows this finding. -/
def FoundAt (env : Env τ ρ Γ) (D : LocDisc s) (k : Int) (p : P τ ρ Γ α) (m i : Nat) (b : Option Int)
    (o : Finding α) : Prop :=
  ∃ n, ∀ n', n ≤ n' → ∀ ctx, CtxOK D ctx i → ctx.mark = m →
    Finds D o ((denote env n' p).fn s i ctx k b)

theorem FoundAt.map {p : P τ ρ Γ α} {q : P τ ρ Γ β} {m i : Nat} {b b' : Option Int} {o : Finding α}
    {o' : Finding β} (h : FoundAt env D k p m i b o)
    (f : ∀ n ctx, CtxOK D ctx i → ctx.mark = m → Finds D o ((denote env n p).fn s i ctx k b) →
      Finds D o' ((denote env n q).fn s i ctx k b')) : FoundAt env D k q m i b' o' := by
  obtain ⟨n, h⟩ := h
  exact ⟨n, fun n' hn ctx hc hm => f _ _ hc hm (h n' hn ctx hc hm)⟩

theorem FoundAt.of {p : P τ ρ Γ α} {m i : Nat} {b : Option Int} {o : Finding α}
    (f : ∀ n ctx, CtxOK D ctx i → ctx.mark = m → Finds D o ((denote env n p).fn s i ctx k b)) :
    FoundAt env D k p m i b o := ⟨0, fun n _ => f n⟩

omit [BEq τ] in
/-- A bound for all members of a list. -/
theorem uniform_bound {xs : List α} {ys : List β} {Q : Nat → α → β → Prop}
    (hl : ys.length = xs.length)
    (h : ∀ (n : Nat) x y, xs[n]? = some x → ys[n]? = some y → ∃ N, ∀ N', N ≤ N' → Q N' x y) :
    ∃ N, ∀ N', N ≤ N' → Each (Q N') xs ys := by
  induction xs generalizing ys with
  | nil =>
    cases ys with
    | nil => exact ⟨0, fun _ _ => .nil⟩
    | cons _ _ => simp at hl
  | cons x xs ih =>
    cases ys with
    | nil => simp at hl
    | cons y ys =>
      obtain ⟨N1, h1⟩ := h 0 x y rfl rfl
      obtain ⟨N2, h2⟩ := ih (ys := ys) (by simpa using hl) fun n x y hx hy => h (n + 1) x y hx hy
      exact ⟨max N1 N2, fun N' hN => .cons (h1 N' (by omega)) (h2 N' (by omega))⟩

omit [BEq τ] in
theorem Finds.candidates {f : ParseFns τ α} {i : Nat} {ctx : Ctx τ} {b : Option Int}
    {cs : List (Cand α)} {q : Nat} {w : List String} {c : Bool} (hf : Framed f) (hi : i ≤ s.length)
    (h : Finds D (.repairs cs q w c) (f.fn s i ctx k b)) :
    ∃ r, f.fn s i ctx k b = .ret (.recovered r) ∧ D.rel q r.loc ∧ r.expected = w ∧ r.consumed = c ∧
      Each (CandShows D) cs r.repairs ∧ (∀ y ∈ r.repairs, RepFrame s i ctx b y) ∧
      ∀ (n : Nat) d, cs[n]? = some d → d.stop ≤ s.length := by
  obtain ⟨r, h1, h2, h3, h4, h5⟩ := h.inv_repairs
  have hr : RecFrame .. := hf s i ctx k b _ hi h1
  refine ⟨r, h1, h2, h3, h4, h5, hr.reps, fun n d hd => ?_⟩
  have hlt := (List.getElem?_eq_some_iff.1 hd).1
  rw [h5.length] at hlt
  have hy := List.getElem?_eq_getElem hlt
  rw [(h5.get hd hy).stop]
  exact (hr.reps _ (List.getElem_mem hlt)).hi

theorem rec_complete (D : LocDisc s) (hcol : ∀ i c c', D.col i c → D.col i c' → c = c')
    (henv : D.layout ∨ ∀ x q, env x = some q → q.All P.notLayout)
    {p : P τ ρ Γ α} {m i : Nat} {b : Option Int} {o : Finding α}
    (h : Rec env s D.col k p m i b o) :
    i ≤ s.length → (D.layout ∨ p.All P.notLayout) → FoundAt env D k p m i b o := by
  have hfr : ∀ {α : Type} (p : P τ ρ Γ α) n, Framed (denote env n p) := fun p n => frame_denote env n p
  -- what a list of candidates gives rise to
  have conts : ∀ {α β γ : Type} {p : P τ ρ Γ α} {m i b cs q w c} {merge : α → β → γ}
      (K : Nat → α → Nat → Ctx τ → Int → Out (Result τ β)) {os : List (Finding β)},
      i ≤ s.length → FoundAt env D k p m i b (.repairs cs q w c) →
      (∀ n v j ctx x y, j ≤ s.length → K n v j ctx x = .ret (.ok y) →
        j ≤ y.pos ∧ y.consumed = decide (j < y.pos)) →
      os.length = cs.length →
      (∀ (n : Nat) (d : Cand α) o, cs[n]? = some d → os[n]? = some o → d.stop ≤ s.length →
        ∃ N, ∀ N', N ≤ N' → ∀ ctx, CtxOK D ctx d.stop → ctx.mark = m →
          Finds D o (K N' d.value d.stop ctx d.left)) →
      (∀ o ∈ os, o.calm) →
      ∃ N, ∀ N', N ≤ N' → ∀ ctx, CtxOK D ctx i → ctx.mark = m → ∀ r,
        (denote env N' p).fn s i ctx k b = .ret (.recovered r) →
        Finds D (.repairs (andThenAll k merge cs os) q w c) (continueParse r k (K N') merge) := by
    intro α β γ p m i b cs q w c merge K os hi h1 hK hl h2 h3
    by_cases hex : ∃ ctx, CtxOK D ctx i ∧ ctx.mark = m
    case neg => exact ⟨0, fun _ _ ctx hc hm => absurd ⟨ctx, hc, hm⟩ hex⟩
    obtain ⟨ctx0, hc0, hm0⟩ := hex
    obtain ⟨n1, h1⟩ := h1
    obtain ⟨-, -, -, -, -, -, -, hstop⟩ := (h1 n1 (Nat.le_refl _) ctx0 hc0 hm0).candidates (hfr p n1) hi
    obtain ⟨n2, h4⟩ := uniform_bound (Q := fun N' d o => ∀ ctx, CtxOK D ctx d.stop → ctx.mark = m →
          Finds D o (K N' d.value d.stop ctx d.left)) hl
      fun n d o hd ho => h2 n d o hd ho (hstop n d hd)
    refine ⟨max n1 n2, fun n' hn ctx hc hm r hr => ?_⟩
    obtain ⟨r', hr', ha, hb, hc', h5, h6, -⟩ := (h1 n' (by omega) ctx hc hm).candidates (hfr p n') hi
    rw [hr] at hr'
    cases hr'
    obtain ⟨ts, h7, h8⟩ := each_contReps (k := k) (merge := merge) (K := K n') h5
      ((h4 n' (by omega)).mono fun d _ o ho hq => ⟨h3 o ho, fun y hy hd => by
        have := hq y.ctx (hd.stop ▸ hd.ctx) ((h6 y hy).ctx.mark.trans hm)
        rwa [hd.value, hd.stop, hd.left] at this⟩)
      fun y hy z hz => hK _ _ _ _ _ _ (h6 y hy).hi hz
    exact finds_continue h7 h8 ha hb hc'
  have contsRaise : ∀ {α β γ : Type} {p : P τ ρ Γ α} {m i b cs} {d : Cand α} {ds q w c} {e : Exn}
      {merge : α → β → γ}
      (K : Nat → α → Nat → Ctx τ → Int → Out (Result τ β)) {os : List (Finding β)},
      i ≤ s.length → FoundAt env D k p m i b (.repairs (cs ++ d :: ds) q w c) →
      os.length = cs.length →
      (∀ (n : Nat) (d : Cand α) o, cs[n]? = some d → os[n]? = some o → d.stop ≤ s.length →
        ∃ N, ∀ N', N ≤ N' → ∀ ctx, CtxOK D ctx d.stop → ctx.mark = m →
          Finds D o (K N' d.value d.stop ctx d.left)) →
      (∀ o ∈ os, o.calm) →
      (d.stop ≤ s.length → ∃ N, ∀ N', N ≤ N' → ∀ ctx, CtxOK D ctx d.stop → ctx.mark = m →
          Finds D (.raises e) (K N' d.value d.stop ctx d.left)) →
      ∃ N, ∀ N', N ≤ N' → ∀ ctx, CtxOK D ctx i → ctx.mark = m → ∀ r,
        (denote env N' p).fn s i ctx k b = .ret (.recovered r) →
        Finds (α := γ) D (.raises e) (continueParse r k (K N') merge) := by
    intro α β γ p m i b cs d ds q w c e merge K os hi h1 hl h2 h3 h9
    by_cases hex : ∃ ctx, CtxOK D ctx i ∧ ctx.mark = m
    case neg => exact ⟨0, fun _ _ ctx hc hm => absurd ⟨ctx, hc, hm⟩ hex⟩
    obtain ⟨ctx0, hc0, hm0⟩ := hex
    obtain ⟨n1, h1⟩ := h1
    obtain ⟨-, -, -, -, -, -, -, hstop⟩ := (h1 n1 (Nat.le_refl _) ctx0 hc0 hm0).candidates (hfr p n1) hi
    obtain ⟨n2, h4⟩ := uniform_bound (Q := fun N' d o => ∀ ctx, CtxOK D ctx d.stop → ctx.mark = m →
          Finds D o (K N' d.value d.stop ctx d.left)) hl
      fun n d o hd ho => h2 n d o hd ho (hstop n d (by
        rw [List.getElem?_append_left (List.getElem?_eq_some_iff.1 hd).1]; exact hd))
    obtain ⟨n3, h9⟩ := h9 (hstop cs.length d (by simp))
    refine ⟨max n1 (max n2 n3), fun n' hn ctx hc hm r hr => ?_⟩
    obtain ⟨r', hr', ha, hb, hc', h5, h6, -⟩ := (h1 n' (by omega) ctx hc hm).candidates (hfr p n') hi
    rw [hr] at hr'
    cases hr'
    refine finds_continue_raises (each_contReps_raises h5
      ((h4 n' (by omega)).mono fun d _ o ho hq => ⟨h3 o ho, fun y hy hd => ?_⟩) fun y hy hd => ?_)
    · have := hq y.ctx (hd.stop ▸ hd.ctx) ((h6 y hy).ctx.mark.trans hm)
      rwa [hd.value, hd.stop, hd.left] at this
    · have := h9 n' (by omega) y.ctx (hd.stop ▸ hd.ctx) ((h6 y hy).ctx.mark.trans hm)
      rwa [hd.value, hd.stop, hd.left] at this
  intro hi hl
  induction h with
  | pure => exact .of fun n ctx hc hm => .mk_accepts rfl rfl rfl hc
  | pureFn => exact .of fun n ctx hc hm => .mk_accepts rfl rfl rfl hc
  | pureFnRaises => exact .of fun n ctx hc hm => .raises
  | unexpected => exact .of fun n ctx hc hm => .mk_rejects (hc.report (Nat.le_refl _) hi) rfl rfl
  | eof => exact .of fun n ctx hc hm => finds_eof hc rfl
  | eofNot h => exact .of fun n ctx hc hm => finds_eof_not hi hc h
  | eofSkip h => exact .of fun n ctx hc hm => finds_eof_skip hi hc h
  | satisfy h1 h2 => exact .of fun n ctx hc hm => finds_satisfy hc h1 h2
  | satisfyRaises h1 h2 => exact .of fun n ctx hc hm => finds_satisfy_raises h1 h2
  | satisfyNot h1 => exact .of fun n ctx hc hm => finds_satisfy_not hi hc h1
  | satisfySkip h1 h2 h3 h4 => exact .of fun n ctx hc hm => finds_satisfy_skip hi hc h1 h2 h3 h4
  | satisfyNever h1 => exact .of fun n ctx hc hm => finds_satisfy_never hi hc h1
  | satisfySkipRaises h1 h2 h3 h4 =>
    exact .of fun n ctx hc hm => finds_satisfy_skip_raises h1 h2 h3 h4
  | sym h1 h2 => exact .of fun n ctx hc hm => finds_sym hc h1 h2
  | symNot h1 => exact .of fun n ctx hc hm => finds_sym_not hi hc h1
  | symSkip h1 h2 h3 h4 => exact .of fun n ctx hc hm => finds_sym_skip hi hc h1 h2 h3 h4
  | symNever h1 => exact .of fun n ctx hc hm => finds_sym_never hi hc h1
  | @literal x l hx m i b h1 => exact .of fun n ctx hc hm => finds_literal hx hc h1
  | literalNot h1 => exact .of fun n ctx hc hm => finds_literal_not hi hc h1
  | @literalSkip x l hx m i j r h1 h2 h3 =>
    exact .of fun n ctx hc hm => finds_literal_skip hx hi hc h1 h2 h3
  | literalNever h1 => exact .of fun n ctx hc hm => finds_literal_never hi hc h1
  | regexp h1 => exact .of fun n ctx hc hm => finds_regexp hi hc h1
  | regexpRaises h1 => exact .of fun n ctx hc hm => finds_regexp_raises h1
  | regexpNot h1 => exact .of fun n ctx hc hm => finds_regexp_not hi hc h1
  | regexpSkip h1 h2 h3 h4 => exact .of fun n ctx hc hm => finds_regexp_skip hi hc h1 h2 h3 h4
  | regexpNever h1 h2 => exact .of fun n ctx hc hm => finds_regexp_never hi hc h1 h2
  | regexpSkipRaises h1 h2 h3 h4 =>
    exact .of fun n ctx hc hm => finds_regexp_skip_raises h1 h2 h3 h4
  | fmap h ih =>
    exact (ih hi (hl.imp_right fun h => h.2)).map fun n ctx hc hm hs => finds_fmap hs
  | altFirst h ih =>
    exact (ih hi (hl.imp_right fun h => h.2.1)).map fun n ctx hc hm hs => finds_alt_first hs
  | altFinal h hx ih =>
    exact (ih hi (hl.imp_right fun h => h.2.1)).map fun n ctx hc hm hs => finds_alt_final hx hs
  | altSecond h1 h2 ih1 ih2 =>
    obtain ⟨n1, h1⟩ := ih1 hi (hl.imp_right fun h => h.2.1)
    obtain ⟨n2, h2⟩ := ih2 hi (hl.imp_right fun h => h.2.2)
    exact ⟨max n1 n2, fun n hn ctx hc hm => finds_alt_second (hfr _ _) hi
      (h1 n (by omega) ctx hc hm) (h2 n (by omega) ctx hc hm)⟩
  | altSecondFinal h1 h2 hx ih1 ih2 =>
    obtain ⟨n1, h1⟩ := ih1 hi (hl.imp_right fun h => h.2.1)
    obtain ⟨n2, h2⟩ := ih2 hi (hl.imp_right fun h => h.2.2)
    exact ⟨max n1 n2, fun n hn ctx hc hm => finds_alt_second_final hx
      (h1 n (by omega) ctx hc hm) (h2 n (by omega) ctx hc hm)⟩
  | altNeither h1 h2 ih1 ih2 =>
    obtain ⟨n1, h1⟩ := ih1 hi (hl.imp_right fun h => h.2.1)
    obtain ⟨n2, h2⟩ := ih2 hi (hl.imp_right fun h => h.2.2)
    exact ⟨max n1 n2, fun n hn ctx hc hm => finds_alt_neither
      (h1 n (by omega) ctx hc hm) (h2 n (by omega) ctx hc hm)⟩
  | altRepair h1 h2 h3 h4 ih1 ih2 ih3 ih4 =>
    obtain ⟨n1, h1⟩ := ih1 hi (hl.imp_right fun h => h.2.1)
    obtain ⟨n2, h2⟩ := ih2 hi (hl.imp_right fun h => h.2.2)
    obtain ⟨n3, h3⟩ := ih3 hi (hl.imp_right fun h => h.2.1)
    obtain ⟨n4, h4⟩ := ih4 hi (hl.imp_right fun h => h.2.2)
    exact ⟨max (max n1 n2) (max n3 n4), fun n hn ctx hc hm => finds_alt_repair (hfr _ _) (hfr _ _) hi
      (h1 n (by omega) ctx hc hm) (h2 n (by omega) ctx hc hm) (h3 n (by omega) ctx hc hm)
      (h4 n (by omega) ctx hc hm)⟩
  | altRepairRaises h1 h2 h3 ih1 ih2 ih3 =>
    obtain ⟨n1, h1⟩ := ih1 hi (hl.imp_right fun h => h.2.1)
    obtain ⟨n2, h2⟩ := ih2 hi (hl.imp_right fun h => h.2.2)
    obtain ⟨n3, h3⟩ := ih3 hi (hl.imp_right fun h => h.2.1)
    exact ⟨max (max n1 n2) n3, fun n hn ctx hc hm => finds_alt_repair_raises
      (h1 n (by omega) ctx hc hm) (h2 n (by omega) ctx hc hm) (h3 n (by omega) ctx hc hm)⟩
  | bindRejects h ih =>
    exact (ih hi (hl.imp_right fun h => h.2.1)).map fun n ctx hc hm hs =>
      finds_bind_rejects (g := fun a => denote env n _) hs
  | bindRaises h ih =>
    exact (ih hi (hl.imp_right fun h => h.2.1)).map fun n ctx hc hm hs =>
      finds_bind_raises (g := fun a => denote env n _) hs
  | @bind α β p f m i b v j w o h1 h2 ih1 ih2 =>
    by_cases hex : ∃ ctx, CtxOK D ctx i ∧ ctx.mark = m
    case neg => exact ⟨0, fun _ _ ctx hc hm => absurd ⟨ctx, hc, hm⟩ hex⟩
    obtain ⟨ctx0, hc0, hm0⟩ := hex
    obtain ⟨n1, h1⟩ := ih1 hi (hl.imp_right fun h => h.2.1)
    have hj : j ≤ s.length := by
      obtain ⟨r', hr, rfl, rfl, rfl, -⟩ := (h1 n1 (Nat.le_refl _) ctx0 hc0 hm0).inv_accepts
      have : OkFrame .. := hfr p n1 s i ctx0 k b _ hi hr
      exact this.hi
    obtain ⟨n2, h2⟩ := ih2 hj (hl.imp_right fun h => h.2.2 _)
    refine ⟨max n1 n2, fun n' hn ctx hc hm => ?_⟩
    obtain ⟨r', hr, rfl, rfl, rfl, h4⟩ := (h1 n' (by omega) ctx hc hm).inv_accepts
    have hf : OkFrame .. := hfr p n' s i ctx k b _ hi hr
    exact finds_bind (g := fun a => denote env n' (f a)) (hfr _ _) (hfr _ _) hi hr
      (h2 n' (by omega) r'.ctx h4 (hf.ctx.mark.trans hm))
  | @bindRepairs α β p f m i b cs q w c os h1 hlen h2 hcalm ih1 ih2 =>
    have hp := ih1 hi (hl.imp_right fun h => h.2.1)
    obtain ⟨n1, h3⟩ := conts (merge := fun _ v => v)
      (fun n v j c x => (denote env n (f v)).fn s j c k (some x)) hi hp
      (fun n v j ctx x y hj hy => framed_ok (hfr _ _) hj hy) hlen
      (fun n d o hd ho hs => ih2 n d o hd ho hs (hl.imp_right fun h => h.2.2 _)) hcalm
    obtain ⟨n2, hp⟩ := hp
    refine ⟨max n1 n2, fun n' hn ctx hc hm => ?_⟩
    obtain ⟨r, hr, -⟩ := (hp n' (by omega) ctx hc hm).inv_repairs
    show Finds D _ ((bindFns (denote env n' p) fun a => denote env n' (f a)).fn s i ctx k b)
    rw [bind_eq_repairs hr]
    exact h3 n' (by omega) ctx hc hm r hr
  | @bindRepairsRaises α β p f m i b cs d ds q w c e os h1 hlen h2 hcalm h4 ih1 ih2 ih4 =>
    have hp := ih1 hi (hl.imp_right fun h => h.2.1)
    obtain ⟨n1, h3⟩ := contsRaise (merge := fun _ v => v)
      (fun n v j c x => (denote env n (f v)).fn s j c k (some x)) hi hp hlen
      (fun n d o hd ho hs => ih2 n d o hd ho hs (hl.imp_right fun h => h.2.2 _)) hcalm
      (fun hs => ih4 hs (hl.imp_right fun h => h.2.2 _))
    obtain ⟨n2, hp⟩ := hp
    refine ⟨max n1 n2, fun n' hn ctx hc hm => ?_⟩
    obtain ⟨r, hr, -⟩ := (hp n' (by omega) ctx hc hm).inv_repairs
    show Finds D _ ((bindFns (denote env n' p) fun a => denote env n' (f a)).fn s i ctx k b)
    rw [bind_eq_repairs hr]
    exact h3 n' (by omega) ctx hc hm r hr
  | @seq α β γ p q merge m i b o h ih =>
    refine (ih hi (hl.imp_right fun h => ⟨trivial, h.2.1, fun _ => ⟨trivial, h.2.2⟩⟩)).map
      fun n ctx hc hm hs => ?_
    show Finds D _ ((seqFns (denote env n p) (denote env n q) merge).fn s i ctx k b)
    rw [seqFns_eq]; exact hs
  | @maybe α p m i b o h ih =>
    refine (ih hi (hl.imp_right fun h => ⟨trivial, ⟨trivial, h.2⟩, trivial⟩)).map
      fun n ctx hc hm hs => ?_
    show Finds D _ ((maybeFns (denote env n p)).fn s i ctx k b)
    rw [maybeFns_eq]; exact hs
  | @manyItem α p m i b v j w o h1 hlt h2 ih1 ih2 =>
    by_cases hex : ∃ ctx, CtxOK D ctx i ∧ ctx.mark = m
    case neg => exact ⟨0, fun _ _ ctx hc hm => absurd ⟨ctx, hc, hm⟩ hex⟩
    obtain ⟨ctx0, hc0, hm0⟩ := hex
    obtain ⟨n1, h1⟩ := ih1 hi (hl.imp_right fun h => h.2)
    have hj : j ≤ s.length := by
      obtain ⟨r', hr, rfl, rfl, rfl, -⟩ := (h1 n1 (Nat.le_refl _) ctx0 hc0 hm0).inv_accepts
      have : OkFrame .. := hfr p n1 s i ctx0 k none _ hi hr
      exact this.hi
    obtain ⟨n2, h2⟩ := ih2 hj hl
    refine ⟨max n1 n2 + 1, fun n' hn ctx hc hm => ?_⟩
    obtain ⟨n, rfl⟩ : ∃ n, n' = n + 1 := ⟨n' - 1, by omega⟩
    obtain ⟨r, hr, rfl, rfl, rfl, h4⟩ := (h1 (n + 1) (by omega) ctx hc hm).inv_accepts
    have hf : OkFrame .. := hfr p (n + 1) s i ctx k none _ hi hr
    have h5 := h2 n (by omega) r.ctx h4 (hf.ctx.mark.trans hm)
    refine finds_many_item (hfr _ _) hi hr hlt (Finds.le h5 ?_)
    exact manyLoop_le (denote_le env (Nat.le_succ n) p).2 s k (Nat.le_refl _) _ _ _ _
  | manyEnd h ih =>
    obtain ⟨n1, h1⟩ := ih hi (hl.imp_right fun h => h.2)
    refine ⟨n1 + 1, fun n' hn ctx hc hm => ?_⟩
    obtain ⟨n, rfl⟩ : ∃ n, n' = n + 1 := ⟨n' - 1, by omega⟩
    exact finds_many_end hc (h1 (n + 1) (by omega) ctx hc hm)
  | manyRejects h ih =>
    obtain ⟨n1, h1⟩ := ih hi (hl.imp_right fun h => h.2)
    refine ⟨n1 + 1, fun n' hn ctx hc hm => ?_⟩
    obtain ⟨n, rfl⟩ : ∃ n, n' = n + 1 := ⟨n' - 1, by omega⟩
    exact finds_many_rejects (h1 (n + 1) (by omega) ctx hc hm)
  | manyRaises h ih =>
    obtain ⟨n1, h1⟩ := ih hi (hl.imp_right fun h => h.2)
    refine ⟨n1 + 1, fun n' hn ctx hc hm => ?_⟩
    obtain ⟨n, rfl⟩ : ∃ n, n' = n + 1 := ⟨n' - 1, by omega⟩
    exact finds_many_raises (h1 (n + 1) (by omega) ctx hc hm)
  | manyEmpty h ih =>
    obtain ⟨n1, h1⟩ := ih hi (hl.imp_right fun h => h.2)
    refine ⟨n1 + 1, fun n' hn ctx hc hm => ?_⟩
    obtain ⟨n, rfl⟩ : ∃ n, n' = n + 1 := ⟨n' - 1, by omega⟩
    obtain ⟨r, hr, rfl, h5, rfl, h4⟩ := (h1 (n + 1) (by omega) ctx hc hm).inv_accepts
    exact finds_many_empty (hfr _ _) hi hr (by omega)
  | @manyRepairs α p m i b cs q w c os h1 hlen h2 hcalm ih1 ih2 =>
    have hp := ih1 hi (hl.imp_right fun h => h.2)
    obtain ⟨n1, h3⟩ := conts (merge := List.cons)
      (fun n v j c x => manyLoop (denote env n p).fn s k (n - 1) j c false []) hi hp
      (fun n v j ctx x y hj hy => framed_ok (b := none) (f := manyFns (n - 1) (denote env n p))
        ((frame_closed.closed env).many p _ (n - 1) ⟨sim_denote env n p, hfr p n⟩).2 hj hy) hlen
      (fun n d o hd ho hs => by
        obtain ⟨N, h⟩ := ih2 n d o hd ho hs hl
        refine ⟨N + 1, fun N' hN ctx hc hm => ?_⟩
        obtain ⟨n, rfl⟩ : ∃ n, N' = n + 1 := ⟨N' - 1, by omega⟩
        exact Finds.le (h n (by omega) ctx hc hm)
          (manyLoop_le (denote_le env (Nat.le_succ n) p).2 s k (Nat.le_refl _) _ _ _ _)) hcalm
    obtain ⟨n2, hp⟩ := hp
    refine ⟨max n1 n2 + 1, fun n' hn ctx hc hm => ?_⟩
    obtain ⟨n, rfl⟩ : ∃ n, n' = n + 1 := ⟨n' - 1, by omega⟩
    obtain ⟨r, hr, -⟩ := (hp (n + 1) (by omega) ctx hc hm).inv_repairs
    show Finds D _ (manyLoop (denote env (n + 1) p).fn s k (n + 1) i ctx false [])
    rw [many_eq_repairs hr]
    exact h3 (n + 1) (by omega) ctx hc hm r hr
  | @manyRepairsRaises α p m i b cs d ds q w c e os h1 hlen h2 hcalm h4 ih1 ih2 ih4 =>
    have hp := ih1 hi (hl.imp_right fun h => h.2)
    have up : ∀ (d : Cand α) o, FoundAt env D k (.many p) m d.stop none o →
        ∃ N, ∀ N', N ≤ N' → ∀ ctx, CtxOK D ctx d.stop → ctx.mark = m →
          Finds D o (manyLoop (denote env N' p).fn s k (N' - 1) d.stop ctx false []) := by
      rintro d o ⟨N, h⟩
      refine ⟨N + 1, fun N' hN ctx hc hm => ?_⟩
      obtain ⟨n, rfl⟩ : ∃ n, N' = n + 1 := ⟨N' - 1, by omega⟩
      exact Finds.le (h n (by omega) ctx hc hm)
        (manyLoop_le (denote_le env (Nat.le_succ n) p).2 s k (Nat.le_refl _) _ _ _ _)
    obtain ⟨n1, h3⟩ := contsRaise (merge := List.cons)
      (fun n v j c x => manyLoop (denote env n p).fn s k (n - 1) j c false []) hi hp hlen
      (fun n d o hd ho hs => up d o (ih2 n d o hd ho hs hl)) hcalm (fun hs => up d _ (ih4 hs hl))
    obtain ⟨n2, hp⟩ := hp
    refine ⟨max n1 n2 + 1, fun n' hn ctx hc hm => ?_⟩
    obtain ⟨n, rfl⟩ : ∃ n, n' = n + 1 := ⟨n' - 1, by omega⟩
    obtain ⟨r, hr, -⟩ := (hp (n + 1) (by omega) ctx hc hm).inv_repairs
    show Finds D _ (manyLoop (denote env (n + 1) p).fn s k (n + 1) i ctx false [])
    rw [many_eq_repairs hr]
    exact h3 (n + 1) (by omega) ctx hc hm r hr
  | attempt h =>
    obtain ⟨n1, h1⟩ := eval_complete D hcol henv h hi (hl.imp_right fun h => h.2)
    exact ⟨n1, fun n hn ctx hc hm => finds_attempt (h1 n hn ctx hc hm)⟩
  | attemptRepair h ih =>
    exact (ih hi (hl.imp_right fun h => h.2)).map fun n ctx hc hm hs => hs
  | label h ih =>
    exact (ih hi (hl.imp_right fun h => h.2)).map fun n ctx hc hm hs => finds_label (hfr _ _) hi hs
  | recover h ih =>
    exact (ih hi (hl.imp_right fun h => h.2)).map fun n ctx hc hm hs => finds_recover hs
  | @recoverWith α p x l m i b o h ih =>
    refine (ih hi (hl.imp_right fun h => ⟨trivial, h.2⟩)).map fun n ctx hc hm hs => ?_
    show Finds D _ ((recoverWithFns (denote env n p) x l).fn s i ctx k b)
    rw [recoverWithFns_eq]; exact hs
  | recoverWithFnNo h hb ih =>
    exact (ih hi (hl.imp_right fun h => h.2)).map fun n ctx hc hm hs => finds_recoverWithFn_no hb hs
  | recoverWithFn h hr ho hx ih =>
    exact (ih hi (hl.imp_right fun h => h.2)).map fun n ctx hc hm hs =>
      finds_recoverWithFn hi hc hr ho hx hs
  | recoverWithFnRaises h hr ho hx ih =>
    exact (ih hi (hl.imp_right fun h => h.2)).map fun n ctx hc hm hs =>
      finds_recoverWithFn_raises hr ho hx hs
  | block hcl h ih =>
    have hl' : D.layout := hl.elim id fun h => h.1.elim
    obtain ⟨n1, h1⟩ := ih hi (.inl hl')
    refine ⟨n1, fun n hn ctx hc hm => ?_⟩
    have hu := hc.updateLoc (Nat.le_refl _) hi
    exact finds_block (hfr _ _) hi hc
      (h1 n hn _ (hu.setMark _) (hcol _ _ _ (hc.here hi hl').2 hcl))
  | aligned hcl h ih =>
    have hl' : D.layout := hl.elim id fun h => h.1.elim
    obtain ⟨n1, h1⟩ := ih hi (.inl hl')
    refine ⟨n1, fun n hn ctx hc hm => ?_⟩
    have hu := hc.updateLoc (Nat.le_refl _) hi
    have hmark := hcol _ _ _ (hc.here hi hl').2 hcl
    have hm' := fun j => (updateLoc_mark (s := s) ctx j).trans hm
    show Finds D _ (if _ then _ else _)
    rw [if_pos ((hm' _).trans hmark.symm)]
    exact h1 n hn _ hu (hm' _)
  | alignedNot hcl hne =>
    have hl' : D.layout := hl.elim id fun h => h.1.elim
    refine .of fun n ctx hc hm => ?_
    have hh := hc.here hi hl'
    have hm' := fun j => (updateLoc_mark (s := s) ctx j).trans hm
    show Finds D _ (if _ then _ else _)
    rw [if_neg (by rw [hm', hcol _ _ _ hh.2 hcl]; exact fun h => hne h.symm)]
    exact .mk_rejects hh.1 rfl rfl
  | indented hcl hd h ih =>
    have hl' : D.layout := hl.elim id fun h => h.1.elim
    obtain ⟨n1, h1⟩ := ih hi (.inl hl')
    refine ⟨n1, fun n hn ctx hc hm => ?_⟩
    have hu := hc.updateLoc (Nat.le_refl _) hi
    have hmark := hcol _ _ _ (hc.here hi hl').2 hcl
    have hm' := fun j => (updateLoc_mark (s := s) ctx j).trans hm
    exact finds_indented (hfr _ _) hi hc (by rw [hm', hmark]; exact hd)
      (h1 n hn _ (hu.setMark _) hmark)
  | indentedNot hcl hne =>
    have hl' : D.layout := hl.elim id fun h => h.1.elim
    refine .of fun n ctx hc hm => ?_
    have hh := hc.here hi hl'
    have hm' := fun j => (updateLoc_mark (s := s) ctx j).trans hm
    show Finds D _ (if _ then _ else _)
    rw [if_neg (by rw [hm', hcol _ _ _ hh.2 hcl]; exact hne)]
    exact .mk_rejects hh.1 rfl rfl
  | @ref x p m i b o hx h ih =>
    obtain ⟨n1, h1⟩ := ih hi (henv.imp_right fun h => h x p hx)
    refine ⟨n1 + 1, fun n' hn ctx hc hm => ?_⟩
    obtain ⟨n, rfl⟩ : ∃ n, n' = n + 1 := ⟨n' - 1, by omega⟩
    show Finds D _ ((table env (n + 1) x).fn s i ctx k b)
    unfold table
    rw [hx]
    exact h1 n (by omega) ctx hc hm
  | @refUndefined x m i b hx =>
    refine ⟨1, fun n' hn ctx hc hm => ?_⟩
    obtain ⟨n, rfl⟩ : ∃ n, n' = n + 1 := ⟨n' - 1, by omega⟩
    show Finds D _ ((table env (n + 1) x).fn s i ctx k b)
    unfold table
    rw [hx]
    exact .raises

end

end Reparsec
