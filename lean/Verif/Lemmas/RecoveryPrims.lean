import Verif.Lemmas.Recovery
import Verif.Props.Terminals

/-!
# The recovering mode shows the recovering evaluation relation: primitives and the other combinators
-/

namespace Reparsec

variable {τ ρ : Type} {Γ : ρ → Type} {α β γ : Type} {s : List τ} {D : LocDisc s}

theorem scan_cases (hit : Nat → Except Exn (Option β)) (n cur : Nat) :
    (∃ c b, cur ≤ c ∧ c < cur + n ∧ hit c = .ok (some b) ∧
        ∀ c', cur ≤ c' → c' < c → hit c' = .ok none) ∨
      (∀ c, cur ≤ c → c < cur + n → hit c = .ok none) ∨
      ∃ c e, cur ≤ c ∧ c < cur + n ∧ hit c = .error e ∧
        ∀ c', cur ≤ c' → c' < c → hit c' = .ok none := by
  induction n generalizing cur with
  | zero => exact .inr (.inl fun c h1 h2 => by omega)
  | succ n ih =>
    cases hh : hit cur with
    | error e => exact .inr (.inr ⟨cur, e, Nat.le_refl _, by omega, hh, fun c' h1 h2 => by omega⟩)
    | ok x =>
      cases x with
      | some b => exact .inl ⟨cur, b, Nat.le_refl _, by omega, hh, fun c' h1 h2 => by omega⟩
      | none =>
        have hstep : ∀ {c}, (∀ c', cur + 1 ≤ c' → c' < c → hit c' = .ok none) →
            ∀ c', cur ≤ c' → c' < c → hit c' = .ok none := by
          intro c h c' h1 h2
          rcases Nat.eq_or_lt_of_le h1 with rfl | h1
          · exact hh
          · exact h c' h1 h2
        rcases ih (cur + 1) with ⟨c, b, h1, h2, h3, h4⟩ | h | ⟨c, e, h1, h2, h3, h4⟩
        · exact .inl ⟨c, b, by omega, by omega, h3, hstep h4⟩
        · refine .inr (.inl fun c h1 h2 => ?_)
          rcases Nat.eq_or_lt_of_le h1 with rfl | h1
          · exact hh
          · exact h c h1 (by omega)
        · exact .inr (.inr ⟨c, e, by omega, by omega, h3, hstep h4⟩)

/-! ### `satisfy` -/

theorem testAt_none_iff {test : τ → Except Exn Bool} {n : Nat} :
    testAt test s n = .ok none ↔ ∀ t, s[n]? = some t → test t = .ok false := by
  unfold testAt
  cases hs : s[n]? with
  | none => simp
  | some t =>
    simp only [Option.some.injEq, forall_eq']
    cases test t with
    | error e => simp
    | ok b => cases b <;> simp

theorem testAt_some_iff {test : τ → Except Exn Bool} {n : Nat} {t : τ} :
    testAt test s n = .ok (some t) ↔ s[n]? = some t ∧ test t = .ok true := by
  unfold testAt
  cases hs : s[n]? with
  | none => simp
  | some t' =>
    simp only [Option.some.injEq]
    cases ht : test t' with
    | error e => simp; rintro rfl; simp [ht]
    | ok b =>
      cases b with
      | true => simp; rintro rfl; exact ht
      | false => simp; rintro rfl; simp [ht]

theorem testAt_error_iff {test : τ → Except Exn Bool} {n : Nat} {e : Exn} :
    testAt test s n = .error e ↔ ∃ t, s[n]? = some t ∧ test t = .error e := by
  unfold testAt
  cases hs : s[n]? with
  | none => simp
  | some t' =>
    simp only [Option.some.injEq, exists_eq_left']
    cases ht : test t' with
    | error e => simp
    | ok b => cases b <;> simp

theorem finds_satisfy {test : τ → Except Exn Bool} {t : τ} {i : Nat} {ctx : Ctx τ} {k : Int}
    {b : Option Int} (hc : CtxOK D ctx i) (h1 : s[i]? = some t) (h2 : test t = .ok true) :
    Finds D (.accepts t (i + 1) []) ((satisfyFns test).fn s i ctx k b) := by
  have hlt := (List.getElem?_eq_some_iff.1 h1).1
  simp only [satisfyFns, satisfyFn, testAt_some_iff.2 ⟨h1, h2⟩, Out.ofExcept_ok, Out.bind_def,
    Out.bind_ret]
  exact .mk_accepts rfl rfl rfl (hc.stay (Nat.le_succ _) hlt)

theorem finds_satisfy_raises {test : τ → Except Exn Bool} {t : τ} {e : Exn} {i : Nat} {ctx : Ctx τ}
    {k : Int} {b : Option Int} (h1 : s[i]? = some t) (h2 : test t = .error e) :
    Finds D (.raises e) ((satisfyFns test).fn s i ctx k b) := by
  simp only [satisfyFns, satisfyFn, testAt_error_iff.2 ⟨t, h1, h2⟩, Out.bind_def]
  exact .raises

theorem finds_satisfy_not {test : τ → Except Exn Bool} {i : Nat} {ctx : Ctx τ} {k : Int}
    (hi : i ≤ s.length) (hc : CtxOK D ctx i) (h1 : ∀ t, s[i]? = some t → test t = .ok false) :
    Finds D (.rejects i [] false) ((satisfyFns test).fn s i ctx k none) := by
  simp only [satisfyFns, satisfyFn, testAt_none_iff.2 h1, Out.ofExcept_ok, Out.bind_def, Out.bind_ret]
  exact .mk_rejects (hc.report (Nat.le_refl _) hi) rfl rfl

theorem CandShows.skip {k : Int} {i j stop : Nat} {v : α} {ctx ctx' : Ctx τ} {w : List String}
    (hi : i ≤ s.length) (hc : CtxOK D ctx i) (hc' : CtxOK D ctx' stop) :
    CandShows D (Cand.skip k i j v stop w) (makeSkip k v stop ctx' (ctx.getLoc s i) (j - i) w) :=
  ⟨rfl, rfl, rfl, .cons ⟨hc.report (Nat.le_refl _) hi, rfl, rfl, rfl⟩ .nil, rfl, rfl, hc', rfl, rfl⟩

theorem CandShows.insert {r : Int} {i : Nat} {v : α} {l : String} {w : List String} {ctx : Ctx τ}
    (hi : i ≤ s.length) (hc : CtxOK D ctx i) :
    CandShows D (Cand.insert r i v l w) (makeInsert r v i ctx (ctx.getLoc s i) l w) :=
  ⟨rfl, rfl, rfl, .cons ⟨hc.report (Nat.le_refl _) hi, rfl, rfl, rfl⟩ .nil, rfl, rfl, hc, rfl, rfl⟩

theorem CandShows.userInsert {r : Int} {i : Nat} {v : α} {l : String} {w : List String} {ctx : Ctx τ}
    (hi : i ≤ s.length) (hc : CtxOK D ctx i) :
    CandShows D (Cand.userInsert r i v l w) (makeUserInsert r v i ctx (ctx.getLoc s i) l w) :=
  ⟨rfl, rfl, rfl, .cons ⟨hc.report (Nat.le_refl _) hi, rfl, rfl, rfl⟩ .nil, rfl, rfl, hc, rfl, rfl⟩

theorem finds_satisfy_skip {test : τ → Except Exn Bool} {t : τ} {i j : Nat} {ctx : Ctx τ} {k r : Int}
    (hi : i ≤ s.length) (hc : CtxOK D ctx i) (hij : i < j)
    (h : ∀ n, i ≤ n → n < j → ∀ t, s[n]? = some t → test t = .ok false)
    (h1 : s[j]? = some t) (h2 : test t = .ok true) :
    Finds D (.repairs [Cand.skip k i j t (j + 1) []] i [] false)
      ((satisfyFns test).fn s i ctx k (some r)) := by
  have hlt := (List.getElem?_eq_some_iff.1 h1).1
  simp only [satisfyFns, satisfyFn, testAt_none_iff.2 (h i (Nat.le_refl _) hij), Out.ofExcept_ok,
    Out.bind_def, Out.bind_ret]
  rw [scan_eq_some (c := j) (b := t) (by omega) (by omega) (testAt_some_iff.2 ⟨h1, h2⟩)
    fun n h3 h4 => testAt_none_iff.2 (h n (by omega) h4)]
  refine .mk_repairs (hc.report (Nat.le_refl _) hi) rfl rfl (.cons (.skip hi hc ?_) .nil)
  exact hc.updateLoc (by omega) hlt

theorem finds_satisfy_never {test : τ → Except Exn Bool} {i : Nat} {ctx : Ctx τ} {k r : Int}
    (hi : i ≤ s.length) (hc : CtxOK D ctx i)
    (h : ∀ n, i ≤ n → ∀ t, s[n]? = some t → test t = .ok false) :
    Finds D (.rejects i [] false) ((satisfyFns test).fn s i ctx k (some r)) := by
  simp only [satisfyFns, satisfyFn, testAt_none_iff.2 (h i (Nat.le_refl _)), Out.ofExcept_ok,
    Out.bind_def, Out.bind_ret]
  rw [scan_eq_none fun n h3 _ => testAt_none_iff.2 (h n (by omega))]
  exact .mk_rejects (hc.report (Nat.le_refl _) hi) rfl rfl

theorem finds_satisfy_skip_raises {test : τ → Except Exn Bool} {t : τ} {e : Exn} {i j : Nat}
    {ctx : Ctx τ} {k r : Int} (hij : i < j)
    (h : ∀ n, i ≤ n → n < j → ∀ t, s[n]? = some t → test t = .ok false)
    (h1 : s[j]? = some t) (h2 : test t = .error e) :
    Finds D (.raises e) ((satisfyFns test).fn s i ctx k (some r)) := by
  have hlt := (List.getElem?_eq_some_iff.1 h1).1
  simp only [satisfyFns, satisfyFn, testAt_none_iff.2 (h i (Nat.le_refl _) hij), Out.ofExcept_ok,
    Out.bind_def, Out.bind_ret]
  rw [scan_eq_error (c := j) (e := e) (by omega) (by omega) (testAt_error_iff.2 ⟨t, h1, h2⟩)
    fun n h3 h4 => testAt_none_iff.2 (h n (by omega) h4)]
  exact .raises

/-! ### `sym` and `literal` -/

theorem each_insertions {r : Int} {i : Nat} {v : α} {l : String} {ctx : Ctx τ}
    (hi : i ≤ s.length) (hc : CtxOK D ctx i) :
    Each (CandShows D) (insertions r i v l)
      (if r ≠ 0 then [makeInsert r v i ctx (ctx.getLoc s i) l [l]] else []) := by
  unfold insertions
  by_cases hr : r = 0
  · simp [hr]; exact .nil
  · simp [hr]; exact .cons (.insert hi hc) .nil

section
variable [BEq τ]

theorem symAt_none_iff {x : τ} {n : Nat} :
    symAt x s n = none ↔ ∀ t, s[n]? = some t → (t == x) = false := by
  unfold symAt
  cases hs : s[n]? with
  | none => simp
  | some t => cases ht : t == x <;> simp [ht]

theorem symAt_some_iff {x : τ} {n : Nat} {t : τ} :
    symAt x s n = some t ↔ s[n]? = some t ∧ (t == x) = true := by
  unfold symAt
  cases hs : s[n]? with
  | none => simp
  | some t' =>
    simp only [Option.some.injEq]
    constructor
    · intro h
      split at h
      · next ht => cases h; exact ⟨rfl, ht⟩
      · cases h
    · rintro ⟨rfl, ht⟩
      rw [if_pos ht]

theorem finds_sym {x t : τ} {l : String} {i : Nat} {ctx : Ctx τ} {k : Int}
    {b : Option Int} (hc : CtxOK D ctx i) (h1 : s[i]? = some t) (h2 : (t == x) = true) :
    Finds D (.accepts t (i + 1) []) ((symFns x l).fn s i ctx k b) := by
  have hlt := (List.getElem?_eq_some_iff.1 h1).1
  simp only [symFns, symFn, symAt_some_iff.2 ⟨h1, h2⟩]
  exact .mk_accepts rfl rfl rfl (hc.stay (Nat.le_succ _) hlt)

theorem finds_sym_not {x : τ} {l : String} {i : Nat} {ctx : Ctx τ} {k : Int}
    (hi : i ≤ s.length) (hc : CtxOK D ctx i) (h1 : ∀ t, s[i]? = some t → (t == x) = false) :
    Finds D (.rejects i [l] false) ((symFns x l).fn s i ctx k none) := by
  simp only [symFns, symFn, symAt_none_iff.2 h1]
  exact .mk_rejects (hc.report (Nat.le_refl _) hi) rfl rfl

theorem finds_sym_skip {x t : τ} {l : String} {i j : Nat} {ctx : Ctx τ} {k r : Int}
    (hi : i ≤ s.length) (hc : CtxOK D ctx i) (hij : i < j)
    (h : ∀ n, i ≤ n → n < j → ∀ t, s[n]? = some t → (t == x) = false)
    (h1 : s[j]? = some t) (h2 : (t == x) = true) :
    Finds D (.repairs (insertions r i x l ++ [Cand.skip k i j t (j + 1) [l]]) i [l] false)
      ((symFns x l).fn s i ctx k (some r)) := by
  have hlt := (List.getElem?_eq_some_iff.1 h1).1
  simp only [symFns, symFn, symAt_none_iff.2 (h i (Nat.le_refl _) hij), Out.bind_def]
  rw [scan_eq_some (c := j) (b := t) (by omega) (by omega)
    (by rw [symAt_some_iff.2 ⟨h1, h2⟩]) fun n h3 h4 => by rw [symAt_none_iff.2 (h n (by omega) h4)]]
  refine .mk_repairs (hc.report (Nat.le_refl _) hi) rfl rfl
    ((each_insertions hi hc).append (.cons (.skip hi hc ?_) .nil))
  exact hc.updateLoc (by omega) hlt

theorem finds_sym_never {x : τ} {l : String} {i : Nat} {ctx : Ctx τ} {k r : Int}
    (hi : i ≤ s.length) (hc : CtxOK D ctx i)
    (h : ∀ n, i ≤ n → ∀ t, s[n]? = some t → (t == x) = false) :
    Finds D (.repairs (insertions r i x l) i [l] false) ((symFns x l).fn s i ctx k (some r)) := by
  simp only [symFns, symFn, symAt_none_iff.2 (h i (Nat.le_refl _)), Out.bind_def]
  rw [scan_eq_none fun n h3 _ => by rw [symAt_none_iff.2 (h n (by omega))]]
  exact .mk_repairs (hc.report (Nat.le_refl _) hi) rfl rfl (each_insertions hi hc)

theorem finds_literal {x : List τ} {l : String} {i : Nat} {ctx : Ctx τ} {k : Int} {b : Option Int}
    (hx : x ≠ []) (hc : CtxOK D ctx i) (h1 : x.isPrefixOf (s.drop i) = true) :
    Finds D (.accepts x (i + x.length) []) ((literalFns x l).fn s i ctx k b) := by
  have h1 : startsWith x s i = true := h1
  have := startsWith_le hx h1
  simp only [literalFns, literalFn, h1, if_true]
  exact .mk_accepts rfl rfl rfl (hc.updateLoc (by simp) this)

theorem finds_literal_not {x : List τ} {l : String} {i : Nat} {ctx : Ctx τ} {k : Int}
    (hi : i ≤ s.length) (hc : CtxOK D ctx i) (h1 : x.isPrefixOf (s.drop i) = false) :
    Finds D (.rejects i [l] false) ((literalFns x l).fn s i ctx k none) := by
  have h1 : startsWith x s i = false := h1
  simp only [literalFns, literalFn, h1, Bool.false_eq_true, if_false]
  exact .mk_rejects (hc.report (Nat.le_refl _) hi) rfl rfl

theorem finds_literal_skip {x : List τ} {l : String} {i j : Nat} {ctx : Ctx τ} {k r : Int}
    (hx : x ≠ []) (hi : i ≤ s.length) (hc : CtxOK D ctx i) (hij : i < j)
    (h : ∀ n, i ≤ n → n < j → x.isPrefixOf (s.drop n) = false)
    (h1 : x.isPrefixOf (s.drop j) = true) :
    Finds D (.repairs (insertions r i x l ++ [Cand.skip k i j x (j + x.length) [l]]) i [l] false)
      ((literalFns x l).fn s i ctx k (some r)) := by
  have h1 : startsWith x s j = true := h1
  have hle := startsWith_le hx h1
  have hpos : 0 < x.length := List.length_pos_iff.2 hx
  have h0 : startsWith x s i = false := h i (Nat.le_refl _) hij
  simp only [literalFns, literalFn, h0, Bool.false_eq_true, if_false, Out.bind_def]
  rw [scan_eq_some (c := j) (b := ()) (by omega) (by omega) (by simp [h1])
    fun n h3 h4 => by rw [show startsWith x s n = false from h n (by omega) h4]; rfl]
  refine .mk_repairs (hc.report (Nat.le_refl _) hi) rfl rfl
    ((each_insertions hi hc).append (.cons (.skip hi hc ?_) .nil))
  exact hc.updateLoc (by omega) hle

theorem finds_literal_never {x : List τ} {l : String} {i : Nat} {ctx : Ctx τ} {k r : Int}
    (hi : i ≤ s.length) (hc : CtxOK D ctx i)
    (h : ∀ n, i ≤ n → x.isPrefixOf (s.drop n) = false) :
    Finds D (.repairs (insertions r i x l) i [l] false) ((literalFns x l).fn s i ctx k (some r)) := by
  have h0 : startsWith x s i = false := h i (Nat.le_refl _)
  simp only [literalFns, literalFn, h0, Bool.false_eq_true, if_false, Out.bind_def]
  rw [scan_eq_none fun n h3 _ => by rw [show startsWith x s n = false from h n (by omega)]; rfl]
  exact .mk_repairs (hc.report (Nat.le_refl _) hi) rfl rfl (each_insertions hi hc)

end

/-! ### `regexp` -/

theorem Matcher.at_none_iff {m : Matcher τ β} {n : Nat} : m.at s n = .ok none ↔ m.Misses s n := by
  unfold Matcher.at Matcher.Misses
  cases hm : m.run s n with
  | none => simp
  | some y =>
    obtain ⟨e, v⟩ := y
    cases v with
    | error e => simp
    | ok v => cases v <;> simp

theorem Matcher.at_some_iff {m : Matcher τ β} {n j : Nat} {v : β} :
    m.at s n = .ok (some (j, v)) ↔ m.run s n = some (j, .ok (some v)) := by
  unfold Matcher.at
  cases hm : m.run s n with
  | none => simp
  | some y =>
    obtain ⟨e, v⟩ := y
    cases v with
    | error e => simp
    | ok v => cases v <;> simp

theorem Matcher.at_error_iff {m : Matcher τ β} {n : Nat} {e : Exn} :
    m.at s n = .error e ↔ ∃ j, m.run s n = some (j, .error e) := by
  unfold Matcher.at
  cases hm : m.run s n with
  | none => simp
  | some y =>
    obtain ⟨e, v⟩ := y
    cases v with
    | error e => simp
    | ok v => cases v <;> simp

theorem finds_regexp {m : Matcher τ β} {i j : Nat} {v : β} {ctx : Ctx τ} {k : Int} {b : Option Int}
    (hi : i ≤ s.length) (hc : CtxOK D ctx i) (h : m.run s i = some (j, .ok (some v))) :
    Finds D (.accepts v j []) ((regexpFns m).fn s i ctx k b) := by
  have hb := m.bounds _ _ _ _ hi h
  simp only [regexpFns, regexpFn, Matcher.at_some_iff.2 h, Out.ofExcept_ok, Out.bind_def, Out.bind_ret]
  exact .mk_accepts rfl rfl rfl (hc.updateLoc hb.1 hb.2)

theorem finds_regexp_raises {m : Matcher τ β} {i j : Nat} {e : Exn} {ctx : Ctx τ} {k : Int}
    {b : Option Int} (h : m.run s i = some (j, .error e)) :
    Finds D (.raises e) ((regexpFns m).fn s i ctx k b) := by
  simp only [regexpFns, regexpFn, Matcher.at_error_iff.2 ⟨j, h⟩, Out.bind_def]
  exact .raises

theorem finds_regexp_not {m : Matcher τ β} {i : Nat} {ctx : Ctx τ} {k : Int}
    (hi : i ≤ s.length) (hc : CtxOK D ctx i) (h : m.Misses s i) :
    Finds D (.rejects i [] false) ((regexpFns m).fn s i ctx k none) := by
  simp only [regexpFns, regexpFn, Matcher.at_none_iff.2 h, Out.ofExcept_ok, Out.bind_def, Out.bind_ret]
  exact .mk_rejects (hc.report (Nat.le_refl _) hi) rfl rfl

theorem finds_regexp_skip {m : Matcher τ β} {i j j' : Nat} {v : β} {ctx : Ctx τ} {k r : Int}
    (hi : i ≤ s.length) (hc : CtxOK D ctx i) (hij : i < j) (hj : j < s.length)
    (h : ∀ n, i ≤ n → n < j → m.Misses s n) (h1 : m.run s j = some (j', .ok (some v))) :
    Finds D (.repairs [Cand.skip k i j v j' []] i [] false) ((regexpFns m).fn s i ctx k (some r)) := by
  have hb := m.bounds _ _ _ _ (Nat.le_of_lt hj) h1
  simp only [regexpFns, regexpFn, Matcher.at_none_iff.2 (h i (Nat.le_refl _) hij), Out.ofExcept_ok,
    Out.bind_def, Out.bind_ret]
  rw [scan_eq_some (c := j) (b := (j', v)) (by omega) (by omega) (Matcher.at_some_iff.2 h1)
    fun n h3 h4 => Matcher.at_none_iff.2 (h n (by omega) h4)]
  exact .mk_repairs (hc.report (Nat.le_refl _) hi) rfl rfl
    (.cons (.skip hi hc (hc.updateLoc (by omega) hb.2)) .nil)

theorem finds_regexp_never {m : Matcher τ β} {i : Nat} {ctx : Ctx τ} {k r : Int}
    (hi : i ≤ s.length) (hc : CtxOK D ctx i) (h0 : m.Misses s i)
    (h : ∀ n, i < n → n < s.length → m.Misses s n) :
    Finds D (.rejects i [] false) ((regexpFns m).fn s i ctx k (some r)) := by
  simp only [regexpFns, regexpFn, Matcher.at_none_iff.2 h0, Out.ofExcept_ok, Out.bind_def, Out.bind_ret]
  rw [scan_eq_none fun n h3 h4 => Matcher.at_none_iff.2 (h n (by omega) (by omega))]
  exact .mk_rejects (hc.report (Nat.le_refl _) hi) rfl rfl

theorem finds_regexp_skip_raises {m : Matcher τ β} {i j j' : Nat} {e : Exn} {ctx : Ctx τ} {k r : Int}
    (hij : i < j) (hj : j < s.length)
    (h : ∀ n, i ≤ n → n < j → m.Misses s n) (h1 : m.run s j = some (j', .error e)) :
    Finds D (.raises e) ((regexpFns m).fn s i ctx k (some r)) := by
  simp only [regexpFns, regexpFn, Matcher.at_none_iff.2 (h i (Nat.le_refl _) hij), Out.ofExcept_ok,
    Out.bind_def, Out.bind_ret]
  rw [scan_eq_error (c := j) (e := e) (by omega) (by omega) (Matcher.at_error_iff.2 ⟨j', h1⟩)
    fun n h3 h4 => Matcher.at_none_iff.2 (h n (by omega) h4)]
  exact .raises

/-! ### `eof` -/

theorem finds_eof {i : Nat} {ctx : Ctx τ} {k : Int} {b : Option Int} (hc : CtxOK D ctx i)
    (h : i = s.length) : Finds D (.accepts () i []) (eofFns.fn s i ctx k b) := by
  simp only [eofFns, eofFn, h, if_true]
  subst h
  exact .mk_accepts rfl rfl rfl hc

theorem finds_eof_not {i : Nat} {ctx : Ctx τ} {k : Int} (hi : i ≤ s.length) (hc : CtxOK D ctx i)
    (h : i ≠ s.length) :
    Finds D (.rejects i ["end of file"] false) (eofFns.fn s i ctx k none) := by
  simp only [eofFns, eofFn, h, if_false]
  exact .mk_rejects (hc.report (Nat.le_refl _) hi) rfl rfl

theorem finds_eof_skip {i : Nat} {ctx : Ctx τ} {k r : Int} (hi : i ≤ s.length) (hc : CtxOK D ctx i)
    (h : i ≠ s.length) :
    Finds D (.repairs [Cand.skipRest k i s.length ["end of file"]] i ["end of file"] false)
      (eofFns.fn s i ctx k (some r)) := by
  simp only [eofFns, eofFn, h, if_false]
  have hl := hc.report (Nat.le_refl _) hi
  exact .mk_repairs hl rfl rfl (.cons
    ⟨rfl, rfl, rfl, .cons ⟨hl, rfl, rfl, rfl⟩ .nil, rfl, rfl, hc.stay hi (Nat.le_refl _), rfl, rfl⟩ .nil)

/-! ### The other combinators -/

theorem finds_attempt {f : ParseFns τ α} {i : Nat} {ctx : Ctx τ} {k : Int} {o : Outcome α}
    (h : Shows D o (f.fast s i ctx)) :
    Finds D o.attempted.finding ((attemptFns f).fn s i ctx k none) := by
  simp only [attemptFns, attemptFn, Out.bind_def]
  generalize f.fast s i ctx = x at h
  cases h with
  | accepts h => exact .accepts h
  | rejects h => exact .mk_rejects h rfl rfl
  | raises => exact .raises

theorem finds_label {f : ParseFns τ α} {x : String} {i : Nat} {ctx : Ctx τ} {k : Int} {b : Option Int}
    {o : Finding α} (hf : Framed f) (hi : i ≤ s.length) (h : Finds D o (f.fn s i ctx k b)) :
    Finds D (o.relabel i [x]) ((labelFns f x).fn s i ctx k b) := by
  simp only [labelFns, Out.bind_def, Out.pure_def]
  refine finds_relabel h fun r hr => ?_
  have hfr : OkFrame .. := hf s i ctx k b _ hi hr
  exact hfr.consumed

theorem finds_recover {f : ParseFns τ α} {i : Nat} {ctx : Ctx τ} {k : Int} {b : Option Int}
    {o : Finding α} (h : Finds D o (f.fn s i ctx k b)) :
    Finds D o.promoted ((recoverFns f).fn s i ctx k b) := by
  simp only [recoverFns, recoverFn, Out.bind_def]
  generalize f.fn s i ctx k b = x at h
  cases h with
  | accepts h => exact .accepts h
  | rejects h => exact .rejects h
  | raises => exact .raises
  | repairs h h' =>
    refine .mk_repairs h rfl rfl (h'.map _ _ fun c _ r _ hc => ?_)
    refine ⟨hc.cost, ?_, hc.left, hc.fixes, hc.value, hc.stop, hc.ctx, hc.wants, hc.begun⟩
    simp only [Repair.promote]
    cases r.prio <;> rfl

theorem finds_recoverWithFn_no {f : ParseFns τ α} {fn : List τ → Nat → Except Exn α}
    {lbl : α → String} {i : Nat} {ctx : Ctx τ} {k : Int} {b : Option Int} {o : Finding α}
    (hb : b = none ∨ b = some 0 ∨ o.gaveUp = none) (h : Finds D o (f.fn s i ctx k b)) :
    Finds D o ((recoverWithFnFns f fn lbl).fn s i ctx k b) := by
  simp only [recoverWithFnFns, recoverWithFnFn, Out.bind_def]
  cases b with
  | none => exact h
  | some r =>
    simp only
    generalize f.fn s i ctx k (some r) = x at h
    have hb : r = 0 ∨ o.gaveUp = none := by simpa using hb
    cases h with
    | accepts h => exact .accepts h
    | raises => exact .raises
    | @rejects q e h =>
      obtain ⟨loc, ex, c⟩ := e
      cases c with
      | true => exact .mk_rejects h rfl rfl
      | false =>
        have : r = 0 := by simpa [Finding.gaveUp] using hb
        simp [this]
        exact .mk_rejects h rfl rfl
    | @repairs q cs e h h' =>
      obtain ⟨rs, mp, loc, ex, c⟩ := e
      cases c with
      | true => exact .mk_repairs h rfl rfl h'
      | false =>
        have : r = 0 := by simpa [Finding.gaveUp] using hb
        simp [this]
        exact .mk_repairs h rfl rfl h'

theorem finds_recoverWithFn {f : ParseFns τ α} {fn : List τ → Nat → Except Exn α}
    {lbl : α → String} {i : Nat} {ctx : Ctx τ} {k r : Int} {o : Finding α} {x : α}
    (hi : i ≤ s.length) (hc : CtxOK D ctx i) (hr : r ≠ 0) (ho : o.gaveUp ≠ none) (hx : fn s i = .ok x)
    (h : Finds D o (f.fn s i ctx k (some r))) :
    Finds D (o.orInsert r i x (lbl x)) ((recoverWithFnFns f fn lbl).fn s i ctx k (some r)) := by
  simp only [recoverWithFnFns, recoverWithFnFn, Out.bind_def]
  generalize f.fn s i ctx k (some r) = y at h
  have hl := hc.report (Nat.le_refl _) hi
  cases h with
  | accepts h => simp [Finding.gaveUp] at ho
  | raises => simp [Finding.gaveUp] at ho
  | @rejects q e h =>
    obtain ⟨loc, ex, c⟩ := e
    cases c with
    | true => simp [Finding.gaveUp] at ho
    | false =>
      simp only [Out.bind_ret, Bool.false_eq_true, if_false, ne_eq, hr, not_false_eq_true, if_true, hx,
        Out.ofExcept_ok]
      exact .mk_repairs hl rfl rfl (.cons (.userInsert hi hc) .nil)
  | @repairs q cs e h h' =>
    obtain ⟨rs, mp, loc, ex, c⟩ := e
    cases c with
    | true => simp [Finding.gaveUp] at ho
    | false =>
      simp only [Out.bind_ret, Bool.false_eq_true, if_false, ne_eq, hr, not_false_eq_true, if_true, hx,
        Out.ofExcept_ok]
      exact .mk_repairs hl rfl rfl (.cons (.userInsert hi hc) h')

theorem finds_recoverWithFn_raises {f : ParseFns τ α} {fn : List τ → Nat → Except Exn α}
    {lbl : α → String} {i : Nat} {ctx : Ctx τ} {k r : Int} {o : Finding α} {x : Exn}
    (hr : r ≠ 0) (ho : o.gaveUp ≠ none) (hx : fn s i = .error x)
    (h : Finds D o (f.fn s i ctx k (some r))) :
    Finds D (.raises x) ((recoverWithFnFns f fn lbl).fn s i ctx k (some r)) := by
  simp only [recoverWithFnFns, recoverWithFnFn, Out.bind_def]
  generalize f.fn s i ctx k (some r) = y at h
  cases h with
  | accepts h => simp [Finding.gaveUp] at ho
  | raises => simp [Finding.gaveUp] at ho
  | @rejects q e h =>
    obtain ⟨loc, ex, c⟩ := e
    cases c with
    | true => simp [Finding.gaveUp] at ho
    | false =>
      simp only [Out.bind_ret, Bool.false_eq_true, if_false, ne_eq, hr, not_false_eq_true, if_true, hx]
      exact .raises
  | @repairs q cs e h h' =>
    obtain ⟨rs, mp, loc, ex, c⟩ := e
    cases c with
    | true => simp [Finding.gaveUp] at ho
    | false =>
      simp only [Out.bind_ret, Bool.false_eq_true, if_false, ne_eq, hr, not_false_eq_true, if_true, hx]
      exact .raises

theorem finds_layout {f : ParseFns τ α} {i : Nat} {ctx c : Ctx τ} {k : Int} {b : Option Int}
    {o : Finding α} (hf : Framed f) (hi : i ≤ s.length) (hc : CtxOK D ctx i)
    (h : Finds D o (f.fn s i c k b)) :
    Finds D o ((f.fn s i c k b).bind fun r => .ret (r.setCtx (ctx.updateLoc s i))) := by
  have hu := hc.updateLoc (Nat.le_refl _) hi
  refine finds_setCtx h (fun r hr => ?_) fun r hr y hy => ?_
  · have hfr : OkFrame .. := hf s i c k b _ hi hr
    exact hu.stay hfr.lo hfr.hi
  · have hfr : RecFrame .. := hf s i c k b _ hi hr
    exact hu.stay (hfr.reps y hy).lo (hfr.reps y hy).hi

theorem finds_block {f : ParseFns τ α} {i : Nat} {ctx : Ctx τ} {k : Int} {b : Option Int}
    {o : Finding α} (hf : Framed f) (hi : i ≤ s.length) (hc : CtxOK D ctx i)
    (h : Finds D o (f.fn s i ((ctx.updateLoc s i).setMark (ctx.updateLoc s i).loc.col) k b)) :
    Finds D o ((blockFns f).fn s i ctx k b) := finds_layout hf hi hc h

theorem finds_indented {f : ParseFns τ α} {i : Nat} {ctx : Ctx τ} {k : Int} {b : Option Int}
    {o : Finding α} {delta : Int} (hf : Framed f) (hi : i ≤ s.length) (hc : CtxOK D ctx i)
    (hd : ((ctx.updateLoc s i).mark : Int) + delta = (ctx.updateLoc s i).loc.col)
    (h : Finds D o (f.fn s i ((ctx.updateLoc s i).setMark (ctx.updateLoc s i).loc.col) k b)) :
    Finds D o ((indentedFns delta f).fn s i ctx k b) := by
  simp only [indentedFns, hd, if_true]
  exact finds_layout hf hi hc h

/-! ### `many` -/

theorem contOne_mapMerge {δ : Type} (k : Int) (merge : α → β → γ) (g : γ → δ) (r : Repair τ α)
    (x : Result τ β) :
    contOne k (fun a b => g (merge a b)) r x = (contOne k merge r x).map (Repair.fmap g) := by
  cases x with
  | ok y => rfl
  | error e => rfl
  | recovered y =>
    simp only [contOne, List.map_map]
    rfl

theorem contReps_mapMerge {δ : Type} (k : Int) (K : α → Nat → Ctx τ → Int → Out (Result τ β))
    (merge : α → β → γ) (g : γ → δ) (rs : List (Repair τ α)) :
    contReps k K (fun a b => g (merge a b)) rs =
      (contReps k K merge rs).bind fun ts => .ret (ts.map (Repair.fmap g)) := by
  induction rs with
  | nil => rfl
  | cons r rs ih =>
    simp only [contReps, Out.bind_def, ih, Out.bind_assoc, Out.pure_def, contOne_mapMerge, Out.bind_ret,
      List.map_append]

theorem continueParse_mapMerge {δ : Type} (r : Recovered τ α) (k : Int)
    (K : α → Nat → Ctx τ → Int → Out (Result τ β)) (merge : α → β → γ) (g : γ → δ) :
    continueParse r k K (fun a b => g (merge a b)) =
      (continueParse r k K merge).bind fun x => .ret (x.fmap g) := by
  simp only [continueParse, Out.bind_def, contReps_mapMerge, Out.bind_assoc, Out.pure_def, Out.bind_ret]
  rfl

theorem finds_bind_fmap {o : Finding α} {x : Out (Result τ α)} (h : Finds D o x) (f : α → β) :
    Finds D (o.map f) (x.bind fun r => .ret (r.fmap f)) := by
  cases x with
  | diverge => exact absurd rfl h.ne
  | raise e => cases h; exact .raises
  | ret y => exact h.fmap f

/-- The value collected so far and the flag do not matter to the loop of `many`. -/
theorem finds_acc (f : Fn τ α) (k : Int) (n : Nat) :
    ∀ pos ctx c c' (w : List α) o, Finds D o (manyLoop f s k n pos ctx c w) → ∀ v,
      Finds D (o.map (v ++ ·)) (manyLoop f s k n pos ctx c' (v ++ w)) := by
  induction n with
  | zero => intro pos ctx c c' w o h v; exact absurd rfl h.ne
  | succ n ih =>
    intro pos ctx c c' w o h v
    simp only [manyLoop, Out.bind_def] at h ⊢
    cases hr : f s pos ctx k none with
    | diverge => rw [hr] at h; exact absurd rfl h.ne
    | raise e => rw [hr] at h; cases h; exact .raises
    | ret y =>
      simp only [hr, Out.bind_ret] at h ⊢
      cases y with
      | ok r =>
        simp only at h ⊢
        split at h
        · next hc =>
          rw [if_pos hc, List.append_assoc]
          exact ih _ _ _ _ _ _ h v
        · next hc => rw [if_neg hc]; cases h; exact .raises
      | error e =>
        simp only at h ⊢
        split at h
        · next hc => rw [if_pos hc]; cases h with | rejects h => exact .rejects h
        · next hc =>
          rw [if_neg hc]
          cases h with
          | accepts h => exact .mk_accepts rfl rfl rfl h
      | recovered r =>
        simp only at h ⊢
        have := continueParse_mapMerge r k (fun _ p' c _ => manyLoop f s k n p' c false [])
          (fun a b => w ++ a :: b) (v ++ ·)
        simp only [← List.append_assoc] at this
        rw [this]
        exact finds_bind_fmap h _

/-- Whether the loop of `many` goes on for ever does not depend on what was collected. -/
theorem manyLoop_acc_ne (f : Fn τ α) (k : Int) (n : Nat) :
    ∀ pos ctx c c' (w w' : List α), manyLoop f s k n pos ctx c w = .diverge →
      manyLoop f s k n pos ctx c' w' = .diverge := by
  induction n with
  | zero => intro pos ctx c c' w w' _; rfl
  | succ n ih =>
    intro pos ctx c c' w w' h
    simp only [manyLoop, Out.bind_def] at h ⊢
    cases hr : f s pos ctx k none with
    | diverge => rfl
    | raise e => rw [hr] at h; cases h
    | ret y =>
      simp only [hr, Out.bind_ret] at h ⊢
      cases y with
      | ok r =>
        simp only at h ⊢
        split at h
        · next hc => rw [if_pos hc]; exact ih _ _ _ _ _ _ h
        · cases h
      | error e =>
        simp only at h ⊢
        split at h <;> cases h
      | recovered r =>
        simp only at h ⊢
        have h1 := continueParse_mapMerge r k (fun _ p' c _ => manyLoop f s k n p' c false [])
          (fun a b => (a :: b : List α)) (w ++ ·)
        have h2 := continueParse_mapMerge r k (fun _ p' c _ => manyLoop f s k n p' c false [])
          (fun a b => (a :: b : List α)) (w' ++ ·)
        rw [h1] at h
        rw [h2]
        generalize continueParse r k (fun _ p' c _ => manyLoop f s k n p' c false [])
          (fun a b => (a :: b : List α)) = x at h
        cases x with
        | diverge => rfl
        | raise e => cases h
        | ret y => cases h

theorem finds_many_end {f : Fn τ α} {i n : Nat} {ctx : Ctx τ} {k : Int} {q : Nat} {w : List String}
    (hc : CtxOK D ctx i) (h : Finds D (.rejects q w false) (f s i ctx k none)) :
    Finds D (.accepts [] i w) (manyLoop f s k (n + 1) i ctx false []) := by
  simp only [manyLoop, Out.bind_def]
  obtain ⟨e, h1, h2, rfl, h3⟩ := h.inv_rejects
  rw [h1]
  simp only [Out.bind_ret, h3, Bool.false_eq_true, if_false]
  exact .mk_accepts rfl rfl rfl hc

theorem finds_many_rejects {f : Fn τ α} {i n : Nat} {ctx : Ctx τ} {k : Int} {q : Nat}
    {w : List String} (h : Finds D (.rejects q w true) (f s i ctx k none)) :
    Finds D (.rejects q w true) (manyLoop f s k (n + 1) i ctx false []) := by
  simp only [manyLoop, Out.bind_def]
  obtain ⟨e, h1, h2, rfl, h3⟩ := h.inv_rejects
  rw [h1]
  simp only [Out.bind_ret, h3, if_true]
  exact .mk_rejects h2 rfl h3

theorem finds_many_raises {f : Fn τ α} {i n : Nat} {ctx : Ctx τ} {k : Int} {e : Exn}
    (h : Finds D (.raises e) (f s i ctx k none)) :
    Finds D (.raises e) (manyLoop f s k (n + 1) i ctx false []) := by
  simp only [manyLoop, Out.bind_def, h.inv_raises]
  exact .raises

theorem finds_many_empty {f : ParseFns τ α} {i n : Nat} {ctx : Ctx τ} {k : Int} {r : Ok τ α}
    (hf : Framed f) (hi : i ≤ s.length) (h : f.fn s i ctx k none = .ret (.ok r)) (hr : ¬ i < r.pos) :
    Finds D (.raises (.runtimeError "parser shouldn't accept empty string"))
      (manyLoop f.fn s k (n + 1) i ctx false []) := by
  have hfr : OkFrame .. := hf s i ctx k none _ hi h
  simp only [manyLoop, Out.bind_def, h, Out.bind_ret, hfr.consumed, hr, decide_false,
    Bool.false_eq_true, if_false]
  exact .raises

theorem finds_many_item {f : ParseFns τ α} {i n : Nat} {ctx : Ctx τ} {k : Int} {r : Ok τ α}
    {o : Finding (List α)} (hf : Framed f) (hi : i ≤ s.length)
    (h : f.fn s i ctx k none = .ret (.ok r)) (hr : i < r.pos)
    (h' : Finds D o (manyLoop f.fn s k n r.pos r.ctx false [])) :
    Finds D (o.map (r.value :: ·)) (manyLoop f.fn s k (n + 1) i ctx false []) := by
  have hfr : OkFrame .. := hf s i ctx k none _ hi h
  simp only [manyLoop, Out.bind_def, h, Out.bind_ret, hfr.consumed, hr, decide_true, if_true]
  exact finds_acc f.fn k n r.pos r.ctx false true [] o h' [r.value]

theorem many_eq_repairs {f : Fn τ α} {i n : Nat} {ctx : Ctx τ} {k : Int} {r : Recovered τ α}
    (h : f s i ctx k none = .ret (.recovered r)) :
    manyLoop f s k (n + 1) i ctx false [] =
      continueParse r k (fun _ p' c _ => manyLoop f s k n p' c false []) List.cons := by
  simp only [manyLoop, Out.bind_def, h, Out.bind_ret]
  rfl

end Reparsec
