import Verif.Props.Recovery
import Verif.Props.Samples

/-!
# C72: the number of candidate repairs can double with every error

No candidate is ever dropped in favour of a better one that stops at the same place
(`core/recovery.py:18-45`), so the candidates of independent errors multiply.
-/

namespace Reparsec
namespace Blowup

variable {τ ρ : Type} {Γ : ρ → Type} [BEq τ]

/-- `(sym(x) + sym(y)).many() << eof()` -/
def pairs (x y : τ) (lx ly : String) : P τ ρ Γ (List (τ × τ)) :=
  (P.many ((P.sym x lx).seq (.sym y ly))).seql .eof

/-- `n` pairs, each damaged: one `x` too many. -/
def damaged (x y : τ) : Nat → List τ
  | 0 => []
  | n + 1 => x :: x :: y :: damaged x y n

/-- All that matters here of what `many` comes to: it is a success, or a list of candidates; there are `c` of
them, all at the end of the input, all of this cost. -/
def Counts (s : List τ) (c cost : Nat) : Finding (List (τ × τ)) → Prop
  | .accepts _ j _ => j = s.length ∧ c = 1 ∧ cost = 0
  | .repairs cs _ _ _ => cs.length = c ∧ ∀ d ∈ cs, d.stop = s.length ∧ d.cost = cost
  | _ => False

omit [BEq τ] in
theorem Counts.calm {s : List τ} {c cost : Nat} {o : Finding (List (τ × τ))} (h : Counts s c cost o) :
    o.calm := by
  cases o with
  | raises => exact h
  | _ => trivial

omit [BEq τ] in
theorem Counts.map {s : List τ} {c cost : Nat} {o : Finding (List (τ × τ))}
    {f : List (τ × τ) → List (τ × τ)} (h : Counts s c cost o) : Counts s c cost (o.map f) := by
  cases o with
  | accepts => exact h
  | repairs cs q w b =>
    obtain ⟨h1, h2⟩ := h
    refine ⟨by simpa using h1, fun d hd => ?_⟩
    obtain ⟨e, he, rfl⟩ := List.mem_map.1 hd
    exact h2 e he
  | rejects => exact h
  | raises => exact h

omit [BEq τ] in
theorem Counts.andThen {s : List τ} {k : Int} {c cost : Nat} {o : Finding (List (τ × τ))}
    {d : Cand (τ × τ)} (h : Counts s c cost o) :
    (d.andThen k List.cons o).length = c ∧
      ∀ e ∈ d.andThen k List.cons o, e.stop = s.length ∧ e.cost = d.cost + cost := by
  cases o with
  | accepts v j w =>
    obtain ⟨rfl, rfl, rfl⟩ := h
    refine ⟨rfl, fun e he => ?_⟩
    cases List.mem_singleton.1 he
    exact ⟨rfl, rfl⟩
  | repairs cs q w b =>
    obtain ⟨h1, h2⟩ := h
    refine ⟨by simpa [Cand.andThen] using h1, fun e he => ?_⟩
    obtain ⟨e', he', rfl⟩ := List.mem_map.1 he
    exact ⟨(h2 e' he').1, by rw [← (h2 e' he').2]⟩
  | rejects => exact h.elim
  | raises => exact h.elim

omit [BEq τ] in
theorem get_of_drop {s l : List τ} {i n : Nat} (h : s.drop i = l) : s[i + n]? = l[n]? := by
  rw [← h, List.getElem?_drop]

/-- One item followed by a success. -/
theorem item_ok [LawfulBEq τ] {env : Env τ ρ Γ} {s : List τ} {col : Nat → Nat → Prop} {k : Int} {x y : τ}
    {lx ly : String} {m i : Nat} {b : Option Int} (h0 : s[i]? = some x) (h1 : s[i + 1]? = some y) :
    ∃ w, Rec env s col k ((P.sym x lx).seq (.sym y ly)) m i b (.accepts (x, y) (i + 2) w) := by
  have := Rec.seq (merge := fun l r => (l, r)) (Rec.bind (env := env) (col := col) (k := k) (m := m)
    (p := P.sym x lx) (f := fun a => .fmap (.sym y ly) fun b => .ok (a, b))
    (i := i) (b := b) (Rec.sym h0 (by simp)) (Rec.fmap (Rec.sym h1 (by simp))))
  exact ⟨_, this⟩

/-- An item with an `x` too many: one `y` too few, or one `x` too many. -/
theorem item_damaged [LawfulBEq τ] {env : Env τ ρ Γ} {s : List τ} {col : Nat → Nat → Prop} {k : Int}
    {x y : τ} {lx ly : String} {m i : Nat} {b : Option Int} (hk : k ≠ 0) (hxy : x ≠ y)
    (h0 : s[i]? = some x) (h1 : s[i + 1]? = some x) (h2 : s[i + 2]? = some y) :
    ∃ c d q w, Rec env s col k ((P.sym x lx).seq (.sym y ly)) m i b (.repairs [c, d] q w true) ∧
      c.stop = i + 1 ∧ c.cost = 1 ∧ d.stop = i + 3 ∧ d.cost = 1 := by
  have hs : Rec env s col k (.sym y ly) m (i + 1) (some k)
      (.repairs (insertions k (i + 1) y ly ++ [Cand.skip k (i + 1) (i + 2) y (i + 2 + 1) [ly]])
        (i + 1) [ly] false) := by
    refine Rec.symSkip (by omega) (fun n hn hn' t ht => ?_) h2 (by simp)
    obtain rfl : n = i + 1 := by omega
    rw [h1] at ht
    cases ht
    simpa using hxy
  rw [insertions, if_neg hk] at hs
  have := Rec.seq (merge := fun l r => (l, r)) (Rec.bind (env := env) (col := col) (k := k) (m := m)
    (p := P.sym x lx) (f := fun a => .fmap (.sym y ly) fun b => .ok (a, b))
    (i := i) (b := b) (Rec.sym h0 (by simp)) (Rec.fmap (by rw [if_pos (by omega)]; exact hs)))
  simp only [Finding.mapM, Finding.after] at this
  have hd : decide (i < i + 1) = true := by simp
  rw [hd] at this
  exact ⟨_, _, _, _, this, rfl, rfl, rfl, by simp [Cand.after, Cand.withValue, Cand.skip]⟩

theorem many_damaged [LawfulBEq τ] {env : Env τ ρ Γ} {s : List τ} {col : Nat → Nat → Prop} {k : Int}
    {x y : τ} {lx ly : String} {m : Nat} (hk : k ≠ 0) (hxy : x ≠ y) (n : Nat) :
    ∀ (i : Nat) (b : Option Int), i ≤ s.length → s.drop i = damaged x y n →
      ∃ o, Rec env s col k (.many ((P.sym x lx).seq (.sym y ly))) m i b o ∧ Counts s (2 ^ n) n o := by
  induction n with
  | zero =>
    intro i b hi h
    have : s.length ≤ i := List.drop_eq_nil_iff.1 h
    obtain rfl : i = s.length := by omega
    refine ⟨_, Rec.manyEnd (Rec.seq (Rec.bindRejects (w := [lx]) (q := s.length) (Rec.symNot ?_))), rfl, rfl, rfl⟩
    simp
  | succ n ih =>
    intro i b hi h
    have h0 := get_of_drop (n := 0) h
    have h1 := get_of_drop (n := 1) h
    have h2 := get_of_drop (n := 2) h
    have h3 : s.drop (i + 3) = damaged x y n := by
      rw [← List.drop_drop, h]; rfl
    have hl : i + 3 ≤ s.length := by
      have := List.getElem?_eq_some_iff.1 (show s[i + 2]? = some y from h2)
      obtain ⟨h, -⟩ := this
      omega
    obtain ⟨c, d, q, w, hr, hc1, hc2, hd1, hd2⟩ := item_damaged (env := env) (col := col) (m := m)
      (lx := lx) (ly := ly) (b := none) hk hxy h0 h1 h2
    obtain ⟨w', hr'⟩ := item_ok (env := env) (s := s) (col := col) (m := m) (k := k) (x := x) (y := y)
      (lx := lx) (ly := ly) (b := none) (i := i + 1) h1 h2
    obtain ⟨o, ho, hco⟩ := ih (i + 3) none hl h3
    have ho' := Rec.manyItem (b := none) hr' (by omega) ho
    refine ⟨_, Rec.manyRepairs (os := [o.map ((x, y) :: ·), o]) hr rfl ?_ ?_, ?_⟩
    · intro n e o' he ho2
      rcases n with _ | _ | n
      · cases he; cases ho2; rw [hc1]; exact ho'
      · cases he; cases ho2; rw [hd1]; exact ho
      · cases he
    · intro o' ho2
      rcases List.mem_cons.1 ho2 with rfl | ho2
      · exact hco.map.calm
      · cases List.mem_singleton.1 ho2; exact hco.calm
    · obtain ⟨a1, a2⟩ := Counts.andThen (k := k) (d := c) (hco.map (f := ((x, y) :: ·)))
      obtain ⟨b1, b2⟩ := Counts.andThen (k := k) (d := d) hco
      constructor
      · simp only [andThenAll, List.zipWith, List.flatten_cons, List.flatten_nil, List.append_nil,
          List.length_append, a1, b1]
        rw [Nat.pow_succ]
        omega
      · intro e he
        simp only [andThenAll, List.zipWith, List.flatten_cons, List.flatten_nil, List.append_nil,
          List.mem_append] at he
        rcases he with he | he
        · have := a2 e he; rw [hc2] at this; exact ⟨this.1, by omega⟩
        · have := b2 e he; rw [hd2] at this; exact ⟨this.1, by omega⟩

theorem finding [LawfulBEq τ] {env : Env τ ρ Γ} {col : Nat → Nat → Prop} {k : Int}
    {x y : τ} (lx ly : String) (hk : k ≠ 0) (hxy : x ≠ y) (n : Nat) :
    ∃ cs q w c, Rec env (damaged x y (n + 1)) col k (pairs x y lx ly) 0 0 (some k) (.repairs cs q w c) ∧
      cs.length = 2 ^ (n + 1) ∧
      ∀ d ∈ cs, d.stop = (damaged x y (n + 1)).length ∧ d.cost = n + 1 := by
  obtain ⟨o, ho, hco⟩ := many_damaged (env := env) (col := col) (k := k) (lx := lx) (ly := ly) (m := 0)
    hk hxy (n + 1) 0 (some k) (Nat.zero_le _) rfl
  cases o with
  | rejects => exact hco.elim
  | raises => exact hco.elim
  | accepts v j w => obtain ⟨-, -, h⟩ := hco; cases h
  | repairs cs q w c =>
    obtain ⟨h1, h2⟩ := hco
    have : Rec env (damaged x y (n + 1)) col k (pairs x y lx ly) 0 0 (some k) _ :=
      Rec.seq (Rec.bindRepairs
        (os := cs.map fun d => .accepts d.value (damaged x y (n + 1)).length []) ho (by simp) ?_ ?_)
    · refine ⟨_, q, w, c, this, ?_, ?_⟩
      · rw [← h1]
        clear this h1 h2 ho
        induction cs with
        | nil => rfl
        | cons a cs ih => simp only [andThenAll, List.map, List.zipWith, List.flatten_cons, List.length_append,
            List.length_cons] at ih ⊢; rw [ih]; simp [Cand.andThen]; omega
      · clear this ho h1
        intro d hd
        simp only [andThenAll, List.mem_flatten] at hd
        obtain ⟨l, hl, hd⟩ := hd
        obtain ⟨n', hn', rfl⟩ := List.getElem_of_mem hl
        simp only [List.getElem_zipWith, List.getElem_map, Cand.andThen, List.mem_singleton] at hd
        subst hd
        exact ⟨rfl, (h2 _ (List.getElem_mem _)).2⟩
    · intro n' d o hd ho'
      rw [List.getElem?_map, hd] at ho'
      cases ho'
      rw [(h2 d (List.mem_of_getElem? hd)).1]
      exact Rec.fmap Rec.eof
    · intro o ho
      obtain ⟨d, -, rfl⟩ := List.mem_map.1 ho
      trivial

omit [BEq τ] in
theorem pairs_notLayout (x y : τ) (lx ly : String) :
    (pairs x y lx ly : P τ ρ Γ _).All P.notLayout := by
  simp [pairs, P.seq, P.seql, P.All, P.notLayout]

end Blowup

variable {τ ρ : Type} {Γ : ρ → Type} [BEq τ] [LawfulBEq τ]

theorem each_length {α β : Type} {R : α → β → Prop} {xs : List α} {ys : List β} (h : Each R xs ys) :
    xs.length = ys.length := by
  induction h with
  | nil => rfl
  | cons _ _ ih => simp [ih]

theorem each_mem {α β : Type} {R : α → β → Prop} {xs : List α} {ys : List β} (h : Each R xs ys) {y : β}
    (hy : y ∈ ys) : ∃ x ∈ xs, R x y := by
  induction h with
  | nil => cases hy
  | cons h _ ih =>
    rcases List.mem_cons.1 hy with rfl | hy
    · exact ⟨_, List.mem_cons_self, h⟩
    · obtain ⟨x, hx, h⟩ := ih hy
      exact ⟨x, List.mem_cons_of_mem _ hx, h⟩

/-- **C72**: parsing `n` damaged pairs (3n tokens, n ≥ 1) with recovery returns exactly `2^n` candidate
repairs, all of which stop at the end of the input and cost the same; for every budget but 0, all `get_loc`. -/
theorem C72_doubles (env : Env τ ρ Γ) (x y : τ) (hxy : x ≠ y) (lx ly : String)
    (gl : Loc → List τ → Nat → Loc) (k : Int) (hk : k ≠ 0)
    (henv : ∀ i q, env i = some q → q.All P.notLayout) (n : Nat) (hn : n ≠ 0) :
    ∃ r, Returns env (Blowup.pairs x y lx ly) (Blowup.damaged x y n) (recovering k gl) (.recovered r) ∧
      r.repairs.length = 2 ^ n ∧ ∀ c ∈ r.repairs, c.pos = 3 * n ∧ c.cost = n := by
  obtain ⟨n, rfl⟩ := Nat.exists_eq_succ_of_ne_zero hn
  obtain ⟨cs, q, w, c, hr, h1, h2⟩ := Blowup.finding (env := env) (col := fun _ c => c = 0) lx ly hk hxy n
  obtain ⟨r, h3, -, -, -, h4⟩ :=
    (C60_any gl k ⟨Blowup.pairs_notLayout x y lx ly, henv⟩).1 _ hr
  refine ⟨r, h3, by rw [← each_length h4, h1], fun d hd => ?_⟩
  obtain ⟨e, he, hed⟩ := each_mem h4 hd
  obtain ⟨h5, h6⟩ := h2 e he
  have hlen : ∀ n, (Blowup.damaged x y n).length = 3 * n := by
    intro n
    induction n with
    | zero => rfl
    | succ n ih => simp only [Blowup.damaged, List.length_cons, ih]; omega
  exact ⟨by rw [← hed.stop, h5, hlen], by rw [← hed.cost, h6]⟩

theorem sq_le_pow (m : Nat) : (m + 6) * (m + 9) ≤ 2 ^ (m + 6) := by
  induction m with
  | zero => decide
  | succ m ih =>
    have h1 : (m + 1 + 6) * (m + 1 + 9) = (m + 6) * (m + 9) + (2 * m + 16) := by
      simp only [Nat.add_mul, Nat.mul_add]; omega
    have h2 : 2 * m + 16 ≤ (m + 6) * (m + 9) := by
      simp only [Nat.add_mul, Nat.mul_add]; omega
    have h3 : 2 ^ (m + 1 + 6) = 2 * 2 ^ (m + 6) := by
      rw [show m + 1 + 6 = (m + 6) + 1 by omega, Nat.pow_succ]; omega
    omega

/-- C72: so no polynomial in the length of the input bounds the number of candidates. -/
theorem C72_not_polynomial (env : Env τ ρ Γ) (x y : τ) (hxy : x ≠ y) (lx ly : String)
    (gl : Loc → List τ → Nat → Loc) (k : Int) (hk : k ≠ 0)
    (henv : ∀ i q, env i = some q → q.All P.notLayout) (c d : Nat) :
    ∃ s r, Returns env (Blowup.pairs x y lx ly) s (recovering k gl) (.recovered r) ∧
      c * s.length ^ d < r.repairs.length := by
  obtain ⟨m, hmd⟩ : ∃ m, m = c + d + 6 := ⟨_, rfl⟩
  have hm : (2 : Nat) ^ m ≠ 0 := by
    have := Nat.two_pow_pos m
    omega
  obtain ⟨r, h1, h2, -⟩ := C72_doubles env x y hxy lx ly gl k hk henv (2 ^ m) hm
  refine ⟨_, r, h1, ?_⟩
  have hlen : ∀ n, (Blowup.damaged x y n).length = 3 * n := by
    intro n
    induction n with
    | zero => rfl
    | succ n ih => simp only [Blowup.damaged, List.length_cons, ih]; omega
  rw [h2, hlen]
  have e1 : 3 * 2 ^ m ≤ 2 ^ (m + 2) := by
    have : 2 ^ (m + 2) = 4 * 2 ^ m := by rw [Nat.pow_add]; omega
    omega
  have e2 : (3 * 2 ^ m) ^ d ≤ 2 ^ ((m + 2) * d) := by
    rw [Nat.pow_mul]
    exact Nat.pow_le_pow_left e1 d
  have e3 : c < 2 ^ c := Nat.lt_two_pow_self
  have e4 : c * (3 * 2 ^ m) ^ d < 2 ^ (c + (m + 2) * d) := by
    rw [Nat.pow_add]
    have hp := Nat.two_pow_pos ((m + 2) * d)
    calc c * (3 * 2 ^ m) ^ d ≤ c * 2 ^ ((m + 2) * d) := Nat.mul_le_mul_left _ e2
      _ < 2 ^ c * 2 ^ ((m + 2) * d) := Nat.mul_lt_mul_of_pos_right e3 hp
  refine Nat.lt_of_lt_of_le e4 (Nat.pow_le_pow_right (by decide) ?_)
  have h3 := sq_le_pow (c + d)
  have h4 : (m + 2) * d ≤ (m + 3) * d := Nat.mul_le_mul_right _ (by omega)
  have h5 : c ≤ (m + 3) * c := Nat.le_mul_of_pos_left _ (by omega)
  have h6 : (m + 3) * c + (m + 3) * d ≤ (m + 3) * m := by
    rw [← Nat.mul_add]
    exact Nat.mul_le_mul_left _ (by omega)
  have h7 : (c + d + 6 + 3) * (c + d + 6) = (c + d + 6) * (c + d + 9) := Nat.mul_comm _ _
  rw [hmd] at h4 h5 h6 ⊢
  omega

/-- The default budget is not 0, and there are such texts: `"aabaab"`, with the four candidates. -/
example : Blowup.damaged 'a' 'b' 2 = "aabaab".toList := rfl

example : (match parse Samples.noEnv 20 (Blowup.pairs 'a' 'b' "a" "b") "aabaab".toList true 5
    scannerlessGetLoc with
    | .ret (.recovered r) => r.repairs.map fun c => (c.cost, c.pos, c.ops.map fun o => o.op)
    | _ => []) =
    [(2, 6, [.insert "b", .insert "b"]), (2, 6, [.insert "b", .skip 1]),
     (2, 6, [.skip 1, .insert "b"]), (2, 6, [.skip 1, .skip 1])] := by
  rfl

example : ∃ r, Returns Samples.noEnv (Blowup.pairs 'a' 'b' "a" "b") (Blowup.damaged 'a' 'b' 100)
    (recovering 5 scannerlessGetLoc) (.recovered r) ∧ r.repairs.length = 2 ^ 100 := by
  obtain ⟨r, h1, h2, -⟩ := C72_doubles Samples.noEnv 'a' 'b' (by decide) "a" "b" scannerlessGetLoc 5
    (by decide) (by intro i; cases i) 100 (by decide)
  exact ⟨r, h1, h2⟩

end Reparsec
