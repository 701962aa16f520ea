import Verif.Props.Blowup
import Verif.Props.Cheapest

/-!
# C28: ties between repairs are decided by the first operation only

So a repeated mistake is repaired in one way the first time, and in another way after that.
-/

namespace Reparsec
namespace Repeated

open Blowup

variable {τ ρ : Type} {Γ : ρ → Type} [BEq τ]

/-- What is inserted at `i`, `i + 3`, ... -/
def inserts (ly : String) : Nat → Nat → List (Nat × RepairOp)
  | _, 0 => []
  | i, n + 1 => (i, .insert ly) :: inserts ly (i + 3) n

def sites {α : Type} (c : Cand α) : List (Nat × RepairOp) := c.fixes.map fun f => (f.pos, f.op)

/-- The candidates for `n` damaged pairs from `i` on: the first one only inserts; the first one that does not
begin with an automatic insertion skips, and then only inserts. -/
def Alike (s : List τ) (x y : τ) (ly : String) (i : Nat) : Nat → Finding (List (τ × τ)) → Prop
  | 0, o => ∃ w, o = .accepts [] s.length w
  | n + 1, o => ∃ c cs q w, o = .repairs (c :: cs) q w true ∧ (∀ d ∈ c :: cs, d.stop = s.length ∧ d.cost = n + 1) ∧
      sites c = inserts ly (i + 1) (n + 1) ∧ c.value = List.replicate (2 * (n + 1)) (x, y) ∧
      ∃ as d bs, c :: cs = as ++ d :: bs ∧ (∀ a ∈ as, a.auto = true) ∧ d.auto = false ∧
        sites d = (i + 1, .skip 1) :: inserts ly (i + 4) n ∧ d.value = List.replicate (2 * n + 1) (x, y)

omit [BEq τ] in
theorem Alike.calm {s : List τ} {x y : τ} {ly : String} {i n : Nat} {o : Finding (List (τ × τ))}
    (h : Alike s x y ly i n o) : o.calm := by
  cases n with
  | zero => obtain ⟨w, rfl⟩ := h; trivial
  | succ n => obtain ⟨c, cs, q, w, rfl, -⟩ := h; trivial

omit [BEq τ] in
/-- What a candidate `c` and what comes after it, possibly after one more pair, give: a first candidate, and others. -/
theorem Alike.andThen {s : List τ} {x y : τ} {ly : String} {k : Int} {i n e : Nat} {o : Finding (List (τ × τ))}
    (h : Alike s x y ly i n o) (c : Cand (τ × τ)) (hv : c.value = (x, y)) :
    ∃ d ds, c.andThen k List.cons (o.map (List.replicate e (x, y) ++ ·)) = d :: ds ∧
      (∀ f ∈ d :: ds, f.stop = s.length ∧ f.cost = c.cost + n ∧ f.auto = c.auto) ∧
      sites d = sites c ++ inserts ly (i + 1) n ∧ d.value = List.replicate (2 * n + e + 1) (x, y) := by
  cases n with
  | zero =>
    obtain ⟨w, rfl⟩ := h
    refine ⟨_, _, rfl, ?_, by simp [sites, inserts], by simp [hv, List.replicate_succ]⟩
    intro f hf
    cases List.mem_singleton.1 hf
    exact ⟨rfl, rfl, rfl⟩
  | succ n =>
    obtain ⟨d, ds, q, w, rfl, h1, h2, h3, -⟩ := h
    refine ⟨_, _, rfl, ?_, ?_, ?_⟩
    · intro f hf
      rcases List.mem_cons.1 hf with rfl | hf
      · exact ⟨(h1 d List.mem_cons_self).1, by rw [← (h1 d List.mem_cons_self).2]; rfl, rfl⟩
      · obtain ⟨g, hg, rfl⟩ := List.mem_map.1 hf
        obtain ⟨g', hg', rfl⟩ := List.mem_map.1 hg
        have := h1 g' (List.mem_cons_of_mem _ hg')
        exact ⟨this.1, by rw [← this.2]; rfl, rfl⟩
    · have : ∀ (b : Bool) (w : List String) (l : List Fix),
          (l.map (Fix.after b w)).map (fun f => (f.pos, f.op)) = l.map fun f => (f.pos, f.op) := by
        intro b w l
        rw [List.map_map]
        apply List.map_congr_left
        intro f _
        by_cases hf : f.begun = true <;> simp [Fix.after, hf]
      simp only [sites, List.map_append, this, Cand.map, Cand.withValue]
      rw [← h2]
      rfl
    · simp only [Cand.map, Cand.withValue, hv, h3, List.replicate_append_replicate, ← List.replicate_succ]
      congr 1
      omega

/-- An item with an `x` too many, in detail. -/
theorem item_two_ways [LawfulBEq τ] {env : Env τ ρ Γ} {s : List τ} {col : Nat → Nat → Prop} {k : Int}
    {x y : τ} {lx ly : String} {m i : Nat} {b : Option Int} (hk : k ≠ 0) (hxy : x ≠ y)
    (h0 : s[i]? = some x) (h1 : s[i + 1]? = some x) (h2 : s[i + 2]? = some y) :
    ∃ c d q w, Rec env s col k ((P.sym x lx).seq (.sym y ly)) m i b (.repairs [c, d] q w true) ∧
      (c.stop = i + 1 ∧ c.cost = 1 ∧ c.auto = true ∧ c.value = (x, y) ∧ sites c = [(i + 1, .insert ly)]) ∧
      d.stop = i + 3 ∧ d.cost = 1 ∧ d.auto = false ∧ d.value = (x, y) ∧ sites d = [(i + 1, .skip 1)] := by
  have hs : Rec env s col k (.sym y ly) m (i + 1) (some k)
      (.repairs (insertions k (i + 1) y ly ++ [Cand.skip k (i + 1) (i + 2) y (i + 2 + 1) [ly]])
        (i + 1) [ly] false) := by
    refine Rec.symSkip (by omega) (fun n hn hn' t ht => ?_) h2 (by simp)
    obtain rfl : n = i + 1 := by omega
    rw [h1] at ht
    cases ht
    simpa using hxy
  rw [insertions, if_neg hk] at hs
  have := Rec.seq (merge := fun l r => (l, r)) (Rec.bind (env := env) (col := col) (k := k) (m := m)
    (p := P.sym x lx) (f := fun a => .fmap (.sym y ly) fun b => .ok (a, b))
    (i := i) (b := b) (Rec.sym h0 (by simp)) (Rec.fmap (by rw [if_pos (by omega)]; exact hs)))
  simp only [Finding.mapM, Finding.after] at this
  have hd : decide (i < i + 1) = true := by simp
  rw [hd] at this
  refine ⟨_, _, _, _, this, ⟨rfl, rfl, rfl, rfl, rfl⟩, rfl, ?_, rfl, rfl, ?_⟩
  · simp [Cand.after, Cand.withValue, Cand.skip]
  · simp [sites, Cand.after, Cand.withValue, Cand.skip, Fix.after]

omit [BEq τ] in
theorem map_nil_append (o : Finding (List (τ × τ))) : o.map (List.replicate 0 a ++ ·) = o := by
  cases o with
  | repairs cs q w b =>
    simp only [Finding.map, List.replicate_zero, List.nil_append]
    congr 1
    induction cs with
    | nil => rfl
    | cons c cs ih => rw [List.map_cons, ih]; rfl
  | _ => rfl

theorem many_alike [LawfulBEq τ] {env : Env τ ρ Γ} {s : List τ} {col : Nat → Nat → Prop} {k : Int}
    {x y : τ} {lx ly : String} {m : Nat} (hk : k ≠ 0) (hxy : x ≠ y) (n : Nat) :
    ∀ (i : Nat) (b : Option Int), i ≤ s.length → s.drop i = damaged x y n →
      ∃ o, Rec env s col k (.many ((P.sym x lx).seq (.sym y ly))) m i b o ∧ Alike s x y ly i n o := by
  induction n with
  | zero =>
    intro i b hi h
    have : s.length ≤ i := List.drop_eq_nil_iff.1 h
    obtain rfl : i = s.length := by omega
    exact ⟨_, Rec.manyEnd (Rec.seq (Rec.bindRejects (w := [lx]) (q := s.length) (Rec.symNot (by simp)))), _, rfl⟩
  | succ n ih =>
    intro i b hi h
    have h0 := get_of_drop (n := 0) h
    have h1 := get_of_drop (n := 1) h
    have h2 := get_of_drop (n := 2) h
    have h3 : s.drop (i + 3) = damaged x y n := by
      rw [← List.drop_drop, h]; rfl
    have hl : i + 3 ≤ s.length := by
      have := List.getElem?_eq_some_iff.1 (show s[i + 2]? = some y from h2)
      obtain ⟨h, -⟩ := this
      omega
    obtain ⟨c, d, q, w, hr, ⟨c1, c2, c3, c4, c5⟩, d1, d2, d3, d4, d5⟩ := item_two_ways (env := env) (col := col)
      (m := m) (lx := lx) (ly := ly) (b := none) hk hxy h0 h1 h2
    obtain ⟨w', hr'⟩ := item_ok (env := env) (s := s) (col := col) (m := m) (k := k) (x := x) (y := y)
      (lx := lx) (ly := ly) (b := none) (i := i + 1) h1 h2
    obtain ⟨o, ho, hco⟩ := ih (i + 3) none hl h3
    have ho' := Rec.manyItem (b := none) hr' (by omega) ho
    refine ⟨_, Rec.manyRepairs (os := [o.map ((x, y) :: ·), o]) hr rfl ?_ ?_, ?_⟩
    · intro n e o' he ho2
      rcases n with _ | _ | n
      · cases he; cases ho2; rw [c1]; exact ho'
      · cases he; cases ho2; rw [d1]; exact ho
      · cases he
    · intro o' ho2
      have hcalm := hco.calm
      rcases List.mem_cons.1 ho2 with rfl | ho2
      · cases o with
        | raises => exact hcalm
        | _ => trivial
      · cases List.mem_singleton.1 ho2; exact hcalm
    · obtain ⟨a, as, ha, a1, a2, a3⟩ := hco.andThen (k := k) (e := 1) c c4
      obtain ⟨b, bs, hb, b1, b2, b3⟩ := hco.andThen (k := k) (e := 0) d d4
      rw [map_nil_append] at hb
      have ha' : c.andThen k List.cons (o.map ((x, y) :: ·)) = a :: as := ha
      refine ⟨a, as ++ b :: bs, q, w, ?_, ?_, ?_, ?_, a :: as, b, bs, rfl, ?_, ?_, ?_, ?_⟩
      · simp only [andThenAll, List.zipWith, List.flatten_cons, List.flatten_nil, List.append_nil, ha', hb]
        rfl
      · intro f hf
        rw [← List.cons_append] at hf
        rcases List.mem_append.1 hf with hf | hf
        · obtain ⟨f1, f2, -⟩ := a1 f hf
          exact ⟨f1, by omega⟩
        · obtain ⟨f1, f2, -⟩ := b1 f hf
          exact ⟨f1, by omega⟩
      · rw [a2, c5]; rfl
      · rw [a3]; rfl
      · intro f hf
        rw [(a1 f hf).2.2, c3]
      · rw [(b1 b List.mem_cons_self).2.2, d3]
      · rw [b2, d5]; rfl
      · rw [b3]

/-- A candidate after which the end of the input was reached. -/
def done {α : Type} (k : Int) (d : Cand α) (j : Nat) : Cand α :=
  { cost := d.cost, auto := d.auto, left := if d.stop < j then k else d.left, fixes := d.fixes, value := d.value,
    stop := j, wants := if d.stop < j then [] else d.wants ++ [], begun := d.begun || decide (d.stop < j) }

omit [BEq τ] in
theorem andThenAll_done {α : Type} (k : Int) (j : Nat) (cs : List (Cand α)) :
    andThenAll k (fun _ v => v) cs (cs.map fun d => .accepts d.value j []) = cs.map fun d => done k d j := by
  induction cs with
  | nil => rfl
  | cons c cs ih =>
    simp only [andThenAll, List.map_cons, List.zipWith, List.flatten_cons] at ih ⊢
    rw [ih]
    rfl

theorem inserts_eq (ly : String) (n : Nat) : ∀ i,
    inserts ly i n = (List.range n).map fun j => (3 * j + i, .insert ly) := by
  induction n with
  | zero => intro i; rfl
  | succ n ih =>
    intro i
    rw [List.range_succ_eq_map, List.map_cons, inserts, ih, List.map_map]
    congr 1
    · simp
    · apply List.map_congr_left
      intro j _
      simp only [Function.comp]
      congr 1
      omega

/-- The whole parser: it is repaired, and the candidate that is chosen is the first one that begins by skipping. -/
theorem finding [LawfulBEq τ] {env : Env τ ρ Γ} {col : Nat → Nat → Prop} {k : Int}
    {x y : τ} (lx ly : String) (hk : k ≠ 0) (hxy : x ≠ y) (n : Nat) :
    ∃ c cs q w b, Rec env (damaged x y (n + 1)) col k (pairs x y lx ly) 0 0 (some k) (.repairs (c :: cs) q w b) ∧
      ∃ d, Chosen (c :: cs) d ∧ d.value = List.replicate (2 * n + 1) (x, y) ∧
        sites d = (1, .skip 1) :: (List.range n).map fun j => (3 * j + 4, .insert ly) := by
  obtain ⟨o, ho, c, cs, q, w, rfl, h1, -, -, as, d, bs, hcs, ha, hd1, hd2, hd3⟩ := many_alike (env := env)
    (col := col) (k := k) (lx := lx) (ly := ly) (m := 0) hk hxy (n + 1) 0 (some k) (Nat.zero_le _) rfl
  have : Rec env (damaged x y (n + 1)) col k (pairs x y lx ly) 0 0 (some k) _ :=
    Rec.seq (Rec.bindRepairs
      (os := (c :: cs).map fun d => .accepts d.value (damaged x y (n + 1)).length []) ho (by simp) ?_ ?_)
  · rw [andThenAll_done] at this
    refine ⟨_, _, _, _, _, this, done k d (damaged x y (n + 1)).length, ?_, hd3, ?_⟩
    · refine ⟨as.map fun d => done k d (damaged x y (n + 1)).length, bs.map fun d => done k d (damaged x y (n + 1)).length,
        ?_, ?_, ?_⟩
      · rw [← List.map_cons (f := fun d => done k d (damaged x y (n + 1)).length), hcs, List.map_append, List.map_cons]
      · intro e he
        obtain ⟨e, hm, rfl⟩ := List.mem_map.1 he
        have h2 := (h1 d (by rw [hcs]; simp)).2
        have h3 := (h1 e (by rw [hcs]; simp [hm])).2
        exact .inr ⟨by simp [done, h2, h3], .inr ⟨rfl, hd1, ha e hm⟩⟩
      · intro e he
        obtain ⟨e, hm, rfl⟩ := List.mem_map.1 he
        have h2 := (h1 d (by rw [hcs]; simp)).2
        have h3 := (h1 e (by rw [hcs]; simp [hm])).2
        rintro (h | ⟨-, h | ⟨-, -, h⟩⟩)
        · simp only [done] at h; omega
        · simp only [done] at h; omega
        · simp only [done, hd1] at h; cases h
    · show sites d = _
      rw [hd2, inserts_eq]
  · intro n' e o hd ho'
    rw [List.getElem?_map, hd] at ho'
    cases ho'
    rw [(h1 e (List.mem_of_getElem? hd)).1]
    exact Rec.fmap Rec.eof
  · intro o ho
    obtain ⟨d, -, rfl⟩ := List.mem_map.1 ho
    trivial

end Repeated

variable {τ ρ : Type} {Γ : ρ → Type} [BEq τ] [LawfulBEq τ]

/-- C28 (how ties are decided). Of equally cheap repairs that end at the same place the first one is taken that does
not begin with an automatic insertion; how it goes on after its first operation does not count. So a mistake that is
repeated is not repaired in the same way every time: for `(sym(x) + sym(y)).many() << eof()` on `n + 1` times `x x y`,
the first extra `x` is skipped, and at every later one a `y` is inserted, which gives one more pair each time. -/
theorem C28_repeated_mistake (env : Env τ ρ Γ) (x y : τ) (hxy : x ≠ y) (lx ly : String) (k : Int) (hk : k ≠ 0) (n : Nat)
    (fmt : Loc → String) :
    ∃ r pe, Returns env (Blowup.pairs x y lx ly) (Blowup.damaged x y (n + 1)) (recovering k defaultGetLoc) r ∧
      r.unwrap fmt true = .ok (List.replicate (2 * n + 1) (x, y)) ∧ r.unwrap fmt false = .error pe ∧
      pe.errors.map (fun e => (e.loc.pos, e.op)) =
        (1, some (.skip 1)) :: (List.range n).map fun j => (3 * j + 4, some (.insert ly)) := by
  obtain ⟨c, cs, q, w, b, hr, d, hd, hv, hs⟩ := Repeated.finding (env := env) (col := fun _ c => c = 0) (k := k)
    lx ly hk hxy n
  obtain ⟨r, hr1, hr2⟩ := (C60_unwrap k fmt true _).2 ⟨_, hr, d, hd, rfl⟩
  obtain ⟨r', hr1', hr2'⟩ := (C60_unwrap k fmt false _).2 ⟨_, hr, d, hd, rfl⟩
  cases returns_unique hr1 hr1'
  refine ⟨r, ⟨d.errors (fun q => ⟨q, 0, 0⟩) fmt⟩, hr1, by rw [hr2]; simp [hv], by rw [hr2']; simp, ?_⟩
  have := congrArg (List.map fun p : Nat × RepairOp => (p.1, some p.2)) hs
  simpa [Repeated.sites, Cand.errors, Function.comp_def] using this

open Samples in
/-- On `aab` the extra `a` is skipped; on `aabaab` the second one is kept. -/
example : run noEnv (Blowup.pairs 'a' 'b' "'a'" "'b'") "aabaab" true true =
    .ret (.ok [('a', 'b'), ('a', 'b'), ('a', 'b')]) := rfl

end Reparsec
