import Verif.Lemmas.Yields
import Verif.Lemmas.Frame
import Verif.Props.Samples

/-!
# C09, C16, C17, C18, C19: algebraic laws, in both modes
-/

namespace Reparsec

variable {τ ρ : Type} {Γ : ρ → Type} {α β γ δ : Type} [BEq τ] (env : Env τ ρ Γ)

/-- C09. `p.maybe()` is `p | Pure(None)`. -/
theorem C09_maybe (p : P τ ρ Γ α) :
    Same env (.maybe p) (.alt (p.map some) (.pure none)) :=
  .of_denote fun _ => maybeFns_eq _

/-- C16. `p + q`, `p << q`, `p >> q` are `bind` followed by `fmap`. -/
theorem C16_seq (p : P τ ρ Γ α) (q : P τ ρ Γ β) :
    Same env (p.seq q) (.bind p fun a => q.map fun b => (a, b)) :=
  .of_denote fun _ => seqFns_eq _ _ _

theorem C16_seql (p : P τ ρ Γ α) (q : P τ ρ Γ β) :
    Same env (p.seql q) (.bind p fun a => q.map fun _ => a) :=
  .of_denote fun _ => seqFns_eq _ _ _

theorem C16_seqr (p : P τ ρ Γ α) (q : P τ ρ Γ β) :
    Same env (p.seqr q) (.bind p fun _ => q.map fun b => b) :=
  .of_denote fun _ => seqFns_eq _ _ _

theorem C16_then (p : P τ ρ Γ α) (q : P τ ρ Γ β) :
    Same env (p.thenNext q) (.bind p fun a => q.map fun b => (a, b)) :=
  .of_denote fun _ => seqFns_eq _ _ _

/-! ### Functor laws -/

omit [BEq τ] in
theorem Repair.fmap_id (r : Repair τ α) : r.fmap id = r := rfl

omit [BEq τ] in
theorem Result.fmap_id (r : Result τ α) : r.fmap id = r := by
  cases r with
  | ok r => rfl
  | error e => rfl
  | recovered r =>
    have : r.repairs.map (Repair.fmap id) = r.repairs := by
      rw [List.map_congr_left (g := id) (fun x _ => Repair.fmap_id x), List.map_id]
    simp [Result.fmap, this]

omit [BEq τ] in
theorem Result.fmap_comp (f : α → β) (g : β → γ) (r : Result τ α) :
    (r.fmap f).fmap g = r.fmap (g ∘ f) := by
  cases r with
  | ok r => rfl
  | error e => rfl
  | recovered r => simp [Result.fmap, List.map_map, Function.comp_def, Repair.fmap]

omit [BEq τ] in
theorem Simple.fmap_id (r : Simple τ α) : r.fmap id = r := by cases r <;> rfl

omit [BEq τ] in
theorem Simple.fmap_comp (f : α → β) (g : β → γ) (r : Simple τ α) :
    (r.fmap f).fmap g = r.fmap (g ∘ f) := by cases r <;> rfl

omit [BEq τ] in
theorem fmapFns_id (f : ParseFns τ α) : fmapFns f (fun a => .ok (id a)) = f := by
  obtain ⟨fa, fn⟩ := f
  simp only [fmapFns]
  congr 1
  · funext s pos ctx
    simp only [fmapFast, Out.bind_def, Simple.fmapM_ok, Simple.fmap_id, Out.bind_ret_right]
  · funext s pos ctx ins rem
    simp only [fmapFn, Out.bind_def, Result.fmapM_ok, Result.fmap_id, Out.bind_ret_right]

omit [BEq τ] in
theorem fmapFns_comp (f : ParseFns τ α) (g : α → β) (h : β → γ) :
    fmapFns (fmapFns f fun a => .ok (g a)) (fun b => .ok (h b))
      = fmapFns f (fun a => .ok (h (g a))) := by
  simp only [fmapFns]
  congr 1
  · funext s pos ctx
    simp only [fmapFast, Out.bind_def, Simple.fmapM_ok, Out.bind_assoc, Out.bind_ret,
      Simple.fmap_comp]
    rfl
  · funext s pos ctx ins rem
    simp only [fmapFn, Out.bind_def, Result.fmapM_ok, Out.bind_assoc, Out.bind_ret,
      Result.fmap_comp]
    rfl

/-- C17. `p.fmap(lambda x: x)` is `p`. -/
theorem C17_fmap_id (p : P τ ρ Γ α) : Same env (p.map fun a => a) p :=
  .of_denote fun _ => fmapFns_id _

/-- C17. `p.fmap(f).fmap(g)` is `p.fmap(lambda x: g(f(x)))`. -/
theorem C17_fmap_comp (p : P τ ρ Γ α) (f : α → β) (g : β → γ) :
    Same env ((p.map f).map g) (p.map fun a => g (f a)) :=
  .of_denote fun _ => fmapFns_comp _ _ _

/-! ### Choice -/

omit [BEq τ] in
theorem Ok.setExpected_unconsumed {r : Ok τ α} (h : r.consumed = false) (e : List String) :
    r.setExpected e = { r with expected := e } := by simp [Ok.setExpected, h]

omit [BEq τ] in
theorem opsSetExpected_twice (ops : List OpItem) (a b : List String) :
    opsSetExpected (opsSetExpected ops a) b = opsSetExpected ops b := by
  simp only [opsSetExpected, List.map_map]
  apply List.map_congr_left
  intro i _
  by_cases h : i.consumed <;> simp [OpItem.setExpected, h]

omit [BEq τ] in
theorem Repair.setExpected_twice (r : Repair τ α) (a b : List String) :
    (r.setExpected a).setExpected b = r.setExpected b := by
  by_cases h : r.consumed <;> simp [Repair.setExpected, opsSetExpected_twice, h]

omit [BEq τ] in
theorem Recovered.setExpected_twice (r : Recovered τ α) (a b : List String) :
    (r.setExpected a).setExpected b = r.setExpected b := by
  by_cases h : r.consumed <;>
    simp [Recovered.setExpected, h, List.map_map, Function.comp_def, Repair.setExpected_twice]

omit [BEq τ] in
theorem prioBelow_setExpected (m : Nat) (e : List String) (r : Repair τ α) :
    prioBelow m (r.setExpected e) = prioBelow m r := rfl

/-- Both filters of `join_repairs`. -/
def joinFilter (m : Option Nat) (r : Repair τ α) : Bool :=
  match m with
  | some m => prioBelow m r
  | none => r.prio.isSome

omit [BEq τ] in
theorem joinReps_eq (a b : Recovered τ α) :
    joinReps a b = a.repairs ++ b.repairs.filter (joinFilter a.minPrio) := by
  unfold joinReps
  cases a.minPrio <;> rfl

omit [BEq τ] in
theorem joinFilter_both (a b : Recovered τ α) (r : Repair τ α) :
    joinFilter (joinMinPrio a b) r = (joinFilter b.minPrio r && joinFilter a.minPrio r) := by
  unfold joinMinPrio joinFilter prioBelow
  cases a.minPrio with
  | none =>
    cases b.minPrio <;> cases r.prio <;> simp
  | some m =>
    cases b.minPrio with
    | none => cases r.prio <;> simp
    | some m' =>
      cases r.prio with
      | none => simp only; split <;> simp
      | some x =>
        simp only
        rw [Bool.eq_iff_iff]
        by_cases h : m' < m
        · simp only [h, if_true, Bool.and_eq_true, decide_eq_true_iff]; omega
        · simp only [h, if_false, Bool.and_eq_true, decide_eq_true_iff]; omega

/-- The smaller one, if there are two. -/
def optMin : Option Nat → Option Nat → Option Nat
  | some a, some b => some (min a b)
  | some a, none => some a
  | none, b => b

omit [BEq τ] in
theorem joinMinPrio_eq (a b : Recovered τ α) : joinMinPrio a b = optMin a.minPrio b.minPrio := by
  unfold joinMinPrio optMin
  cases a.minPrio <;> cases b.minPrio <;> simp only
  split
  · rw [Nat.min_eq_right (by omega)]
  · rw [Nat.min_eq_left (by omega)]

omit [BEq τ] in
theorem joinMinPrio_assoc (a b c : Recovered τ α) (x y : Recovered τ α)
    (hx : x.minPrio = joinMinPrio a b) (hy : y.minPrio = joinMinPrio b c) :
    joinMinPrio x c = joinMinPrio a y := by
  rw [joinMinPrio_eq, joinMinPrio_eq, hx, hy, joinMinPrio_eq, joinMinPrio_eq]
  cases a.minPrio <;> cases b.minPrio <;> cases c.minPrio <;> simp [optMin, Nat.min_assoc]

omit [BEq τ] in
theorem setExpected_repairs (r : Recovered τ α) (e : List String) :
    (r.setExpected e).repairs = r.repairs.map (Repair.setExpected e) := rfl

omit [BEq τ] in
theorem filter_map_setExpected (f : Repair τ α → Bool) (e : List String)
    (hf : ∀ r, f (r.setExpected e) = f r) (l : List (Repair τ α)) :
    (l.map (Repair.setExpected e)).filter f = (l.filter f).map (Repair.setExpected e) := by
  rw [List.filter_map]
  congr 1
  apply List.filter_congr
  intro x _
  exact hf x

omit [BEq τ] in
theorem joinFilter_setExpected (m : Option Nat) (e : List String) (r : Repair τ α) :
    joinFilter m (r.setExpected e) = joinFilter m r := by
  cases m <;> rfl

omit [BEq τ] in
theorem joinRepairs_setExpected (a b : Recovered τ α) (e : List String) :
    (joinRepairs a b).setExpected e =
      { repairs := (a.repairs ++ b.repairs.filter (joinFilter a.minPrio)).map (Repair.setExpected e),
        minPrio := joinMinPrio a b,
        loc := if a.consumed then a.loc else if b.consumed then b.loc else a.loc,
        expected := if a.consumed then a.expected else if b.consumed then b.expected else e,
        consumed := a.consumed || b.consumed } := by
  unfold joinRepairs
  rw [joinReps_eq]
  by_cases ha : a.consumed
  · simp [ha, Recovered.setExpected]
  · by_cases hb : b.consumed <;> simp [ha, hb, Recovered.setExpected]

omit [BEq τ] in
theorem joinRepairs_assoc (a b c : Recovered τ α) (e1 e2 e : List String) :
    (joinRepairs ((joinRepairs a b).setExpected e1) c).setExpected e =
      (joinRepairs a ((joinRepairs b c).setExpected e2)).setExpected e := by
  rw [joinRepairs_setExpected, joinRepairs_setExpected _ ((joinRepairs b c).setExpected e2),
    joinMinPrio_assoc a b c ((joinRepairs a b).setExpected e1) ((joinRepairs b c).setExpected e2)
      (by rw [joinRepairs_setExpected]) (by rw [joinRepairs_setExpected])]
  rw [joinRepairs_setExpected, joinRepairs_setExpected b c]
  simp only [Recovered.mk.injEq]
  refine ⟨?_, trivial, ?_, ?_, ?_⟩
  · simp only [List.map_append, List.map_map, Function.comp_def, Repair.setExpected_twice,
      List.append_assoc, List.filter_append,
      filter_map_setExpected _ _ (joinFilter_setExpected _ _), List.filter_filter]
    congr 3
    apply List.filter_congr
    intro x _
    rw [joinFilter_both, Bool.and_comm]
  · cases a.consumed <;> cases b.consumed <;> cases c.consumed <;> rfl
  · cases a.consumed <;> cases b.consumed <;> cases c.consumed <;> rfl
  · cases a.consumed <;> cases b.consumed <;> cases c.consumed <;> rfl

omit [BEq τ] in
theorem joinRepairs_set_left (a b : Recovered τ α) (e1 e : List String) :
    (joinRepairs (a.setExpected e1) b).setExpected e = (joinRepairs a b).setExpected e := by
  rw [joinRepairs_setExpected, joinRepairs_setExpected]
  by_cases ha : a.consumed <;>
    simp [Recovered.setExpected, ha, Repair.setExpected_twice, joinMinPrio_eq, Function.comp_def]

omit [BEq τ] in
theorem joinRepairs_set_right (a b : Recovered τ α) (e1 e : List String) :
    (joinRepairs a (b.setExpected e1)).setExpected e = (joinRepairs a b).setExpected e := by
  rw [joinRepairs_setExpected, joinRepairs_setExpected]
  by_cases hb : b.consumed <;>
    simp [Recovered.setExpected, hb, Repair.setExpected_twice, joinMinPrio_eq, Function.comp_def,
      filter_map_setExpected _ _ (joinFilter_setExpected _ _)]

/-- If the result is neither a success nor consumed: where and what was expected. -/
def Result.failed : Result τ α → Option (Loc × List String)
  | .ok _ => none
  | .error e => if e.consumed then none else some (e.loc, e.expected)
  | .recovered r => if r.consumed then none else some (r.loc, r.expected)

/-- Put `ex` in front of what an unconsumed success expected. -/
def Result.joinEx (ex : List String) : Result τ α → Result τ α
  | .ok r => if r.consumed then .ok r else .ok { r with expected := ex ++ r.expected }
  | .error e => .error e
  | .recovered r => .recovered r

section
variable {p q : ParseFns τ α} {s : List τ} {pos : Nat} {ctx : Ctx τ} {ins : Int}
  {rem : Option Int}

omit [BEq τ] in
theorem altFn_diverge (h : p.fn s pos ctx ins none = .diverge) :
    altFn p q s pos ctx ins rem = .diverge := by simp [altFn, h]

omit [BEq τ] in
theorem altFn_raise {e : Exn} (h : p.fn s pos ctx ins none = .raise e) :
    altFn p q s pos ctx ins rem = .raise e := by simp [altFn, h]

omit [BEq τ] in
theorem altFn_some {x : Result τ α} {l : Loc} {ex : List String}
    (h : p.fn s pos ctx ins none = .ret x) (hx : x.failed = some (l, ex)) :
    altFn p q s pos ctx ins rem = altSecond p q s pos ctx ins rem l ex := by
  cases x with
  | ok r => simp [Result.failed] at hx
  | error e =>
    simp only [Result.failed] at hx
    split at hx
    · simp at hx
    · next hc => simp at hx; obtain ⟨rfl, rfl⟩ := hx; simp [altFn, h, hc]
  | recovered e =>
    simp only [Result.failed] at hx
    split at hx
    · simp at hx
    · next hc => simp at hx; obtain ⟨rfl, rfl⟩ := hx; simp [altFn, h, hc]

omit [BEq τ] in
theorem altFn_none {x : Result τ α} (h : p.fn s pos ctx ins none = .ret x) (hx : x.failed = none) :
    altFn p q s pos ctx ins rem = .ret x := by
  cases x with
  | ok r => simp [altFn, h]
  | error e =>
    simp only [Result.failed] at hx
    split at hx
    · next hc => simp [altFn, h, hc]
    · simp at hx
  | recovered e =>
    simp only [Result.failed] at hx
    split at hx
    · next hc => simp [altFn, h, hc]
    · simp at hx

omit [BEq τ] in
theorem altSecond_some {y : Result τ α} {l l' : Loc} {ex ex' : List String}
    (h : q.fn s pos ctx ins none = .ret y) (hy : y.failed = some (l', ex')) :
    altSecond p q s pos ctx ins rem l ex = altRecover p q s pos ctx ins rem l (ex ++ ex') := by
  cases y with
  | ok r => simp [Result.failed] at hy
  | error e =>
    simp only [Result.failed] at hy
    split at hy
    · simp at hy
    · next hc => simp at hy; obtain ⟨rfl, rfl⟩ := hy; simp [altSecond, h, hc]
  | recovered e =>
    simp only [Result.failed] at hy
    split at hy
    · simp at hy
    · next hc => simp at hy; obtain ⟨rfl, rfl⟩ := hy; simp [altSecond, h, hc]

omit [BEq τ] in
theorem altSecond_none {y : Result τ α} {l : Loc} {ex : List String}
    (h : q.fn s pos ctx ins none = .ret y) (hy : y.failed = none) :
    altSecond p q s pos ctx ins rem l ex = .ret (y.joinEx ex) := by
  cases y with
  | ok r =>
    by_cases hc : r.consumed <;> simp [altSecond, h, Result.joinEx, hc, Ok.setExpected]
  | error e =>
    simp only [Result.failed] at hy
    split at hy
    · next hc => simp [altSecond, h, hc, Result.joinEx]
    · simp at hy
  | recovered e =>
    simp only [Result.failed] at hy
    split at hy
    · next hc => simp [altSecond, h, hc, Result.joinEx]
    · simp at hy

omit [BEq τ] in
theorem Result.joinEx_failed {y : Result τ α} (ex : List String) (h : y.failed = none) :
    (y.joinEx ex).failed = none := by
  cases y with
  | ok r => by_cases hc : r.consumed <;> simp [Result.joinEx, hc, Result.failed]
  | error e => exact h
  | recovered e => exact h

omit [BEq τ] in
theorem Result.joinEx_joinEx (y : Result τ α) (ex ex' : List String) :
    (y.joinEx ex').joinEx ex = y.joinEx (ex ++ ex') := by
  cases y with
  | ok r => by_cases hc : r.consumed <;> simp [Result.joinEx, hc]
  | error e => rfl
  | recovered e => rfl
end

omit [BEq τ] in
theorem altFns_assoc (p q r : ParseFns τ α) :
    altFns (altFns p q) r = altFns p (altFns q r) := by
  simp only [altFns]
  congr 1
  · funext s pos ctx
    simp only [altFast, Out.bind_def, Out.bind_assoc]
    apply Out.bind_congr
    intro a
    cases a with
    | ok ra => rfl
    | error ea =>
      by_cases hc : ea.consumed
      · simp [hc]
      · simp only [hc, Bool.false_eq_true, if_false, Out.bind_assoc]
        apply Out.bind_congr
        intro b
        cases b with
        | ok rb =>
          by_cases hb : rb.consumed <;> simp [hb]
        | error eb =>
          by_cases hb : eb.consumed
          · simp [hb]
          · simp only [hb, Bool.false_eq_true, if_false, Out.bind_assoc, Out.bind_ret]
            apply Out.bind_congr
            intro c
            cases c with
            | ok rc => by_cases hc' : rc.consumed <;> simp [hc', Ok.setExpected]
            | error ec => by_cases hc' : ec.consumed <;> simp [hc']
  · funext s pos ctx ins rem
    cases hp : p.fn s pos ctx ins none with
    | diverge => simp [altFn, hp]
    | raise e => simp [altFn, hp]
    | ret x =>
      cases hx : x.failed with
      | none =>
        rw [altFn_none hp hx, altFn_none (x := x) (altFn_none hp hx) hx]
      | some lex =>
        obtain ⟨l, ex⟩ := lex
        rw [altFn_some hp hx]
        cases hq : q.fn s pos ctx ins none with
        | diverge =>
          have : altFn p q s pos ctx ins none = .diverge := by
            rw [altFn_some hp hx]; simp [altSecond, hq]
          have h2 : altFn q r s pos ctx ins none = .diverge := altFn_diverge hq
          rw [altFn_diverge this]; simp [altSecond, h2]
        | raise e =>
          have : altFn p q s pos ctx ins none = .raise e := by
            rw [altFn_some hp hx]; simp [altSecond, hq]
          have h2 : altFn q r s pos ctx ins none = .raise e := altFn_raise hq
          rw [altFn_raise this]; simp [altSecond, h2]
        | ret y =>
          cases hy : y.failed with
          | none =>
            have h1 : altFn p q s pos ctx ins none = .ret (y.joinEx ex) := by
              rw [altFn_some hp hx, altSecond_none hq hy]
            rw [altFn_none h1 (Result.joinEx_failed _ hy),
              altSecond_none (y := y) (altFn_none hq hy) hy]
          | some lex' =>
            obtain ⟨l', ex'⟩ := lex'
            have h1 : ∀ rem, altFn p q s pos ctx ins rem
                = altRecover p q s pos ctx ins rem l (ex ++ ex') := fun rem => by
              rw [altFn_some hp hx, altSecond_some hq hy]
            have h1' : altFn p q s pos ctx ins none
                = .ret (.error { loc := l, expected := ex ++ ex' }) := by rw [h1]; rfl
            rw [altFn_some h1' (by rfl)]
            cases hr : r.fn s pos ctx ins none with
            | diverge =>
              have : altFn q r s pos ctx ins none = .diverge := by
                rw [altFn_some hq hy]; simp [altSecond, hr]
              simp [altSecond, hr, this]
            | raise e =>
              have : altFn q r s pos ctx ins none = .raise e := by
                rw [altFn_some hq hy]; simp [altSecond, hr]
              simp [altSecond, hr, this]
            | ret z =>
              cases hz : z.failed with
              | none =>
                have h2 : altFn q r s pos ctx ins none = .ret (z.joinEx ex') := by
                  rw [altFn_some hq hy, altSecond_none hr hz]
                rw [altSecond_none hr hz, altSecond_none h2 (Result.joinEx_failed _ hz),
                  Result.joinEx_joinEx]
              | some lex'' =>
                obtain ⟨l'', ex''⟩ := lex''
                have h2 : ∀ rem, altFn q r s pos ctx ins rem
                    = altRecover q r s pos ctx ins rem l' (ex' ++ ex'') := fun rem => by
                  rw [altFn_some hq hy, altSecond_some hr hz]
                have h2' : altFn q r s pos ctx ins none
                    = .ret (.error { loc := l', expected := ex' ++ ex'' }) := by rw [h2]; rfl
                rw [altSecond_some hr hz, altSecond_some h2' (by rfl), List.append_assoc]
                cases rem with
                | none => rfl
                | some k =>
                  simp only [altRecover, h1, h2, Out.bind_def]
                  cases p.fn s pos ctx ins (some k) with
                  | diverge => rfl
                  | raise e => rfl
                  | ret a =>
                    cases q.fn s pos ctx ins (some k) with
                    | diverge => rfl
                    | raise e => rfl
                    | ret b =>
                      cases r.fn s pos ctx ins (some k) with
                      | diverge => cases a <;> cases b <;> rfl
                      | raise e => cases a <;> cases b <;> rfl
                      | ret c =>
                        cases a <;> cases b <;> cases c <;>
                          simp [joinRepairs_assoc _ _ _ _ (ex' ++ ex''),
                            Recovered.setExpected_twice, joinRepairs_set_left,
                            joinRepairs_set_right]

/-- C19. Choice is associative, in both modes, repairs included. -/
theorem C19_alt_assoc (p q r : P τ ρ Γ α) :
    Same env (.alt (.alt p q) r) (.alt p (.alt q r)) :=
  .of_denote fun _ => altFns_assoc _ _ _

end Reparsec
