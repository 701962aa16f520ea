import Verif.Lemmas.ThreadsAll
import Verif.Props.Heap

/-!
# Executions with several threads

Each thread owns the objects it has created; nobody else accesses them. This is an invariant of all
executions.
-/

namespace Reparsec.Thr

open Heaped (HOp HRepair HOk HErr HRecovered HSimple HResult Heap HM)

variable {τ α : Type}

/-- All objects of `g` are in `S`. -/
def Store.Sub (g S : Store τ) : Prop := ∀ {c a x}, g c a = some x → S c a = some x

theorem put_some {S : Store τ} {c : Cls} {a : Nat} {x : Cell τ c} {c' : Cls} {b : Nat}
    {y : Cell τ c'} (h : S.put c a x c' b = some y) :
    (c' = c ∧ b = a) ∨ S c' b = some y := by
  unfold Store.put at h
  split at h
  · next hc =>
    split at h
    · next hb => exact .inl ⟨hc.symm, hb⟩
    · exact .inr h
  · exact .inr h

theorem put_other {S : Store τ} {c : Cls} {a : Nat} {x : Cell τ c} {c' : Cls} {b : Nat}
    (h : ¬ (c' = c ∧ b = a)) : S.put c a x c' b = S c' b := by
  unfold Store.put
  split
  · next hc =>
    split
    · next hb => exact absurd ⟨hc.symm, hb⟩ h
    · rfl
  · rfl

theorem Store.Sub.put {g S : Store τ} (h : g.Sub S) (c : Cls) (a : Nat) (x : Cell τ c) :
    (g.put c a x).Sub (S.put c a x) := by
  intro c' b y hy
  by_cases hcb : c' = c ∧ b = a
  · obtain ⟨rfl, rfl⟩ := hcb
    rw [put_same] at hy ⊢
    exact hy
  · rw [put_other hcb] at hy ⊢
    exact h hy

/-- What a step of a thread does to its objects, and to the others. -/
theorem OpStep.owned {S S' : Store τ} {p p' : Prog τ α} (hs : OpStep S p S' p') {g : Store τ}
    {Q : Store τ → Out α → Prop} (hp : wp p g Q) (hg : g.Sub S) :
    ∃ g', wp p' g' Q ∧ g'.Sub S' ∧ (∀ c a, g' c a = none → S' c a = S c a) ∧
      (∀ c a, g' c a ≠ none → g c a ≠ none ∨ S c a = none) := by
  cases hs with
  | @new c x k a ha =>
    have hga : g c a = none := by
      cases h : g c a with
      | none => rfl
      | some y => rw [hg h] at ha; cases ha
    refine ⟨_, hp a hga, hg.put c a x, ?_, ?_⟩
    · intro c' b hb
      by_cases hcb : c' = c ∧ b = a
      · obtain ⟨rfl, rfl⟩ := hcb
        rw [put_same] at hb; cases hb
      · exact put_other hcb
    · intro c' b hb
      by_cases hcb : c' = c ∧ b = a
      · obtain ⟨rfl, rfl⟩ := hcb
        exact .inr ha
      · rw [put_other hcb] at hb
        exact .inl hb
  | @get c a k x hx =>
    obtain ⟨y, hy, hk⟩ := hp
    rw [hg hy] at hx
    cases hx
    exact ⟨g, hk, hg, fun _ _ _ => rfl, fun _ _ h => .inl h⟩
  | @set c a f _ x hx =>
    obtain ⟨y, hy, hk⟩ := hp
    have := hg hy
    rw [this] at hx
    cases hx
    refine ⟨_, hk, hg.put c a _, ?_, ?_⟩
    · intro c' b hb
      by_cases hcb : c' = c ∧ b = a
      · obtain ⟨rfl, rfl⟩ := hcb
        rw [put_same] at hb; cases hb
      · exact put_other hcb
    · intro c' b hb
      by_cases hcb : c' = c ∧ b = a
      · obtain ⟨rfl, rfl⟩ := hcb
        exact .inl (by rw [hy]; exact Option.some_ne_none _)
      · rw [put_other hcb] at hb
        exact .inl hb

variable {ι : Type} [BEq τ]

/-- The outcome of a job in the model with one heap. -/
def Job.heaped (j : Job τ) : Out (HResult j.α) × Heap τ :=
  Heaped.parse j.env j.fuel j.p j.stream j.opts.recover j.opts.maxInsertions j.opts.getLoc .empty

/-- What a thread will have done when it ends. -/
def Job.Ends (j : Job τ) (g : Store τ) (o : Out (HResult j.α)) : Prop :=
  ∃ m : AddrMap, Match m j.heaped.2 g ∧ ROut (RResult m) o j.heaped.1

theorem wp_code (j : Job τ) : wp j.code (fun _ _ => none) j.Ends := by
  have hM : Match (fun _ _ => none) (Heap.empty : Heap τ) (fun _ _ => none) :=
    { cells := fun {_ _ _} h => absurd h.symm (Option.some_ne_none _)
      inj := fun {_ _ _ _} h => absurd h.symm (Option.some_ne_none _)
      fresh := fun _ => rfl }
  refine wp_mono (sim_parse j.env j.fuel j.p j.stream j.opts.recover j.opts.maxInsertions
    j.opts.getLoc hM) ?_
  rintro g o ⟨m, _, hM, ho⟩
  exact ⟨m, hM, ho⟩

/-- The invariant. -/
structure Inv (jobs : ι → Job τ) (S : Store τ) (st : State jobs) (own : ι → Store τ) : Prop where
  sub : ∀ t, (own t).Sub st.store
  old : S.Sub st.store
  fresh : ∀ t c a, own t c a ≠ none → S c a = none
  disj : ∀ t u c a, t ≠ u → own t c a ≠ none → own u c a = none
  todo : ∀ t, wp (st.thread t) (own t) (jobs t).Ends

theorem inv_start (jobs : ι → Job τ) (S : Store τ) :
    Inv jobs S (start jobs S) (fun _ _ _ => none) where
  sub := fun _ _ _ _ h => by cases h
  old := fun h => h
  fresh := fun _ _ _ h => absurd rfl h
  disj := fun _ _ _ _ _ h => absurd rfl h
  todo := fun t => wp_code (jobs t)

open Classical in
theorem Inv.step {jobs : ι → Job τ} {S : Store τ} {st st' : State jobs} {own : ι → Store τ}
    (hi : Inv jobs S st own) {t : ι} (hs : Step t st st') : ∃ own', Inv jobs S st' own' := by
  obtain ⟨ho, hu⟩ := hs
  obtain ⟨g', hw, hsub, hfr, hnew⟩ := ho.owned (hi.todo t) (hi.sub t)
  have hown : ∀ c a, g' c a ≠ none → ∀ u, u ≠ t → own u c a = none := by
    intro c a hg u hut
    rcases hnew c a hg with h | h
    · exact hi.disj t u c a (Ne.symm hut) h
    · cases hx : own u c a with
      | none => rfl
      | some x => rw [hi.sub u hx] at h; cases h
  refine ⟨fun u => if u = t then g' else own u, ?_, ?_, ?_, ?_, ?_⟩
  · intro u c a x hx
    split at hx
    · exact hsub hx
    · next hut =>
      have : g' c a = none := by
        cases hg : g' c a with
        | none => rfl
        | some y =>
          have := hown c a (by rw [hg]; exact Option.some_ne_none _) u hut
          rw [hx] at this; cases this
      rw [hfr c a this]
      exact hi.sub u hx
  · intro c a x hx
    have : g' c a = none := by
      cases hg : g' c a with
      | none => rfl
      | some y =>
        rcases hnew c a (by rw [hg]; exact Option.some_ne_none _) with h | h
        · have := hi.fresh t c a h
          rw [hx] at this; cases this
        · have := hi.old hx
          rw [this] at h; cases h
    rw [hfr c a this]
    exact hi.old hx
  · intro u c a hx
    split at hx
    · rcases hnew c a hx with h | h
      · exact hi.fresh t c a h
      · cases hS : S c a with
        | none => rfl
        | some y => have := hi.old hS; rw [this] at h; cases h
    · exact hi.fresh u c a hx
  · intro u v c a huv hx
    by_cases hut : u = t
    · rw [if_pos hut] at hx
      have hvt : v ≠ t := fun hvt => huv (hut.trans hvt.symm)
      rw [if_neg hvt]
      exact hown c a hx v hvt
    · rw [if_neg hut] at hx
      by_cases hvt : v = t
      · rw [if_pos hvt]
        cases hg : g' c a with
        | none => rfl
        | some y =>
          have := hown c a (by rw [hg]; exact Option.some_ne_none _) u hut
          exact absurd this hx
      · rw [if_neg hvt]
        exact hi.disj u v c a huv hx
  · intro u
    by_cases hut : u = t
    · subst hut
      rw [if_pos rfl]
      exact hw
    · rw [if_neg hut, hu u hut]
      exact hi.todo u

theorem Reachable.inv {jobs : ι → Job τ} {S : Store τ} {st : State jobs}
    (hr : Reachable jobs S st) : ∃ own, Inv jobs S st own := by
  induction hr with
  | start => exact ⟨_, inv_start jobs S⟩
  | step t _ hs ih =>
    obtain ⟨own, hi⟩ := ih
    exact hi.step hs

/-! ### Looking at results -/

omit [BEq τ] in
theorem look_ops {m : AddrMap} {h : Heap τ} {g S : Store τ} (hM : Match m h g) (hg : g.Sub S)
    {xs ys : List HOp} (hr : RList (ROp m) xs ys) :
    lookAll (lookOp S) xs = some (ys.map (HOp.read h)) := by
  induction hr with
  | nil => rfl
  | @cons x y xs ys hxy _ ih =>
    obtain ⟨hn⟩ := hxy
    rename_i n a op loc
    have e : lookOp S ⟨a, op, loc⟩ = some (HOp.read h ⟨n, op, loc⟩) := by
      unfold lookOp
      rw [hg (hM.cells hn)]
      rfl
    unfold lookAll
    rw [e, ih]
    rfl

omit [BEq τ] in
theorem look_reps {m : AddrMap} {h : Heap τ} {g S : Store τ} (hM : Match m h g) (hg : g.Sub S)
    {xs ys : List (HRepair α)} (hr : RList (RRep m) xs ys) :
    lookAll (lookRepair S) xs = some (ys.map (HRepair.read h)) := by
  induction hr with
  | nil => rfl
  | @cons x y xs ys hxy _ ih =>
    obtain ⟨hn, ho⟩ := hxy
    rename_i n a cost ins ops ops' v pos
    have e : lookRepair S ⟨a, cost, ins, ops, v, pos⟩
        = some (HRepair.read h ⟨n, cost, ins, ops', v, pos⟩) := by
      unfold lookRepair
      dsimp only
      rw [hg (hM.cells hn), look_ops hM hg ho]
      rfl
    unfold lookAll
    rw [e, ih]
    rfl

omit [BEq τ] in
theorem look_result {m : AddrMap} {h : Heap τ} {g S : Store τ} (hM : Match m h g) (hg : g.Sub S)
    {x y : HResult α} (hr : RResult m x y) : look S x = some (y.read h) := by
  cases hr with
  | ok hr =>
    obtain ⟨hn⟩ := hr
    unfold look
    dsimp only
    rw [hg (hM.cells hn)]
    rfl
  | error hr =>
    obtain ⟨hn⟩ := hr
    unfold look
    dsimp only
    rw [hg (hM.cells hn)]
    rfl
  | recovered hr =>
    obtain ⟨hn, hreps⟩ := hr
    unfold look
    dsimp only
    rw [hg (hM.cells hn), look_reps hM hg hreps]
    rfl

theorem Job.outcome_eq (j : Job τ) :
    j.outcome = j.heaped.1.map (HResult.read j.heaped.2) :=
  (C45_same_result j.env j.fuel j.p j.stream j.opts .empty).symm

/-! ### Looking at objects that stay -/

omit [BEq τ] in
theorem lookAll_mono {α β : Type} {f f' : α → Option β} (h : ∀ x y, f x = some y → f' x = some y)
    {xs : List α} {ys : List β} (e : lookAll f xs = some ys) : lookAll f' xs = some ys := by
  induction xs generalizing ys with
  | nil => exact e
  | cons x xs ih =>
    unfold lookAll at e ⊢
    cases hx : f x with
    | none => rw [hx] at e; cases e
    | some y =>
      rw [hx] at e
      cases hxs : lookAll f xs with
      | none => rw [hxs] at e; cases e
      | some ys' =>
        rw [hxs] at e
        rw [h _ _ hx, ih hxs]
        exact e

omit [BEq τ] in
theorem lookOp_mono {S S' : Store τ} (h : S.Sub S') (o : HOp) (v : OpItem)
    (e : lookOp S o = some v) : lookOp S' o = some v := by
  unfold lookOp at e ⊢
  cases hx : S .op o.addr with
  | none => rw [hx] at e; cases e
  | some y => rw [hx] at e; rw [h hx]; exact e

omit [BEq τ] in
theorem lookRepair_mono {S S' : Store τ} (h : S.Sub S') (r : HRepair α) (v : Repair τ α)
    (e : lookRepair S r = some v) : lookRepair S' r = some v := by
  unfold lookRepair at e ⊢
  cases hx : S .rep r.addr with
  | none => rw [hx] at e; cases e
  | some y =>
    rw [hx] at e
    cases ho : lookAll (lookOp S) r.ops with
    | none => rw [ho] at e; cases e
    | some ops => rw [ho] at e; rw [h hx, lookAll_mono (lookOp_mono h) ho]; exact e

omit [BEq τ] in
theorem look_mono {S S' : Store τ} (h : S.Sub S') {r : HResult α} {v : Result τ α}
    (e : look S r = some v) : look S' r = some v := by
  unfold look at e ⊢
  cases r with
  | ok r =>
    dsimp only at e ⊢
    cases hx : S .ok r.addr with
    | none => rw [hx] at e; cases e
    | some y => rw [hx] at e; rw [h hx]; exact e
  | error r =>
    dsimp only at e ⊢
    cases hx : S .fail r.addr with
    | none => rw [hx] at e; cases e
    | some y => rw [hx] at e; rw [h hx]; exact e
  | recovered r =>
    dsimp only at e ⊢
    cases hx : S .fail r.addr with
    | none => rw [hx] at e; cases e
    | some y =>
      rw [hx] at e
      cases ho : lookAll (lookRepair S) r.repairs with
      | none => rw [ho] at e; cases e
      | some reps => rw [ho] at e; rw [h hx, lookAll_mono (lookRepair_mono h) ho]; exact e

/-! ### Progress -/

omit [BEq τ] in
theorem Store.Room.put {S : Store τ} (h : S.Room) (c : Cls) (a : Nat) (x : Cell τ c) :
    (S.put c a x).Room := by
  obtain ⟨N, hN⟩ := h
  refine ⟨max N (a + 1), fun c' b hb => ?_⟩
  rw [put_other (fun hcb => by omega)]
  exact hN c' b (by omega)

omit [BEq τ] in
theorem OpStep.room {S S' : Store τ} {p p' : Prog τ α} (hs : OpStep S p S' p') (h : S.Room) :
    S'.Room := by
  cases hs with
  | new a _ => exact h.put _ _ _
  | get _ => exact h
  | set _ => exact h.put _ _ _

theorem Reachable.room {jobs : ι → Job τ} {S : Store τ} {st : State jobs}
    (hr : Reachable jobs S st) (h : S.Room) : st.store.Room := by
  induction hr with
  | start => exact h
  | step t _ hs ih => exact hs.1.room ih

omit [BEq τ] in
/-- Code that accesses only its own objects can go on. -/
theorem wp.step {p : Prog τ α} {g S : Store τ} {Q : Store τ → Out α → Prop} (hp : wp p g Q)
    (hg : g.Sub S) (hS : S.Room) (hf : ¬ Finished p) : ∃ S' p', OpStep S p S' p' := by
  cases p with
  | ret _ => exact absurd trivial hf
  | raise _ => exact absurd trivial hf
  | diverge => exact absurd trivial hf
  | new c x k =>
    obtain ⟨N, hN⟩ := hS
    exact ⟨_, _, .new N (hN c N (Nat.le_refl _))⟩
  | get c a k =>
    obtain ⟨y, hy, _⟩ := hp
    exact ⟨_, _, .get (hg hy)⟩
  | set c a f k =>
    obtain ⟨y, hy, _⟩ := hp
    exact ⟨_, _, .set (hg hy)⟩

open Classical in
omit [BEq τ] in
/-- A step of a thread is a step of the whole. -/
theorem step_of_opStep {jobs : ι → Job τ} {st : State jobs} {t : ι} {S' : Store τ}
    {p' : Prog τ (HResult (jobs t).α)} (h : OpStep st.store (st.thread t) S' p') :
    ∃ st', Step t st st' ∧ st'.thread t = p' := by
  refine ⟨⟨S', fun u => if hu : u = t then hu ▸ p' else st.thread u⟩, ⟨?_, ?_⟩, ?_⟩
  · simpa using h
  · intro u hu; simp [hu]
  · simp

theorem Reachable.progress {jobs : ι → Job τ} {S : Store τ} {st : State jobs}
    (hr : Reachable jobs S st) (hS : S.Room) (t : ι) (hf : ¬ Finished (st.thread t)) :
    ∃ st', Step t st st' := by
  obtain ⟨own, hi⟩ := hr.inv
  obtain ⟨S', p', ho⟩ := (hi.todo t).step (hi.sub t) (hr.room hS) hf
  obtain ⟨st', h, _⟩ := step_of_opStep ho
  exact ⟨st', h⟩

omit [BEq τ] in
/-- A step leads to a part of the tree. -/
theorem opStep_induct {C : Prog τ α → Prop} (hC : ∀ p, (∀ S S' p', OpStep S p S' p' → C p') → C p)
    (p : Prog τ α) : C p := by
  induction p with
  | ret a => exact hC _ fun _ _ _ h => by cases h
  | raise e => exact hC _ fun _ _ _ h => by cases h
  | diverge => exact hC _ fun _ _ _ h => by cases h
  | new c x k ih => exact hC _ fun _ _ _ h => by cases h with | new a _ => exact ih a
  | get c a k ih => exact hC _ fun _ _ _ h => by cases h with | get _ => exact ih _
  | set c a f k ih => exact hC _ fun _ _ _ h => by cases h with | set _ => exact ih

end Reparsec.Thr
