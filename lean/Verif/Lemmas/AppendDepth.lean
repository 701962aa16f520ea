import Verif.Spec.Append

/-!
# How deep `Append` objects get
-/

namespace Reparsec.App

variable {τ α β γ : Type}

/-- Whatever is returned has the property. -/
def Rets {β : Type} (x : Out β) (Q : β → Prop) : Prop := ∀ r, x = .ret r → Q r

theorem Rets.bind {β γ : Type} {x : Out β} {f : β → Out γ} {Q : β → Prop} {R : γ → Prop} (hx : Rets x Q)
    (hf : ∀ a, Q a → Rets (f a) R) : Rets (x.bind f) R := by
  intro r h
  obtain ⟨a, h1, h2⟩ := Out.bind_eq_ret.1 h
  exact hf a (hx a h1) r h2

theorem Rets.ret {β : Type} {b : β} {Q : β → Prop} (h : Q b) : Rets (.ret b) Q := by
  intro r hr; cases hr; exact h

theorem Rets.raise {β : Type} {e : Exn} {Q : β → Prop} : Rets (.raise e : Out β) Q := by
  intro r hr; cases hr

theorem Rets.diverge {β : Type} {Q : β → Prop} : Rets (.diverge : Out β) Q := by
  intro r hr; cases hr

theorem Rets.any {β : Type} (x : Out β) : Rets x fun _ => True := fun _ _ => trivial

theorem Rets.mono {β : Type} {x : Out β} {Q R : β → Prop} (h : Rets x Q) (hi : ∀ r, Q r → R r) : Rets x R :=
  fun r hr => hi r (h r hr)

theorem Exp.depth_append (a b : Exp) : (a ++ b).depth = max a.depth b.depth + 1 := rfl

theorem Repair.Within.mono {n m : Nat} (h : n ≤ m) {r : Repair τ α} (hr : r.Within n) : r.Within m :=
  ⟨Nat.le_trans hr.1 h, fun i hi => Nat.le_trans (hr.2 i hi) h⟩

theorem Simple.Within.mono {n m : Nat} (h : n ≤ m) {r : Simple τ α} (hr : r.Within n) : r.Within m := by
  cases r <;> exact Nat.le_trans hr h

theorem Result.Within.mono {n m : Nat} (h : n ≤ m) {r : Result τ α} (hr : r.Within n) : r.Within m := by
  cases r with
  | ok | error => exact Nat.le_trans hr h
  | recovered r => exact ⟨Nat.le_trans hr.1 h, fun x hx => (hr.2 x hx).mono h⟩

theorem Simple.Within.toResult {n : Nat} {r : Simple τ α} (hr : r.Within n) : r.toResult.Within n := by
  cases r <;> exact hr

/-! ### `core/result.py`, `core/repair.py` -/

theorem ops_set_within {n : Nat} {x : Exp} {l : List OpItem} (hx : x.depth ≤ n) (h : ∀ i ∈ l, i.expected.depth ≤ n) :
    ∀ i ∈ opsSetExpected l x, i.expected.depth ≤ n := by
  intro i hi
  obtain ⟨j, hj, rfl⟩ := List.mem_map.1 hi
  simp only [OpItem.setExpected]
  split
  · exact h j hj
  · exact hx

theorem ops_prepend_within {n m : Nat} {x : Exp} {c : Bool} {l : List OpItem} (hx : x.depth + 1 ≤ n)
    (h : ∀ i ∈ l, i.expected.depth ≤ m) (hm : m + 1 ≤ n) : ∀ i ∈ opsPrependExpected l x c, i.expected.depth ≤ n := by
  intro i hi
  obtain ⟨j, hj, rfl⟩ := List.mem_map.1 hi
  have := h j hj
  simp only [OpItem.prependExpected]
  split
  · omega
  · simp only [Exp.depth_append]
    omega

theorem Simple.Within.set {n : Nat} {x : Exp} {r : Simple τ α} (hx : x.depth ≤ n) (hr : r.Within n) :
    (r.setExpected x).Within n := by
  cases r with
  | ok r =>
    simp only [Simple.setExpected, Ok.setExpected]
    split
    · exact hr
    · exact hx
  | error r =>
    simp only [Simple.setExpected, Err.setExpected]
    split
    · exact hr
    · exact hx

theorem Result.Within.set {n : Nat} {x : Exp} {r : Result τ α} (hx : x.depth ≤ n) (hr : r.Within n) :
    (r.setExpected x).Within n := by
  cases r with
  | ok r =>
    simp only [Result.setExpected, Ok.setExpected]
    split
    · exact hr
    · exact hx
  | error r =>
    simp only [Result.setExpected, Err.setExpected]
    split
    · exact hr
    · exact hx
  | recovered r =>
    refine ⟨?_, fun y hy => ?_⟩
    · simp only [Recovered.setExpected]
      split
      · exact hr.1
      · exact hx
    · obtain ⟨z, hz, rfl⟩ := List.mem_map.1 hy
      have := hr.2 z hz
      refine ⟨?_, ops_set_within hx this.2⟩
      simp only [Repair.setExpected]
      split
      · exact this.1
      · exact hx

theorem Simple.Within.prepend {n : Nat} {x : Exp} {c : Bool} {r : Simple τ α} (hx : x.depth ≤ n) (hr : r.Within n) :
    (r.prependExpected x c).Within (n + 1) := by
  cases r with
  | ok r =>
    simp only [Simple.Within] at hr
    simp only [Simple.prependExpected, Ok.prependExpected, Simple.Within]
    split
    · omega
    · simp only [Exp.depth_append]; omega
  | error r =>
    simp only [Simple.Within] at hr
    simp only [Simple.prependExpected, Err.prependExpected, Simple.Within]
    split
    · omega
    · simp only [Exp.depth_append]; omega

theorem Result.Within.prepend {n : Nat} {x : Exp} {c : Bool} {r : Result τ α} (hx : x.depth ≤ n) (hr : r.Within n) :
    (r.prependExpected x c).Within (n + 1) := by
  cases r with
  | ok r =>
    simp only [Result.Within] at hr
    simp only [Result.prependExpected, Ok.prependExpected, Result.Within]
    split
    · omega
    · simp only [Exp.depth_append]; omega
  | error r =>
    simp only [Result.Within] at hr
    simp only [Result.prependExpected, Err.prependExpected, Result.Within]
    split
    · omega
    · simp only [Exp.depth_append]; omega
  | recovered r =>
    refine ⟨?_, fun y hy => ?_⟩
    · have := hr.1
      simp only [Recovered.prependExpected]
      split
      · omega
      · simp only [Exp.depth_append]; omega
    · obtain ⟨z, hz, rfl⟩ := List.mem_map.1 hy
      have := hr.2 z hz
      refine ⟨?_, ops_prepend_within (by omega) this.2 (Nat.le_refl _)⟩
      have := this.1
      simp only [Repair.prependExpected]
      split
      · omega
      · simp only [Exp.depth_append]; omega

theorem Simple.Within.setCtx {n : Nat} {c : Ctx τ} {r : Simple τ α} (hr : r.Within n) : (r.setCtx c).Within n := by
  cases r <;> exact hr

theorem Result.Within.setCtx {n : Nat} {c : Ctx τ} {r : Result τ α} (hr : r.Within n) : (r.setCtx c).Within n := by
  cases r with
  | ok | error => exact hr
  | recovered r =>
    refine ⟨hr.1, fun y hy => ?_⟩
    obtain ⟨z, hz, rfl⟩ := List.mem_map.1 hy
    exact hr.2 z hz

theorem Simple.Within.fmap {n : Nat} {f : α → β} {r : Simple τ α} (hr : r.Within n) : (r.fmap f).Within n := by
  cases r <;> exact hr

theorem Result.Within.fmap {n : Nat} {f : α → β} {r : Result τ α} (hr : r.Within n) : (r.fmap f).Within n := by
  cases r with
  | ok | error => exact hr
  | recovered r =>
    refine ⟨hr.1, fun y hy => ?_⟩
    obtain ⟨z, hz, rfl⟩ := List.mem_map.1 hy
    exact hr.2 z hz

theorem Simple.Within.fmapM {n : Nat} {f : α → Except Exn β} {r : Simple τ α} (hr : r.Within n) :
    Rets (r.fmapM f) (Simple.Within n) := by
  cases r with
  | error => exact .ret hr
  | ok r =>
    simp only [Simple.fmapM, Ok.fmapM]
    cases f r.value with
    | error => exact .raise
    | ok => exact .ret hr

theorem repairsFmapM_within {n : Nat} {f : α → Except Exn β} {l : List (Repair τ α)} (h : ∀ x ∈ l, x.Within n) :
    Rets (repairsFmapM f l) fun l' => ∀ x ∈ l', x.Within n := by
  induction l with
  | nil => exact .ret fun x hx => by cases hx
  | cons r l ih =>
    simp only [repairsFmapM, Repair.fmapM]
    cases f r.value with
    | error => exact .raise
    | ok v =>
      refine (ih fun x hx => h x (List.mem_cons_of_mem _ hx)).bind fun l' hl' => .ret fun x hx => ?_
      rcases List.mem_cons.1 hx with rfl | hx
      · exact h r List.mem_cons_self
      · exact hl' x hx

theorem Result.Within.fmapM {n : Nat} {f : α → Except Exn β} {r : Result τ α} (hr : r.Within n) :
    Rets (r.fmapM f) (Result.Within n) := by
  cases r with
  | error => exact .ret hr
  | ok r =>
    simp only [Result.fmapM, Ok.fmapM]
    cases f r.value with
    | error => exact .raise
    | ok => exact .ret hr
  | recovered r => exact (repairsFmapM_within hr.2).bind fun l hl => .ret ⟨hr.1, hl⟩

/-! ### `core/recovery.py` -/

theorem contOne_within {ins : Int} {merge : α → β → γ} {n : Nat} {r : Repair τ α} {rb : Result τ β} (hr : r.Within n)
    (hb : rb.Within n) : ∀ x ∈ contOne ins merge r rb, x.Within (n + 1) := by
  have ha : ∀ (x : Exp) (c : Bool), x.depth ≤ n → (appendExpected r x c).depth ≤ n + 1 := by
    intro x c hx
    have := hr.1
    simp only [appendExpected]
    split
    · omega
    · simp only [Exp.depth_append]; omega
  intro x hx
  cases rb with
  | error => cases hx
  | ok rb =>
    cases List.mem_singleton.1 hx
    exact ⟨ha _ _ hb, fun i hi => Nat.le_succ_of_le (hr.2 i hi)⟩
  | recovered rb =>
    obtain ⟨y, hy, rfl⟩ := List.mem_map.1 hx
    have hy := hb.2 y hy
    refine ⟨ha _ _ hy.1, fun i hi => ?_⟩
    rcases List.mem_append.1 hi with hi | hi
    · exact Nat.le_succ_of_le (hr.2 i hi)
    · exact ops_prepend_within (Nat.succ_le_succ hr.1) hy.2 (Nat.le_refl _) i hi

theorem contReps_within {ins : Int} {f : α → Nat → Ctx τ → Int → Out (Result τ β)} {merge : α → β → γ} {n : Nat}
    {l : List (Repair τ α)} (hl : ∀ x ∈ l, x.Within n) (hf : ∀ v p c r, Rets (f v p c r) (Result.Within n)) :
    Rets (contReps ins f merge l) fun l' => ∀ x ∈ l', x.Within (n + 1) := by
  induction l with
  | nil => exact .ret fun x hx => by cases hx
  | cons r l ih =>
    refine (hf r.value r.pos r.ctx r.ins).bind fun rb hb =>
      (ih fun x hx => hl x (List.mem_cons_of_mem _ hx)).bind fun l' hl' => .ret fun x hx => ?_
    rcases List.mem_append.1 hx with hx | hx
    · exact contOne_within (hl r List.mem_cons_self) hb x hx
    · exact hl' x hx

theorem continueParse_within {ra : Recovered τ α} {ins : Int} {f : α → Nat → Ctx τ → Int → Out (Result τ β)}
    {merge : α → β → γ} {n : Nat} (hr : (Result.recovered ra).Within n)
    (hf : ∀ v p c r, Rets (f v p c r) (Result.Within n)) :
    Rets (continueParse ra ins f merge) (Result.Within (n + 1)) :=
  (contReps_within hr.2 hf).bind fun _ hl => .ret ⟨Nat.le_succ_of_le hr.1, hl⟩

theorem joinRepairs_within {ra rb : Recovered τ α} {n : Nat} (ha : (Result.recovered ra).Within n)
    (hb : (Result.recovered rb).Within n) : (Result.recovered (joinRepairs ra rb)).Within (n + 1) := by
  have h : ∀ x ∈ joinReps ra rb, x.Within (n + 1) := by
    intro x hx
    have : x ∈ ra.repairs ∨ x ∈ rb.repairs := by
      simp only [joinReps] at hx
      split at hx
      · exact (List.mem_append.1 hx).imp id fun h => (List.mem_filter.1 h).1
      · exact (List.mem_append.1 hx).imp id fun h => (List.mem_filter.1 h).1
    rcases this with hx | hx
    · exact (ha.2 x hx).mono (Nat.le_succ n)
    · exact (hb.2 x hx).mono (Nat.le_succ n)
  have h1 := ha.1
  have h2 := hb.1
  simp only [joinRepairs]
  split
  · exact ⟨Nat.le_succ_of_le h1, h⟩
  · split
    · exact ⟨Nat.le_succ_of_le h2, h⟩
    · exact ⟨by simp only [Exp.depth_append]; omega, h⟩

/-! ### Parse functions -/

/-- Whatever the functions return is nested no deeper than `n`. -/
structure Bounded (n : Nat) (p : ParseFns τ α) : Prop where
  fast : ∀ s pos ctx, Rets (p.fast s pos ctx) (Simple.Within n)
  fn : ∀ s pos ctx ins rem, Rets (p.fn s pos ctx ins rem) (Result.Within n)

theorem Bounded.mono {n m : Nat} {p : ParseFns τ α} (h : n ≤ m) (hp : Bounded n p) : Bounded m p :=
  ⟨fun s pos ctx => (hp.fast s pos ctx).mono fun _ hr => hr.mono h,
   fun s pos ctx ins rem => (hp.fn s pos ctx ins rem).mono fun _ hr => hr.mono h⟩

theorem bounded_pure (n : Nat) (x : α) : Bounded n (pureFns x : ParseFns τ α) :=
  ⟨fun _ _ _ => .ret (Nat.zero_le _), fun _ _ _ _ _ => .ret (Nat.zero_le _)⟩

theorem bounded_pureFn (n : Nat) (x : Except Exn α) : Bounded n (pureFnFns x : ParseFns τ α) := by
  cases x with
  | error => exact ⟨fun _ _ _ => .raise, fun _ _ _ _ _ => .raise⟩
  | ok => exact ⟨fun _ _ _ => .ret (Nat.zero_le _), fun _ _ _ _ _ => .ret (Nat.zero_le _)⟩

theorem bounded_unexpected (n : Nat) (x : String) : Bounded n (unexpectedFns x : ParseFns τ Unit) :=
  ⟨fun _ _ _ => .ret (Nat.zero_le _), fun _ _ _ _ _ => .ret (Nat.zero_le _)⟩

/-- A repair with one operation, and lists. -/
theorem within_one {n : Nat} {r : Repair τ α} {i : OpItem} (h1 : r.expected.depth ≤ n) (h2 : r.ops = [i])
    (h3 : i.expected.depth ≤ n) : r.Within n := by
  refine ⟨h1, fun j hj => ?_⟩
  rw [h2] at hj
  cases List.mem_singleton.1 hj
  exact h3

theorem bounded_eof (n : Nat) : Bounded n (eofFns : ParseFns τ Unit) := by
  constructor
  · intro s pos ctx
    simp only [eofFns, eofFast]
    split <;> exact .ret (Nat.zero_le _)
  · intro s pos ctx ins rem
    simp only [eofFns, eofFn]
    split
    · exact .ret (Nat.zero_le _)
    · cases rem with
      | none => exact .ret (Nat.zero_le _)
      | some => exact .ret ⟨Nat.zero_le _, fun x hx => by
          cases List.mem_singleton.1 hx
          exact within_one (Nat.zero_le _) rfl (Nat.zero_le _)⟩

theorem bounded_satisfy (n : Nat) (test : τ → Except Exn Bool) : Bounded n (satisfyFns test) := by
  constructor
  · intro s pos ctx
    refine (Rets.any _).bind fun a _ => ?_
    cases a <;> exact .ret (Nat.zero_le _)
  · intro s pos ctx ins rem
    refine (Rets.any _).bind fun a _ => ?_
    cases a with
    | some => exact .ret (Nat.zero_le _)
    | none =>
      cases rem with
      | none => exact .ret (Nat.zero_le _)
      | some =>
        refine (Rets.any _).bind fun a _ => ?_
        cases a with
        | none => exact .ret (Nat.zero_le _)
        | some => exact .ret ⟨Nat.zero_le _, fun x hx => by
            cases List.mem_singleton.1 hx
            exact within_one (Nat.zero_le _) rfl (Nat.zero_le _)⟩

theorem reps_within {n : Nat} {k : Int} {a b : Repair τ α} (ha : a.Within n) (hb : b.Within n) :
    (∀ x ∈ (if k ≠ 0 then [a] else []) ++ [b], x.Within n) ∧ ∀ x ∈ (if k ≠ 0 then [a] else []), x.Within n := by
  constructor
  · intro x hx
    split at hx
    · simp only [List.cons_append, List.nil_append, List.mem_cons, List.not_mem_nil, or_false] at hx
      rcases hx with rfl | rfl
      · exact ha
      · exact hb
    · cases List.mem_singleton.1 hx; exact hb
  · intro x hx
    split at hx
    · cases List.mem_singleton.1 hx; exact ha
    · cases hx

theorem bounded_sym [BEq τ] (n : Nat) (x : τ) (l : String) : Bounded n (symFns x l) := by
  constructor
  · intro s pos ctx
    simp only [symFns, symFast]
    cases symAt x s pos <;> exact .ret (Nat.zero_le _)
  · intro s pos ctx ins rem
    simp only [symFns, symFn]
    cases symAt x s pos with
    | some => exact .ret (Nat.zero_le _)
    | none =>
      cases rem with
      | none => exact .ret (Nat.zero_le _)
      | some =>
        refine (Rets.any _).bind fun a _ => ?_
        cases a with
        | none => exact .ret ⟨Nat.zero_le _, (reps_within (b := makeInsert 0 x 0 ctx ⟨0, 0, 0⟩ "")
            (within_one (Nat.zero_le _) rfl (Nat.zero_le _))
            (within_one (Nat.zero_le _) rfl (Nat.zero_le _))).2⟩
        | some => exact .ret ⟨Nat.zero_le _, (reps_within (within_one (Nat.zero_le _) rfl (Nat.zero_le _))
            (within_one (Nat.zero_le _) rfl (Nat.zero_le _))).1⟩

theorem bounded_literal [BEq τ] (n : Nat) (x : List τ) (l : String) : Bounded n (literalFns x l) := by
  constructor
  · intro s pos ctx
    simp only [literalFns, literalFast]
    split <;> exact .ret (Nat.zero_le _)
  · intro s pos ctx ins rem
    simp only [literalFns, literalFn]
    split
    · exact .ret (Nat.zero_le _)
    · cases rem with
      | none => exact .ret (Nat.zero_le _)
      | some =>
        refine (Rets.any _).bind fun a _ => ?_
        cases a with
        | none => exact .ret ⟨Nat.zero_le _, (reps_within (b := makeInsert 0 x 0 ctx ⟨0, 0, 0⟩ "")
            (within_one (Nat.zero_le _) rfl (Nat.zero_le _))
            (within_one (Nat.zero_le _) rfl (Nat.zero_le _))).2⟩
        | some => exact .ret ⟨Nat.zero_le _, (reps_within (within_one (Nat.zero_le _) rfl (Nat.zero_le _))
            (within_one (Nat.zero_le _) rfl (Nat.zero_le _))).1⟩

theorem bounded_regexp (n : Nat) (m : Matcher τ β) : Bounded n (regexpFns m) := by
  constructor
  · intro s pos ctx
    refine (Rets.any _).bind fun a _ => ?_
    cases a <;> exact .ret (Nat.zero_le _)
  · intro s pos ctx ins rem
    refine (Rets.any _).bind fun a _ => ?_
    cases a with
    | some => exact .ret (Nat.zero_le _)
    | none =>
      cases rem with
      | none => exact .ret (Nat.zero_le _)
      | some =>
        refine (Rets.any _).bind fun a _ => ?_
        cases a with
        | none => exact .ret (Nat.zero_le _)
        | some => exact .ret ⟨Nat.zero_le _, fun x hx => by
            cases List.mem_singleton.1 hx
            exact within_one (Nat.zero_le _) rfl (Nat.zero_le _)⟩

variable {n : Nat} {p q : ParseFns τ α}

theorem Bounded.fmap (hp : Bounded n p) (f : α → Except Exn β) : Bounded n (fmapFns p f) :=
  ⟨fun s pos ctx => (hp.fast s pos ctx).bind fun _ hr => hr.fmapM,
   fun s pos ctx ins rem => (hp.fn s pos ctx ins rem).bind fun _ hr => hr.fmapM⟩

theorem depth_app {a b : Exp} (ha : a.depth ≤ n) (hb : b.depth ≤ n) : (a ++ b).depth ≤ n + 1 := by
  simp only [Exp.depth_append]; omega

theorem Rets.ite {β : Type} {c : Prop} [Decidable c] {x y : Out β} {Q : β → Prop} (hx : Rets x Q) (hy : Rets y Q) :
    Rets (if c then x else y) Q := by
  split
  · exact hx
  · exact hy

theorem Bounded.altRecover (hp : Bounded n p) (hq : Bounded n q) {s : List τ} {pos : Nat} {ctx : Ctx τ} {ins : Int}
    {rem : Option Int} {loc : Loc} {x : Exp} (hx : x.depth ≤ n + 1) :
    Rets (App.altRecover p q s pos ctx ins rem loc x) (Result.Within (n + 1)) := by
  cases rem with
  | none => exact .ret hx
  | some k =>
    refine (hp.fn s pos ctx ins (some k)).bind fun a ha => (hq.fn s pos ctx ins (some k)).bind fun b hb => ?_
    cases a <;> cases b
    case recovered.recovered =>
      exact .ret (Result.Within.set (r := .recovered _) hx (joinRepairs_within ha hb))
    case recovered.ok | recovered.error =>
      exact .ret (Result.Within.set (r := .recovered _) hx (ha.mono (Nat.le_succ n)))
    case ok.recovered | error.recovered =>
      exact .ret (Result.Within.set (r := .recovered _) hx (hb.mono (Nat.le_succ n)))
    all_goals exact .ret hx

theorem Bounded.altSecond (hp : Bounded n p) (hq : Bounded n q) {s : List τ} {pos : Nat} {ctx : Ctx τ} {ins : Int}
    {rem : Option Int} {loc : Loc} {x : Exp} (hx : x.depth ≤ n) :
    Rets (App.altSecond p q s pos ctx ins rem loc x) (Result.Within (n + 1)) := by
  refine (hq.fn s pos ctx ins none).bind fun a ha => ?_
  cases a with
  | ok r =>
    exact .ite (.ret (Nat.le_succ_of_le ha)) (.ret (Result.Within.set (r := .ok _) (depth_app hx ha) (Nat.le_succ_of_le ha)))
  | error r => exact .ite (.ret (Nat.le_succ_of_le ha)) (hp.altRecover hq (depth_app hx ha))
  | recovered r => exact .ite (.ret (ha.mono (Nat.le_succ n))) (hp.altRecover hq (depth_app hx ha.1))

theorem Bounded.alt (hp : Bounded n p) (hq : Bounded n q) : Bounded (n + 1) (altFns p q) := by
  constructor
  · intro s pos ctx
    refine (hp.fast s pos ctx).bind fun a ha => ?_
    cases a with
    | ok => exact .ret (Nat.le_succ_of_le ha)
    | error e =>
      refine .ite (.ret (Nat.le_succ_of_le ha)) ((hq.fast s pos ctx).bind fun b hb => ?_)
      cases b with
      | ok r =>
        exact .ite (.ret (Nat.le_succ_of_le hb)) (.ret (Simple.Within.set (r := .ok _) (depth_app ha hb) (Nat.le_succ_of_le hb)))
      | error => exact .ite (.ret (Nat.le_succ_of_le hb)) (.ret (depth_app ha hb))
  · intro s pos ctx ins rem
    refine (hp.fn s pos ctx ins none).bind fun a ha => ?_
    cases a with
    | ok => exact .ret (Nat.le_succ_of_le ha)
    | error e => exact .ite (.ret (Nat.le_succ_of_le ha)) (hp.altSecond hq ha)
    | recovered e => exact .ite (.ret (ha.mono (Nat.le_succ n))) (hp.altSecond hq ha.1)

theorem Bounded.bindFast (hp : Bounded n p) {f : α → ParseFns τ β} (hf : ∀ a, Bounded n (f a)) (s : List τ) (pos : Nat)
    (ctx : Ctx τ) : Rets (App.bindFast p f s pos ctx) (Simple.Within (n + 1)) := by
  refine (hp.fast s pos ctx).bind fun a ha => ?_
  cases a with
  | error => exact .ret (Nat.le_succ_of_le ha)
  | ok r => exact ((hf r.value).fast s r.pos r.ctx).bind fun b hb => .ret (hb.prepend ha)

theorem Bounded.seqFast (hp : Bounded n p) {q : ParseFns τ β} (hq : Bounded n q) (merge : α → β → γ) (s : List τ)
    (pos : Nat) (ctx : Ctx τ) : Rets (App.seqFast p q merge s pos ctx) (Simple.Within (n + 1)) := by
  refine (hp.fast s pos ctx).bind fun a ha => ?_
  cases a with
  | error => exact .ret (Nat.le_succ_of_le ha)
  | ok r => exact (hq.fast s r.pos r.ctx).bind fun b hb => .ret (hb.fmap.prepend ha)

theorem Bounded.maybe (hp : Bounded n p) : Bounded n (maybeFns p) := by
  constructor
  · intro s pos ctx
    refine (hp.fast s pos ctx).bind fun a ha => ?_
    cases a with
    | ok => exact .ret ha
    | error => exact .ite (.ret ha) (.ret ha)
  · intro s pos ctx ins rem
    refine (hp.fn s pos ctx ins none).bind fun a ha => ?_
    cases a with
    | ok => exact .ret ha
    | error => exact .ite (.ret ha) (.ret ha)
    | recovered => exact .ite (.ret ha.fmap) (.ret ha.1)

theorem Bounded.manyFastLoop (hp : Bounded n p) (s : List τ) (fuel pos : Nat) (ctx : Ctx τ) (c : Bool) (v : List α) :
    Rets (App.manyFastLoop p.fast s fuel pos ctx c v) (Simple.Within n) := by
  induction fuel generalizing pos ctx c v with
  | zero => exact .diverge
  | succ k ih =>
    refine (hp.fast s pos ctx).bind fun a ha => ?_
    cases a with
    | ok r => exact .ite (ih _ _ _ _) .raise
    | error => exact .ite (.ret ha) (.ret ha)

theorem Bounded.attempt (hp : Bounded n p) : Bounded n (attemptFns p) := by
  have h : ∀ s pos ctx, Rets (attemptFast p s pos ctx) (Simple.Within n) := by
    intro s pos ctx
    refine (hp.fast s pos ctx).bind fun a ha => ?_
    cases a <;> exact .ret ha
  refine ⟨h, fun s pos ctx ins rem => ?_⟩
  cases rem with
  | some => exact hp.fn s pos ctx ins _
  | none =>
    refine (hp.fast s pos ctx).bind fun a ha => ?_
    cases a <;> exact .ret ha

theorem Bounded.label (hp : Bounded n p) (x : String) : Bounded n (labelFns p x) :=
  ⟨fun s pos ctx => (hp.fast s pos ctx).bind fun _ hr => .ret (hr.set (Nat.zero_le _)),
   fun s pos ctx ins rem => (hp.fn s pos ctx ins rem).bind fun _ hr => .ret (hr.set (Nat.zero_le _))⟩

theorem Bounded.recover (hp : Bounded n p) : Bounded n (recoverFns p) := by
  refine ⟨hp.fast, fun s pos ctx ins rem => (hp.fn s pos ctx ins rem).bind fun a ha => ?_⟩
  cases a with
  | ok | error => exact .ret ha
  | recovered r =>
    refine .ret ⟨ha.1, fun y hy => ?_⟩
    obtain ⟨z, hz, rfl⟩ := List.mem_map.1 hy
    exact ha.2 z hz

theorem Bounded.recoverWith (hp : Bounded n p) (x : α) (vs : String) : Bounded n (recoverWithFns p x vs) := by
  refine ⟨hp.fast, fun s pos ctx ins rem => ?_⟩
  cases rem with
  | none => exact hp.fn s pos ctx ins none
  | some k =>
    refine (hp.fn s pos ctx ins (some k)).bind fun a ha => ?_
    cases a with
    | ok => exact .ret ha
    | error => exact .ite (.ret ha) (.ite (.ret ⟨Nat.zero_le _, fun y hy => by
        cases List.mem_singleton.1 hy
        exact within_one (Nat.zero_le _) rfl ha⟩) (.ret ha))
    | recovered r => exact .ite (.ret ha) (.ite (.ret ⟨ha.1, fun y hy => by
        rcases List.mem_cons.1 hy with rfl | hy
        · exact within_one (Nat.zero_le _) rfl ha.1
        · exact ha.2 y hy⟩) (.ret ha))

theorem Bounded.recoverWithFn (hp : Bounded n p) (f : List τ → Nat → Except Exn α) (lbl : α → String) :
    Bounded n (recoverWithFnFns p f lbl) := by
  refine ⟨hp.fast, fun s pos ctx ins rem => ?_⟩
  cases rem with
  | none => exact hp.fn s pos ctx ins none
  | some k =>
    refine (hp.fn s pos ctx ins (some k)).bind fun a ha => ?_
    cases a with
    | ok => exact .ret ha
    | error => exact .ite (.ret ha) (.ite ((Rets.any _).bind fun x _ => .ret ⟨Nat.zero_le _, fun y hy => by
        cases List.mem_singleton.1 hy
        exact within_one (Nat.zero_le _) rfl ha⟩) (.ret ha))
    | recovered r => exact .ite (.ret ha) (.ite ((Rets.any _).bind fun x _ => .ret ⟨ha.1, fun y hy => by
        rcases List.mem_cons.1 hy with rfl | hy
        · exact within_one (Nat.zero_le _) rfl ha.1
        · exact ha.2 y hy⟩) (.ret ha))

theorem Bounded.block (hp : Bounded n p) : Bounded n (blockFns p) :=
  ⟨fun s pos _ => (hp.fast s pos _).bind fun _ hr => .ret hr.setCtx,
   fun s pos _ ins rem => (hp.fn s pos _ ins rem).bind fun _ hr => .ret hr.setCtx⟩

theorem Bounded.aligned (hp : Bounded n p) : Bounded n (alignedFns p) :=
  ⟨fun s pos _ => .ite (hp.fast s pos _) (.ret (Nat.zero_le _)),
   fun s pos _ ins rem => .ite (hp.fn s pos _ ins rem) (.ret (Nat.zero_le _))⟩

theorem Bounded.indented (hp : Bounded n p) (delta : Int) : Bounded n (indentedFns delta p) :=
  ⟨fun s pos _ => .ite ((hp.fast s pos _).bind fun _ hr => .ret hr.setCtx) (.ret (Nat.zero_le _)),
   fun s pos _ ins rem => .ite ((hp.fn s pos _ ins rem).bind fun _ hr => .ret hr.setCtx) (.ret (Nat.zero_le _))⟩

/-! ### With a limited stack -/

open Reparsec.Stk (Frames call recursionError)

namespace Stk

theorem call_rets {ω : Type} {b : Frames → Out ω} {Q : ω → Prop} {n : Nat} (h : ∀ m, m + 1 = n → Rets (b (some m)) Q) :
    Rets (call b (some n)) Q := by
  cases n with
  | zero => exact .raise
  | succ n => exact h n rfl

theorem framed_fast {b : LFns τ α} {n : Nat} {s : List τ} {pos : Nat} {ctx : Ctx τ} {Q : Simple τ α → Prop}
    (h : ∀ m, m + 1 = n → Rets ((b (some m)).fast s pos ctx) Q) : Rets ((framed b (some n)).fast s pos ctx) Q :=
  call_rets (b := fun d => (b d).fast s pos ctx) h

theorem framed_fn {b : LFns τ α} {n : Nat} {s : List τ} {pos : Nat} {ctx : Ctx τ} {ins : Int} {rem : Option Int}
    {Q : Result τ α → Prop} (h : ∀ m, m + 1 = n → Rets ((b (some m)).fn s pos ctx ins rem) Q) :
    Rets ((framed b (some n)).fn s pos ctx ins rem) Q :=
  call_rets (b := fun d => (b d).fn s pos ctx ins rem) h

/-- Whatever the functions return is nested no deeper than the number of frames they had. -/
def LBounded (p : LFns τ α) : Prop := ∀ n, Bounded n (p (some n))

theorem framed_bounded {b : LFns τ α} (h : ∀ n, Bounded (n + 1) (b (some n))) : LBounded (framed b) := by
  intro n
  constructor
  · intro s pos ctx
    refine framed_fast ?_
    rintro m rfl
    exact (h m).fast s pos ctx
  · intro s pos ctx ins rem
    refine framed_fn ?_
    rintro m rfl
    exact (h m).fn s pos ctx ins rem

theorem LBounded.framed {b : LFns τ α} (h : LBounded b) : LBounded (framed b) :=
  framed_bounded fun n => (h n).mono (Nat.le_succ n)

theorem framedFn_bounded {p b : LFns τ α} (hp : LBounded p) (h : ∀ n, Bounded (n + 1) (b (some n))) :
    LBounded (framedFn p b) := by
  intro n
  refine ⟨(hp n).fast, fun s pos ctx ins rem => ?_⟩
  refine framed_fn ?_
  rintro m rfl
  exact (h m).fn s pos ctx ins rem

theorem continueParse_bounded {n : Nat} {ra : Recovered τ α} {ins : Int}
    {f : Frames → α → Nat → Ctx τ → Int → Out (Result τ β)} {merge : α → β → γ}
    (hr : (Result.recovered ra).Within n)
    (hf : ∀ m, m + 2 = n → ∀ v p c r, Rets (f (some m) v p c r) (Result.Within n)) :
    Rets (continueParse (some n) ra ins f merge) (Result.Within (n + 1)) := by
  refine call_rets ?_
  rintro m rfl
  refine continueParse_within hr fun v p c r => ?_
  refine call_rets ?_
  rintro k rfl
  exact hf k rfl v p c r

theorem bind_bounded {p : LFns τ α} {f : α → LFns τ β} (hp : LBounded p) (hf : ∀ a, LBounded (f a)) :
    LBounded (bindFns p f) := by
  refine framed_bounded fun n => ⟨(hp n).bindFast fun a => (hf a).framed n, fun s pos ctx ins rem => ?_⟩
  refine ((hp n).fn s pos ctx ins rem).bind fun a ha => ?_
  cases a with
  | error => exact .ret (Nat.le_succ_of_le ha)
  | recovered r =>
    refine continueParse_bounded ha ?_
    rintro m rfl v p c r
    exact (((hf v).framed m).mono (by omega)).fn _ _ _ _ _
  | ok r =>
    exact .ite ((((hf r.value).framed n).fn _ _ _ _ _).bind fun b hb => .ret (hb.prepend ha))
      ((((hf r.value).framed n).fn _ _ _ _ _).bind fun b hb => .ret (hb.prepend ha))

theorem seq_bounded {p : LFns τ α} {q : LFns τ β} (hp : LBounded p) (hq : LBounded q) (merge : α → β → γ) :
    LBounded (seqFns p q merge) := by
  refine framed_bounded fun n => ⟨(hp n).seqFast (hq n) merge, fun s pos ctx ins rem => ?_⟩
  refine ((hp n).fn s pos ctx ins rem).bind fun a ha => ?_
  cases a with
  | error => exact .ret (Nat.le_succ_of_le ha)
  | recovered r =>
    refine continueParse_bounded ha ?_
    rintro m rfl v p c r
    exact ((hq m).mono (by omega)).fn _ _ _ _ _
  | ok r => exact ((hq n).fn _ _ _ _ _).bind fun b hb => .ret (hb.fmap.prepend ha)

theorem manyLoop_bounded {p : LFns τ α} (hp : LBounded p) (s : List τ) (ins : Int) (fuel n pos : Nat) (ctx : Ctx τ)
    (c : Bool) (v : List α) : Rets (manyLoop p s ins fuel (some n) pos ctx c v) (Result.Within (n + 1)) := by
  induction fuel generalizing n pos ctx c v with
  | zero => exact .diverge
  | succ k ih =>
    refine ((hp n).fn s pos ctx ins none).bind fun a ha => ?_
    cases a with
    | ok r => exact .ite (ih _ _ _ _ _) .raise
    | error => exact .ite (.ret (Nat.le_succ_of_le ha)) (.ret (Nat.le_succ_of_le ha))
    | recovered r =>
      refine continueParse_bounded ha ?_
      rintro m rfl v p c r
      refine call_rets ?_
      rintro j rfl
      exact (ih j p c false []).mono fun _ hr => hr.mono (by omega)

theorem many_bounded {p : LFns τ α} (hp : LBounded p) (fuel : Nat) : LBounded (manyFns fuel p) :=
  framed_bounded fun n => ⟨fun s pos ctx => (((hp n).mono (Nat.le_succ n)).manyFastLoop s fuel pos ctx false []),
    fun s pos ctx ins _ => manyLoop_bounded hp s ins fuel n pos ctx false []⟩

variable {ρ : Type} {Γ : ρ → Type} [BEq τ]

theorem denoteWith_bounded (n : Nat) {t : (i : ρ) → LFns τ (Γ i)} (ht : ∀ i, LBounded (t i)) (p : P τ ρ Γ α) :
    LBounded (denoteWith n t p) := by
  induction p with
  | pure x => exact framed_bounded fun n => bounded_pure _ _
  | pureFn x => exact framed_bounded fun n => bounded_pureFn _ _
  | unexpected x => exact framed_bounded fun n => bounded_unexpected _ _
  | eof => exact framed_bounded fun n => bounded_eof _
  | satisfy x => exact framed_bounded fun n => bounded_satisfy _ _
  | sym x l => exact framed_bounded fun n => bounded_sym _ _ _
  | literal x l => exact framed_bounded fun n => bounded_literal _ _ _
  | regexp m => exact framed_bounded fun n => bounded_regexp _ _
  | fmap p f ih => exact framed_bounded fun n => ((ih n).mono (Nat.le_succ n)).fmap f
  | alt p q ihp ihq => exact framed_bounded fun n => (ihp n).alt (ihq n)
  | bind p f ihp ihf => exact bind_bounded ihp ihf
  | seqWith p q merge ihp ihq => exact seq_bounded ihp ihq merge
  | maybe p ih => exact framed_bounded fun n => ((ih n).mono (Nat.le_succ n)).maybe
  | many p ih => exact many_bounded ih _
  | attempt p ih => exact framed_bounded fun n => ((ih n).mono (Nat.le_succ n)).attempt
  | label p x ih => exact framed_bounded fun n => ((ih n).mono (Nat.le_succ n)).label x
  | recover p ih => exact framedFn_bounded ih fun n => ((ih n).mono (Nat.le_succ n)).recover
  | recoverWith p x vs ih => exact framedFn_bounded ih fun n => ((ih n).mono (Nat.le_succ n)).recoverWith x vs
  | recoverWithFn p f l ih => exact framedFn_bounded ih fun n => ((ih n).mono (Nat.le_succ n)).recoverWithFn f l
  | block p ih => exact framed_bounded fun n => ((ih n).mono (Nat.le_succ n)).block
  | aligned p ih => exact framed_bounded fun n => ((ih n).mono (Nat.le_succ n)).aligned
  | indented delta p ih => exact framed_bounded fun n => ((ih n).mono (Nat.le_succ n)).indented delta
  | ref i => exact ht i

theorem table_bounded (env : Env τ ρ Γ) (n : Nat) (i : ρ) : LBounded (table env n i) := by
  induction n generalizing i with
  | zero => exact framed_bounded fun _ => ⟨fun _ _ _ => .diverge, fun _ _ _ _ _ => .diverge⟩
  | succ n ih =>
    simp only [table]
    cases env i with
    | none =>
      exact LBounded.framed (framed_bounded fun _ => ⟨fun _ _ _ => .raise, fun _ _ _ _ _ => .raise⟩)
    | some p => exact (denoteWith_bounded n ih p).framed

/-- What `parse` returns when `d` frames are left is nested less than `d` deep, by two. -/
theorem parse_bounded (env : Env τ ρ Γ) (n d : Nat) (p : P τ ρ Γ α) (s : List τ) (b : Bool) (k : Int)
    (gl : Loc → List τ → Nat → Loc) :
    Rets (parse env n (some d) p s b k gl) fun r => 2 ≤ d ∧ r.Within (d - 2) := by
  have hd : LBounded (denote env n p) := denoteWith_bounded n (table_bounded env n) p
  refine call_rets ?_
  rintro m rfl
  cases b with
  | true =>
    refine framed_fn ?_
    rintro j rfl
    exact ((hd j).fn s 0 (initCtx gl) k (some k)).mono fun _ hr => ⟨by omega, hr⟩
  | false =>
    refine Rets.bind (Q := fun r => 1 ≤ m ∧ Simple.Within (m - 1) r) (framed_fast ?_) fun r hr =>
      .ret ⟨by omega, hr.2.toResult⟩
    rintro j rfl
    exact ((hd j).fast s 0 (initCtx gl)).mono fun _ hr => ⟨by omega, hr⟩

end Stk

end Reparsec.App
