import Verif.Lemmas.Sim

/-!
# The frame invariant

Positions move forward and stay within the input, `consumed` says whether they moved, the layout
mark is restored, repairs have operations whose sizes add up to the cost, and priorities are
`None` or `0`.
-/

namespace Reparsec

variable {τ α β γ : Type}

/-! ### The scan loop -/

theorem scan_some {hit : Nat → Except Exn (Option β)} {k cur c : Nat} {b : β}
    (h : scan hit k cur = .ok (some (c, b))) :
    cur ≤ c ∧ c < cur + k ∧ hit c = .ok (some b) ∧ ∀ c', cur ≤ c' → c' < c → hit c' = .ok none := by
  induction k generalizing cur with
  | zero => simp [scan] at h
  | succ k ih =>
    simp only [scan] at h
    cases hh : hit cur with
    | error e => simp [hh] at h
    | ok o =>
      cases o with
      | some b' =>
        simp [hh] at h
        obtain ⟨rfl, rfl⟩ := h
        exact ⟨Nat.le_refl _, by omega, hh, fun c' h1 h2 => by omega⟩
      | none =>
        simp only [hh] at h
        obtain ⟨h1, h2, h3, h4⟩ := ih h
        refine ⟨by omega, by omega, h3, fun c' h5 h6 => ?_⟩
        by_cases hc : c' = cur
        · rw [hc]; exact hh
        · exact h4 c' (by omega) h6

theorem scan_none {hit : Nat → Except Exn (Option β)} {k cur : Nat}
    (h : scan hit k cur = .ok none) : ∀ c, cur ≤ c → c < cur + k → hit c = .ok none := by
  induction k generalizing cur with
  | zero => intro c h1 h2; omega
  | succ k ih =>
    simp only [scan] at h
    cases hh : hit cur with
    | error e => simp [hh] at h
    | ok o =>
      cases o with
      | some b' => simp [hh] at h
      | none =>
        simp only [hh] at h
        intro c h1 h2
        by_cases hc : c = cur
        · rw [hc]; exact hh
        · exact ih h c (by omega) (by omega)

theorem testAt_some {test : τ → Except Exn Bool} {s : List τ} {pos : Nat} {t : τ}
    (h : testAt test s pos = .ok (some t)) : s[pos]? = some t ∧ test t = .ok true := by
  unfold testAt at h
  split at h
  · simp at h
  · next t' ht =>
    split at h
    · simp at h
    · next hb => simp at h; subst h; exact ⟨ht, hb⟩
    · simp at h

theorem testAt_lt {test : τ → Except Exn Bool} {s : List τ} {pos : Nat} {t : τ}
    (h : testAt test s pos = .ok (some t)) : pos < s.length :=
  (List.getElem?_eq_some_iff.1 (testAt_some h).1).1

theorem symAt_some [BEq τ] {x : τ} {s : List τ} {pos : Nat} {t : τ}
    (h : symAt x s pos = some t) : s[pos]? = some t ∧ (t == x) = true := by
  unfold symAt at h
  split at h
  · simp at h
  · next t' ht =>
    split at h
    · next hb => simp at h; subst h; exact ⟨ht, hb⟩
    · simp at h

theorem symAt_lt [BEq τ] {x : τ} {s : List τ} {pos : Nat} {t : τ}
    (h : symAt x s pos = some t) : pos < s.length :=
  (List.getElem?_eq_some_iff.1 (symAt_some h).1).1

theorem isPrefixOf_length_le [BEq τ] {x s : List τ} (h : x.isPrefixOf s = true) :
    x.length ≤ s.length := by
  induction x generalizing s with
  | nil => simp
  | cons a x ih =>
    cases s with
    | nil => simp [List.isPrefixOf] at h
    | cons b s =>
      simp only [List.isPrefixOf, Bool.and_eq_true] at h
      have := ih h.2
      simp; omega

theorem startsWith_le [BEq τ] {x s : List τ} {pos : Nat} (hx : x ≠ [])
    (h : startsWith x s pos = true) : pos + x.length ≤ s.length := by
  unfold startsWith at h
  have h1 := isPrefixOf_length_le h
  rw [List.length_drop] at h1
  have : 0 < x.length := List.length_pos_iff.2 hx
  omega

theorem Matcher.at_bounds {m : Matcher τ β} {s : List τ} {pos e : Nat} {v : β}
    (hp : pos ≤ s.length) (h : m.at s pos = .ok (some (e, v))) : pos ≤ e ∧ e ≤ s.length := by
  unfold Matcher.at at h
  split at h
  · simp at h
  · simp at h
  · simp at h
  · next e' v' hr =>
    simp at h
    obtain ⟨rfl, rfl⟩ := h
    exact m.bounds _ _ _ _ hp hr

/-! ### The predicates -/

/-- The number of tokens an operation inserts or skips. -/
def RepairOp.size : RepairOp → Nat
  | .skip n => n
  | .insert _ => 1

/-- The total size of a list of operations. -/
def opsSize (ops : List OpItem) : Nat := (ops.map fun i => i.op.size).sum

/-- The contexts agree on what parsers must not change. -/
structure CtxFrame (c c' : Ctx τ) : Prop where
  mark : c'.mark = c.mark
  getLocFn : c'.getLocFn = c.getLocFn

theorem CtxFrame.refl (c : Ctx τ) : CtxFrame c c := ⟨rfl, rfl⟩

theorem CtxFrame.trans {c c' c'' : Ctx τ} (h : CtxFrame c c') (h' : CtxFrame c' c'') :
    CtxFrame c c'' := ⟨h'.mark.trans h.mark, h'.getLocFn.trans h.getLocFn⟩

theorem CtxFrame.updateLoc (c : Ctx τ) (s : List τ) (pos : Nat) :
    CtxFrame c (c.updateLoc s pos) := by
  unfold Ctx.updateLoc; split <;> exact ⟨rfl, rfl⟩

structure OkFrame (s : List τ) (pos : Nat) (ctx : Ctx τ) (r : Ok τ α) : Prop where
  lo : pos ≤ r.pos
  hi : r.pos ≤ s.length
  consumed : r.consumed = decide (pos < r.pos)
  ctx : CtxFrame ctx r.ctx

structure RepFrame (s : List τ) (pos : Nat) (ctx : Ctx τ) (rem : Option Int) (r : Repair τ α) :
    Prop where
  lo : pos ≤ r.pos
  hi : r.pos ≤ s.length
  lt : rem = none → pos < r.pos
  ctx : CtxFrame ctx r.ctx
  ops : r.ops ≠ []
  cost : r.cost = opsSize r.ops
  size : ∀ i ∈ r.ops, 1 ≤ i.op.size
  prio : r.prio = none ∨ r.prio = some 0

structure RecFrame (s : List τ) (pos : Nat) (ctx : Ctx τ) (rem : Option Int)
    (r : Recovered τ α) : Prop where
  consumed : rem = none → r.consumed = true
  minPrio : ∀ m, r.minPrio = some m → 1 ≤ m
  reps : ∀ p ∈ r.repairs, RepFrame s pos ctx rem p

def ResFrame (s : List τ) (pos : Nat) (ctx : Ctx τ) (rem : Option Int) : Result τ α → Prop
  | .ok r => OkFrame s pos ctx r
  | .error _ => True
  | .recovered r => RecFrame s pos ctx rem r

def Framed (f : ParseFns τ α) : Prop :=
  ∀ s pos ctx ins rem r, pos ≤ s.length → f.fn s pos ctx ins rem = .ret r →
    ResFrame s pos ctx rem r

/-! ### Bookkeeping functions -/

@[simp] theorem OpItem.prependExpected_op (e : List String) (c : Bool) (i : OpItem) :
    (i.prependExpected e c).op = i.op := by unfold OpItem.prependExpected; split <;> rfl

@[simp] theorem OpItem.prependExpected_loc (e : List String) (c : Bool) (i : OpItem) :
    (i.prependExpected e c).loc = i.loc := by unfold OpItem.prependExpected; split <;> rfl

@[simp] theorem OpItem.setExpected_op (e : List String) (i : OpItem) :
    (i.setExpected e).op = i.op := by unfold OpItem.setExpected; split <;> rfl

@[simp] theorem OpItem.setExpected_loc (e : List String) (i : OpItem) :
    (i.setExpected e).loc = i.loc := by unfold OpItem.setExpected; split <;> rfl

@[simp] theorem opsSize_prepend (ops : List OpItem) (e : List String) (c : Bool) :
    opsSize (opsPrependExpected ops e c) = opsSize ops := by
  simp [opsSize, opsPrependExpected, Function.comp_def]

@[simp] theorem opsSize_set (ops : List OpItem) (e : List String) :
    opsSize (opsSetExpected ops e) = opsSize ops := by
  simp [opsSize, opsSetExpected, Function.comp_def]

@[simp] theorem opsSize_append (a b : List OpItem) : opsSize (a ++ b) = opsSize a + opsSize b := by
  simp [opsSize]

@[simp] theorem opsPrependExpected_eq_nil {ops : List OpItem} {e : List String} {c : Bool} :
    opsPrependExpected ops e c = [] ↔ ops = [] := by simp [opsPrependExpected]

@[simp] theorem opsSetExpected_eq_nil {ops : List OpItem} {e : List String} :
    opsSetExpected ops e = [] ↔ ops = [] := by simp [opsSetExpected]

@[simp] theorem Ok.prependExpected_pos (e : List String) (c : Bool) (r : Ok τ α) :
    (r.prependExpected e c).pos = r.pos := by unfold Ok.prependExpected; split <;> rfl

@[simp] theorem Ok.prependExpected_ctx (e : List String) (c : Bool) (r : Ok τ α) :
    (r.prependExpected e c).ctx = r.ctx := by unfold Ok.prependExpected; split <;> rfl

@[simp] theorem Ok.prependExpected_value (e : List String) (c : Bool) (r : Ok τ α) :
    (r.prependExpected e c).value = r.value := by unfold Ok.prependExpected; split <;> rfl

@[simp] theorem Ok.setExpected_pos (e : List String) (r : Ok τ α) :
    (r.setExpected e).pos = r.pos := by unfold Ok.setExpected; split <;> rfl

@[simp] theorem Ok.setExpected_ctx (e : List String) (r : Ok τ α) :
    (r.setExpected e).ctx = r.ctx := by unfold Ok.setExpected; split <;> rfl

@[simp] theorem Ok.setExpected_value (e : List String) (r : Ok τ α) :
    (r.setExpected e).value = r.value := by unfold Ok.setExpected; split <;> rfl

theorem size_prepend {ops : List OpItem} {e : List String} {c : Bool}
    (h : ∀ i ∈ ops, 1 ≤ i.op.size) : ∀ i ∈ opsPrependExpected ops e c, 1 ≤ i.op.size := by
  simpa [opsPrependExpected] using h

theorem size_set {ops : List OpItem} {e : List String}
    (h : ∀ i ∈ ops, 1 ≤ i.op.size) : ∀ i ∈ opsSetExpected ops e, 1 ≤ i.op.size := by
  simpa [opsSetExpected] using h

theorem RepFrame.setExpected {s : List τ} {pos ctx rem} {r : Repair τ α}
    (h : RepFrame s pos ctx rem r) (e : List String) : RepFrame s pos ctx rem (r.setExpected e) :=
  ⟨h.lo, h.hi, h.lt, h.ctx, by simpa [Repair.setExpected] using h.ops,
    by simpa [Repair.setExpected] using h.cost, size_set h.size, h.prio⟩

theorem RecFrame.setExpected {s : List τ} {pos ctx rem} {r : Recovered τ α}
    (h : RecFrame s pos ctx rem r) (e : List String) :
    RecFrame s pos ctx rem (r.setExpected e) := by
  refine ⟨h.consumed, h.minPrio, ?_⟩
  simp only [Recovered.setExpected, List.mem_map]
  rintro _ ⟨p, hp, rfl⟩
  exact (h.reps p hp).setExpected e

theorem ResFrame.setExpected {s : List τ} {pos ctx rem} {r : Result τ α}
    (h : ResFrame s pos ctx rem r) (e : List String) :
    ResFrame s pos ctx rem (r.setExpected e) := by
  cases r with
  | ok r => exact ⟨by simpa using h.lo, by simpa using h.hi, by simpa using h.consumed,
      by simpa using h.ctx⟩
  | error e => trivial
  | recovered r => exact RecFrame.setExpected h e

/-- `ok` followed by anything. -/
theorem ResFrame.prepend {s : List τ} {pos ctx ins rem} {ra : Ok τ α} {rb : Result τ β}
    (ha : OkFrame s pos ctx ra)
    (hb : ResFrame s ra.pos ra.ctx (if ra.consumed then some ins else rem) rb) :
    ResFrame s pos ctx rem (rb.prependExpected ra.expected ra.consumed) := by
  have hlo := ha.lo
  cases rb with
  | error e => trivial
  | ok rb =>
    have h1 := hb.lo
    refine ⟨?_, ?_, ?_, ?_⟩
    · simp; omega
    · simpa using hb.hi
    · simp only [Ok.prependExpected_consumed, hb.consumed, ha.consumed, Ok.prependExpected_pos]
      rw [Bool.eq_iff_iff]; simp; omega
    · simpa using ha.ctx.trans hb.ctx
  | recovered rb =>
    refine ⟨?_, hb.minPrio, ?_⟩
    · intro hr
      simp only [Recovered.prependExpected, Bool.or_eq_true]
      by_cases hc : ra.consumed = true
      · exact .inr hc
      · left; apply hb.consumed; simp [hc, hr]
    · simp only [Recovered.prependExpected, List.mem_map]
      rintro _ ⟨p, hp, rfl⟩
      have h := hb.reps p hp
      have h1 := h.lo
      refine ⟨?_, h.hi, ?_, ha.ctx.trans h.ctx, ?_, ?_, size_prepend h.size, h.prio⟩
      · simp only [Repair.prependExpected]; omega
      · intro hr
        simp only [Repair.prependExpected]
        by_cases hc : ra.consumed = true
        · have := ha.consumed; rw [hc] at this; simp at this; omega
        · have := h.lt (by simp [hc, hr]); omega
      · simpa [Repair.prependExpected] using h.ops
      · simpa [Repair.prependExpected] using h.cost

/-- A repair followed by anything. -/
theorem RepFrame.contOne {s : List τ} {pos ctx rem} {ins : Int} {r : Repair τ α}
    {rb : Result τ β} {merge : α → β → γ} {rem' : Option Int} (ha : RepFrame s pos ctx rem r)
    (hb : ResFrame s r.pos r.ctx rem' rb) : ∀ p ∈ contOne ins merge r rb,
      RepFrame s pos ctx rem p := by
  have hlo := ha.lo
  cases rb with
  | error e => simp [Reparsec.contOne]
  | ok rb =>
    have h1 := hb.lo
    simp only [Reparsec.contOne, List.mem_singleton]
    rintro _ rfl
    exact ⟨by simp only; omega, hb.hi, fun h => by have := ha.lt h; simp only; omega,
      ha.ctx.trans hb.ctx, ha.ops, ha.cost, ha.size, ha.prio⟩
  | recovered rb =>
    simp only [Reparsec.contOne, List.mem_map]
    rintro _ ⟨rr, hr, rfl⟩
    have h := hb.reps rr hr
    have h1 := h.lo
    refine ⟨by simp only; omega, h.hi, fun h' => by have := ha.lt h'; simp only; omega,
      ha.ctx.trans h.ctx, ?_, ?_, ?_, ha.prio⟩
    · simp [joinOps, ha.ops]
    · simp [joinOps, ha.cost, h.cost]
    · simp only [joinOps, List.mem_append]
      rintro i (hi | hi)
      · exact ha.size i hi
      · exact size_prepend h.size i hi

theorem continueParse_frame {s : List τ} {pos ctx rem} {ra : Recovered τ α} {ins : Int}
    {k : α → Nat → Ctx τ → Int → Out (Result τ β)} {merge : α → β → γ} {res : Result τ γ}
    (ha : RecFrame s pos ctx rem ra)
    (hk : ∀ r ∈ ra.repairs, ∀ rb, k r.value r.pos r.ctx r.ins = .ret rb →
      ∃ rem', ResFrame s r.pos r.ctx rem' rb)
    (h : continueParse ra ins k merge = .ret res) : ResFrame s pos ctx rem res := by
  obtain ⟨reps, h1, rfl⟩ := continueParse_ret h
  refine ⟨ha.consumed, ha.minPrio, ?_⟩
  intro p hp
  obtain ⟨r, hr, rb, h2, h3⟩ := mem_contReps h1 hp
  obtain ⟨rem', h4⟩ := hk r hr rb h2
  exact (ha.reps r hr).contOne h4 p h3

theorem repairsFmapM_mem {fn : α → Except Exn β} {l : List (Repair τ α)}
    {l' : List (Repair τ β)} (h : repairsFmapM fn l = .ret l') {p : Repair τ β} (hp : p ∈ l') :
    ∃ r ∈ l, ∃ v, fn r.value = .ok v ∧
      p = { cost := r.cost, prio := r.prio, ins := r.ins, ops := r.ops, value := v, pos := r.pos,
            ctx := r.ctx, expected := r.expected, consumed := r.consumed } := by
  induction l generalizing l' with
  | nil => simp [repairsFmapM] at h; subst h; simp at hp
  | cons r rs ih =>
    simp only [repairsFmapM, Repair.fmapM, Out.bind_def, Out.bind_eq_ret, Out.pure_def,
      Out.ret.injEq, Out.ofExcept_eq_ret] at h
    obtain ⟨r', ⟨v, hv, rfl⟩, rs', h2, rfl⟩ := h
    rcases List.mem_cons.1 hp with rfl | hp
    · exact ⟨r, List.mem_cons_self, v, hv, rfl⟩
    · obtain ⟨r0, hm, x⟩ := ih h2 hp
      exact ⟨r0, List.mem_cons_of_mem _ hm, x⟩

theorem Result.fmapM_ret {fn : α → Except Exn β} {r : Result τ α} {r' : Result τ β}
    (h : r.fmapM fn = .ret r') :
    (∃ o v, r = .ok o ∧ fn o.value = .ok v ∧
      r' = .ok ⟨v, o.pos, o.ctx, o.expected, o.consumed⟩) ∨
    (∃ e, r = .error e ∧ r' = .error e) ∨
    (∃ rr reps, r = .recovered rr ∧ repairsFmapM fn rr.repairs = .ret reps ∧
      r' = .recovered ⟨reps, rr.minPrio, rr.loc, rr.expected, rr.consumed⟩) := by
  cases r with
  | ok r =>
    simp only [Result.fmapM, Ok.fmapM, Out.bind_def, Out.bind_eq_ret, Out.pure_def,
      Out.ret.injEq, Out.ofExcept_eq_ret] at h
    obtain ⟨_, ⟨v, hv, rfl⟩, rfl⟩ := h
    exact .inl ⟨r, v, rfl, hv, rfl⟩
  | error e =>
    simp only [Result.fmapM, Out.ret.injEq] at h
    exact .inr (.inl ⟨e, rfl, h.symm⟩)
  | recovered r =>
    simp only [Result.fmapM, Out.bind_def, Out.bind_eq_ret, Out.pure_def, Out.ret.injEq] at h
    obtain ⟨reps, h1, rfl⟩ := h
    exact .inr (.inr ⟨r, reps, rfl, h1, rfl⟩)

theorem RecFrame.fmapM {s : List τ} {pos ctx rem} {rr : Recovered τ α} {reps : List (Repair τ β)}
    {fn : α → Except Exn β} (h : RecFrame s pos ctx rem rr)
    (hr : repairsFmapM fn rr.repairs = .ret reps) :
    RecFrame s pos ctx rem (⟨reps, rr.minPrio, rr.loc, rr.expected, rr.consumed⟩ :
      Recovered τ β) := by
  refine ⟨h.consumed, h.minPrio, ?_⟩
  intro p hp
  obtain ⟨r, hm, v, _, rfl⟩ := repairsFmapM_mem hr hp
  have := h.reps r hm
  exact ⟨this.lo, this.hi, this.lt, this.ctx, this.ops, this.cost, this.size, this.prio⟩

theorem framed_fmap {f : ParseFns τ α} (fn : α → Except Exn β) (h : Framed f) :
    Framed (fmapFns f fn) := by
  intro s pos ctx ins rem r hp hr
  simp only [fmapFns, fmapFn, Out.bind_def, Out.bind_eq_ret] at hr
  obtain ⟨x, h1, h2⟩ := hr
  have hx := h s pos ctx ins rem x hp h1
  rcases Result.fmapM_ret h2 with ⟨o, v, rfl, _, rfl⟩ | ⟨e, rfl, rfl⟩ | ⟨rr, reps, rfl, h3, rfl⟩
  · exact ⟨hx.lo, hx.hi, hx.consumed, hx.ctx⟩
  · trivial
  · exact RecFrame.fmapM hx h3

/-- Inversion of `altRecover` in recovery mode. -/
theorem altRecover_ret {f g : ParseFns τ α} {s pos ctx ins rem loc ex} {r : Result τ α}
    (h : altRecover f g s pos ctx ins (some rem) loc ex = .ret r) :
    (∃ ra rb, f.fn s pos ctx ins (some rem) = .ret (.recovered ra) ∧
      g.fn s pos ctx ins (some rem) = .ret (.recovered rb) ∧
      r = .recovered ((joinRepairs ra rb).setExpected ex)) ∨
    (∃ ra x, f.fn s pos ctx ins (some rem) = .ret (.recovered ra) ∧
      g.fn s pos ctx ins (some rem) = .ret x ∧ (∀ y, x ≠ .recovered y) ∧
      r = .recovered (ra.setExpected ex)) ∨
    (∃ x rb, f.fn s pos ctx ins (some rem) = .ret x ∧ (∀ y, x ≠ .recovered y) ∧
      g.fn s pos ctx ins (some rem) = .ret (.recovered rb) ∧
      r = .recovered (rb.setExpected ex)) ∨
    (∃ x y, f.fn s pos ctx ins (some rem) = .ret x ∧ (∀ y, x ≠ .recovered y) ∧
      g.fn s pos ctx ins (some rem) = .ret y ∧ (∀ z, y ≠ .recovered z) ∧
      r = .error { loc := loc, expected := ex }) := by
  simp only [altRecover, Out.bind_def, Out.bind_eq_ret] at h
  obtain ⟨x, h1, y, h2, h3⟩ := h
  cases x with
  | recovered ra =>
    cases y with
    | recovered rb => simp at h3; exact .inl ⟨ra, rb, h1, h2, h3.symm⟩
    | _ => simp at h3; exact .inr (.inl ⟨ra, _, h1, h2, by simp, h3.symm⟩)
  | _ =>
    cases y with
    | recovered rb => simp at h3; exact .inr (.inr (.inl ⟨_, rb, h1, by simp, h2, h3.symm⟩))
    | _ => simp at h3; exact .inr (.inr (.inr ⟨_, _, h1, by simp, h2, by simp, h3.symm⟩))

theorem mem_joinReps {ra rb : Recovered τ α} {p : Repair τ α} (h : p ∈ joinReps ra rb) :
    p ∈ ra.repairs ∨ p ∈ rb.repairs := by
  unfold joinReps at h
  split at h
  all_goals
    rcases List.mem_append.1 h with h | h
    · exact .inl h
    · exact .inr (List.mem_filter.1 h).1

@[simp] theorem joinRepairs_repairs (ra rb : Recovered τ α) :
    (joinRepairs ra rb).repairs = joinReps ra rb := by
  unfold joinRepairs; split <;> (try split) <;> rfl

@[simp] theorem joinRepairs_minPrio (ra rb : Recovered τ α) :
    (joinRepairs ra rb).minPrio = joinMinPrio ra rb := by
  unfold joinRepairs; split <;> (try split) <;> rfl

@[simp] theorem joinRepairs_consumed (ra rb : Recovered τ α) :
    (joinRepairs ra rb).consumed = (ra.consumed || rb.consumed) := by
  unfold joinRepairs; split <;> (try split) <;> simp_all

theorem RecFrame.join {s : List τ} {pos ctx rem} {ra rb : Recovered τ α}
    (ha : RecFrame s pos ctx rem ra) (hb : RecFrame s pos ctx rem rb) :
    RecFrame s pos ctx rem (joinRepairs ra rb) := by
  refine ⟨?_, ?_, ?_⟩
  · intro h; simp [ha.consumed h]
  · intro m hm
    simp only [joinRepairs_minPrio, joinMinPrio] at hm
    split at hm
    · next m1 h1 =>
      split at hm
      · next m2 h2 =>
        split at hm
        · simp at hm; subst hm; exact hb.minPrio _ h2
        · simp at hm; subst hm; exact ha.minPrio _ h1
      · simp at hm; subst hm; exact ha.minPrio _ h1
    · exact hb.minPrio _ hm
  · intro p hp
    simp only [joinRepairs_repairs] at hp
    rcases mem_joinReps hp with h | h
    · exact ha.reps p h
    · exact hb.reps p h

/-- Inversion of `_alt`. -/
theorem altFn_ret {f g : ParseFns τ α} {s pos ctx ins rem} {r : Result τ α}
    (h : altFn f g s pos ctx ins rem = .ret r) :
    (f.fn s pos ctx ins none = .ret r ∧ ((∃ o, r = .ok o) ∨ r.consumed = true)) ∨
    (∃ x, f.fn s pos ctx ins none = .ret x ∧ (∀ o, x ≠ .ok o) ∧ x.consumed = false ∧
      ((g.fn s pos ctx ins none = .ret r ∧ r.consumed = true) ∨
       (∃ o, g.fn s pos ctx ins none = .ret (.ok o) ∧ o.consumed = false ∧
          r = .ok (o.setExpected (x.expected ++ o.expected))) ∨
       (∃ y loc, g.fn s pos ctx ins none = .ret y ∧ (∀ o, y ≠ .ok o) ∧ y.consumed = false ∧
          altRecover f g s pos ctx ins rem loc (x.expected ++ y.expected) = .ret r))) := by
  have second : ∀ loc ex, altSecond f g s pos ctx ins rem loc ex = .ret r →
      ((g.fn s pos ctx ins none = .ret r ∧ r.consumed = true) ∨
       (∃ o, g.fn s pos ctx ins none = .ret (.ok o) ∧ o.consumed = false ∧
          r = .ok (o.setExpected (ex ++ o.expected))) ∨
       (∃ y loc, g.fn s pos ctx ins none = .ret y ∧ (∀ o, y ≠ .ok o) ∧ y.consumed = false ∧
          altRecover f g s pos ctx ins rem loc (ex ++ y.expected) = .ret r)) := by
    intro loc ex h
    simp only [altSecond, Out.bind_def, Out.bind_eq_ret] at h
    obtain ⟨y, h1, h2⟩ := h
    cases y with
    | ok o =>
      simp only at h2
      split at h2
      · next hc => simp at h2; subst h2; exact .inl ⟨h1, hc⟩
      · next hc => simp at h2; subst h2; exact .inr (.inl ⟨o, h1, by simpa using hc, rfl⟩)
    | error e =>
      simp only at h2
      split at h2
      · next hc => simp at h2; subst h2; exact .inl ⟨h1, hc⟩
      · next hc => exact .inr (.inr ⟨_, _, h1, by simp, by simpa [Result.consumed] using hc, h2⟩)
    | recovered e =>
      simp only at h2
      split at h2
      · next hc => simp at h2; subst h2; exact .inl ⟨h1, hc⟩
      · next hc => exact .inr (.inr ⟨_, _, h1, by simp, by simpa [Result.consumed] using hc, h2⟩)
  simp only [altFn, Out.bind_def, Out.bind_eq_ret] at h
  obtain ⟨x, h1, h2⟩ := h
  cases x with
  | ok o => simp at h2; subst h2; exact .inl ⟨h1, .inl ⟨o, rfl⟩⟩
  | error e =>
    simp only at h2
    split at h2
    · next hc => simp at h2; subst h2; exact .inl ⟨h1, .inr hc⟩
    · next hc => exact .inr ⟨_, h1, by simp, by simpa [Result.consumed] using hc, second _ _ h2⟩
  | recovered e =>
    simp only at h2
    split at h2
    · next hc => simp at h2; subst h2; exact .inl ⟨h1, .inr hc⟩
    · next hc => exact .inr ⟨_, h1, by simp, by simpa [Result.consumed] using hc, second _ _ h2⟩

theorem RepFrame.weaken {s : List τ} {pos ctx rem} {r : Repair τ α}
    (h : RepFrame s pos ctx none r) : RepFrame s pos ctx rem r :=
  ⟨h.lo, h.hi, fun _ => h.lt rfl, h.ctx, h.ops, h.cost, h.size, h.prio⟩

theorem ResFrame.weaken {s : List τ} {pos ctx rem} {r : Result τ α}
    (h : ResFrame s pos ctx none r) : ResFrame s pos ctx rem r := by
  cases r with
  | ok r => exact h
  | error e => trivial
  | recovered r => exact ⟨fun _ => h.consumed rfl, h.minPrio, fun p hp => (h.reps p hp).weaken⟩

theorem framed_alt {f g : ParseFns τ α} (hf : Framed f) (hg : Framed g) :
    Framed (altFns f g) := by
  intro s pos ctx ins rem r hp hr
  rcases altFn_ret hr with ⟨h1, _⟩ | ⟨x, _, _, _, ⟨h1, _⟩ | ⟨o, h1, _, rfl⟩ |
    ⟨y, loc, _, _, _, h2⟩⟩
  · exact (hf s pos ctx ins none r hp h1).weaken
  · exact (hg s pos ctx ins none r hp h1).weaken
  · have := (hg s pos ctx ins none _ hp h1)
    exact ResFrame.setExpected (r := .ok o) this _
  · cases rem with
    | none => simp only [altRecover, Out.ret.injEq] at h2; subst h2; trivial
    | some rem =>
      rcases altRecover_ret h2 with ⟨ra, rb, h3, h4, rfl⟩ | ⟨ra, _, h3, _, _, rfl⟩ |
        ⟨_, rb, _, _, h4, rfl⟩ | ⟨_, _, _, _, _, _, rfl⟩
      · have ha : RecFrame .. := hf s pos ctx ins _ _ hp h3
        have hb : RecFrame .. := hg s pos ctx ins _ _ hp h4
        exact (ha.join hb).setExpected _
      · exact RecFrame.setExpected (hf s pos ctx ins _ _ hp h3) _
      · exact RecFrame.setExpected (hg s pos ctx ins _ _ hp h4) _
      · trivial

/-- Inversion of `_bind`. -/
theorem bindFn_ret {f : ParseFns τ α} {g : α → ParseFns τ β} {s pos ctx ins rem} {r : Result τ β}
    (h : bindFn f g s pos ctx ins rem = .ret r) :
    (∃ e, f.fn s pos ctx ins rem = .ret (.error e) ∧ r = .error e) ∨
    (∃ ra, f.fn s pos ctx ins rem = .ret (.recovered ra) ∧
      continueParse ra ins (fun v p c r => (g v).fn s p c ins (some r)) (fun _ v => v) = .ret r) ∨
    (∃ ra rb, f.fn s pos ctx ins rem = .ret (.ok ra) ∧
      (g ra.value).fn s ra.pos ra.ctx ins (if ra.consumed then some ins else rem) = .ret rb ∧
      r = rb.prependExpected ra.expected ra.consumed) := by
  simp only [bindFn, Out.bind_def, Out.bind_eq_ret] at h
  obtain ⟨x, h1, h2⟩ := h
  cases x with
  | error e => simp at h2; exact .inl ⟨e, h1, h2.symm⟩
  | recovered ra => exact .inr (.inl ⟨ra, h1, h2⟩)
  | ok ra =>
    refine .inr (.inr ⟨ra, ?_⟩)
    cases hc : ra.consumed <;> simp only [hc, Bool.false_eq_true, if_true, if_false,
      Out.bind_eq_ret, Out.pure_def, Out.ret.injEq] at h2 ⊢
    all_goals
      obtain ⟨rb, h3, rfl⟩ := h2
      exact ⟨rb, h1, h3, rfl⟩

theorem framed_bind {f : ParseFns τ α} {g : α → ParseFns τ β} (hf : Framed f)
    (hg : ∀ a, Framed (g a)) : Framed (bindFns f g) := by
  intro s pos ctx ins rem r hp hr
  rcases bindFn_ret hr with ⟨e, _, rfl⟩ | ⟨ra, h1, h2⟩ | ⟨ra, rb, h1, h2, rfl⟩
  · trivial
  · have ha : RecFrame .. := hf s pos ctx ins rem _ hp h1
    refine continueParse_frame ha ?_ h2
    intro r' hr' rb hb
    exact ⟨_, hg _ _ _ _ _ _ _ (ha.reps r' hr').hi hb⟩
  · have ha : OkFrame .. := hf s pos ctx ins rem _ hp h1
    exact ResFrame.prepend ha (hg _ _ _ _ _ _ _ ha.hi h2)

theorem framed_manyLoop {f : ParseFns τ α} (hf : Framed f) (s : List τ) (ins : Int) (fuel : Nat) :
    ∀ pos0 ctx0 pos ctx c v r rem, pos0 ≤ pos → pos ≤ s.length → c = decide (pos0 < pos) →
      CtxFrame ctx0 ctx → manyLoop f.fn s ins fuel pos ctx c v = .ret r →
      ResFrame s pos0 ctx0 rem r := by
  induction fuel with
  | zero => intro _ _ _ _ _ _ _ _ _ _ _ _ h; simp [manyLoop] at h
  | succ n ih =>
    intro pos0 ctx0 pos ctx c v r rem h0 h1 hc hctx h
    simp only [manyLoop, Out.bind_def, Out.bind_eq_ret] at h
    obtain ⟨x, h2, h3⟩ := h
    have hx := hf s pos ctx ins none x h1 h2
    cases x with
    | ok o =>
      have hx : OkFrame .. := hx
      have := hx.lo
      simp only at h3
      split at h3
      · next hco =>
        have hlt := hx.consumed
        rw [hco] at hlt
        simp at hlt
        exact ih pos0 ctx0 o.pos o.ctx true _ r rem (by omega) hx.hi (by simp; omega)
          (hctx.trans hx.ctx) h3
      · simp at h3
    | error e =>
      simp only at h3
      split at h3
      · simp at h3; subst h3; trivial
      · simp at h3; subst h3; exact ⟨h0, h1, hc, hctx⟩
    | recovered rr =>
      have hx : RecFrame .. := hx
      have hrec : RecFrame s pos0 ctx0 rem rr := by
        refine ⟨fun _ => hx.consumed rfl, hx.minPrio, fun p hp => ?_⟩
        have h := hx.reps p hp
        have h4 := h.lt rfl
        exact ⟨by omega, h.hi, fun _ => by omega, hctx.trans h.ctx, h.ops, h.cost, h.size, h.prio⟩
      refine continueParse_frame hrec ?_ h3
      intro r' hr' rb hb
      exact ⟨rem, ih r'.pos r'.ctx r'.pos r'.ctx false [] rb rem (Nat.le_refl _)
        (hrec.reps r' hr').hi (by simp) (CtxFrame.refl _) hb⟩

theorem framed_recoverWithFn {f : ParseFns τ α} (fn : List τ → Nat → Except Exn α)
    (lbl : α → String) (hf : Framed f) : Framed (recoverWithFnFns f fn lbl) := by
  intro s pos ctx ins rem r hp hr
  cases rem with
  | none => exact hf s pos ctx ins none r hp hr
  | some rem =>
    simp only [recoverWithFnFns, recoverWithFnFn, Out.bind_def, Out.bind_eq_ret] at hr
    obtain ⟨x, h1, h2⟩ := hr
    have hx := hf s pos ctx ins _ x hp h1
    have hins : ∀ (v : α) (loc : Loc) (l : String) (e : List String),
        RepFrame s pos ctx (some rem) (makeUserInsert rem v pos ctx loc l e) := by
      intro v loc l e
      exact ⟨Nat.le_refl _, hp, by simp, CtxFrame.refl _, by simp [makeUserInsert],
        by simp [makeUserInsert, opsSize, RepairOp.size], by simp [makeUserInsert, RepairOp.size],
        by simp [makeUserInsert]⟩
    cases x with
    | ok o => simp at h2; subst h2; exact hx
    | error e =>
      simp only at h2
      split at h2
      · simp at h2; subst h2; trivial
      · split at h2
        · obtain ⟨v, _, h3⟩ := Out.bind_eq_ret.1 h2
          simp at h3; subst h3
          exact ⟨by simp, by simp, by simpa using hins v _ _ _⟩
        · simp at h2; subst h2; trivial
    | recovered rr =>
      have hx : RecFrame .. := hx
      simp only at h2
      split at h2
      · simp at h2; subst h2; exact hx
      · split at h2
        · obtain ⟨v, _, h3⟩ := Out.bind_eq_ret.1 h2
          simp at h3; subst h3
          refine ⟨by simp, hx.minPrio, ?_⟩
          intro p hp'
          rcases List.mem_cons.1 hp' with rfl | hp'
          · exact hins v _ _ _
          · exact hx.reps p hp'
        · simp at h2; subst h2; exact hx

theorem ResFrame.setCtx {s : List τ} {pos ctx c1 c2 rem} {r : Result τ α}
    (h : ResFrame s pos c1 rem r) (hc : CtxFrame ctx c2) :
    ResFrame s pos ctx rem (r.setCtx c2) := by
  cases r with
  | ok r => exact ⟨h.lo, h.hi, h.consumed, hc⟩
  | error e => trivial
  | recovered r =>
    refine ⟨h.consumed, h.minPrio, ?_⟩
    simp only [List.mem_map]
    rintro _ ⟨p, hp, rfl⟩
    have := h.reps p hp
    exact ⟨this.lo, this.hi, this.lt, hc, this.ops, this.cost, this.size, this.prio⟩

theorem framed_recover {f : ParseFns τ α} (hf : Framed f) : Framed (recoverFns f) := by
  intro s pos ctx ins rem r hp hr
  simp only [recoverFns, recoverFn, Out.bind_def, Out.bind_eq_ret] at hr
  obtain ⟨x, h1, h2⟩ := hr
  have hx := hf s pos ctx ins _ x hp h1
  cases x with
  | ok o => simp at h2; subst h2; exact hx
  | error e => simp at h2; subst h2; trivial
  | recovered rr =>
    simp at h2; subst h2
    have hx : RecFrame .. := hx
    refine ⟨hx.consumed, hx.minPrio, ?_⟩
    simp only [List.mem_map]
    rintro _ ⟨p, hp, rfl⟩
    have := hx.reps p hp
    refine ⟨this.lo, this.hi, this.lt, this.ctx, this.ops, this.cost, this.size, ?_⟩
    simp only [Repair.promote]
    rcases this.prio with h | h <;> simp [h]

theorem RepFrame.insert {s : List τ} {pos : Nat} (hp : pos ≤ s.length) (ctx : Ctx τ) (rem r : Int)
    (v : α) (loc : Loc) (l : String) (e : List String) :
    RepFrame s pos ctx (some r) (makeInsert rem v pos ctx loc l e) :=
  ⟨Nat.le_refl _, hp, by simp, CtxFrame.refl _, by simp [makeInsert],
    by simp [makeInsert, opsSize, RepairOp.size], by simp [makeInsert, RepairOp.size],
    by simp [makeInsert]⟩

theorem RepFrame.skip {s : List τ} {pos cur stop : Nat} (h1 : pos < cur) (h2 : cur ≤ stop)
    (h3 : stop ≤ s.length) (ctx : Ctx τ) (ins r : Int)
    (v : α) (loc : Loc) (e : List String) :
    RepFrame s pos ctx (some r)
      (makeSkip ins v stop (ctx.updateLoc s stop) loc (cur - pos) e) :=
  ⟨by simp only [makeSkip]; omega, h3, by simp, CtxFrame.updateLoc _ _ _, by simp [makeSkip],
    by simp [makeSkip, opsSize, RepairOp.size], by simp [makeSkip, RepairOp.size]; omega,
    by simp [makeSkip]⟩

theorem framed_fast {f : ParseFns τ α} (hs : Sim f) (hf : Framed f) {s pos ctx o}
    (hp : pos ≤ s.length) (h : f.fast s pos ctx = .ret (.ok o)) : OkFrame s pos ctx o :=
  hf s pos ctx 0 none _ hp (hs.ok h 0 none)

theorem frame_closed [BEq τ] : ClosedF τ (fun {_} f => Sim f ∧ Framed f) where
  pureFn x := ⟨sim_closed.pureFn x, by
    intro s pos ctx ins rem r hp hr
    cases x with
    | error e => simp [pureFnFns] at hr
    | ok v =>
      simp [pureFnFns] at hr; subst hr
      exact ⟨Nat.le_refl _, hp, by simp, CtxFrame.refl _⟩⟩
  unexpected x := ⟨sim_closed.unexpected x, by
    intro s pos ctx ins rem r hp hr
    simp [unexpectedFns] at hr; subst hr; trivial⟩
  eof := ⟨sim_closed.eof, by
    intro s pos ctx ins rem r hp hr
    simp only [eofFns, eofFn] at hr
    split at hr
    · simp at hr; subst hr; exact ⟨Nat.le_refl _, hp, by simp, CtxFrame.refl _⟩
    · next hne =>
      split at hr
      · simp at hr; subst hr; trivial
      · simp at hr; subst hr
        refine ⟨by simp, by simp, ?_⟩
        simp only [List.mem_singleton]
        rintro _ rfl
        exact ⟨hp, Nat.le_refl _, by simp, CtxFrame.refl _, by simp [makePendingSkip],
          by simp [makePendingSkip, opsSize, RepairOp.size],
          by simp [makePendingSkip, RepairOp.size]; omega, by simp [makePendingSkip]⟩⟩
  satisfy test := ⟨sim_closed.satisfy test, by
    intro s pos ctx ins rem r hp hr
    simp only [satisfyFns, satisfyFn, Out.bind_def, Out.bind_eq_ret, Out.ofExcept_eq_ret] at hr
    obtain ⟨x, h1, h2⟩ := hr
    cases x with
    | some t =>
      have := testAt_lt h1
      simp at h2; subst h2
      exact ⟨by simp, by simp only; omega, by simp, CtxFrame.refl _⟩
    | none =>
      cases rem with
      | none => simp at h2; subst h2; trivial
      | some rem =>
        simp only [Out.bind_eq_ret, Out.ofExcept_eq_ret] at h2
        obtain ⟨y, h3, h4⟩ := h2
        cases y with
        | none => simp at h4; subst h4; trivial
        | some y =>
          obtain ⟨cur, t⟩ := y
          obtain ⟨h5, h6, h7, _⟩ := scan_some h3
          simp at h4; subst h4
          refine ⟨by simp, by simp; omega, ?_⟩
          simp only [List.mem_singleton]
          rintro _ rfl
          exact RepFrame.skip (by omega) (by omega) (by omega) ..⟩
  sym x l := ⟨sim_closed.sym x l, by
    intro s pos ctx ins rem r hp hr
    simp only [symFns, symFn] at hr
    split at hr
    · next t ht =>
      have := symAt_lt ht
      simp at hr; subst hr
      exact ⟨by simp, by simp only; omega, by simp, CtxFrame.refl _⟩
    · split at hr
      · simp at hr; subst hr; trivial
      · next rem =>
        simp only [Out.bind_def, Out.bind_eq_ret, Out.ofExcept_eq_ret] at hr
        obtain ⟨y, h3, h4⟩ := hr
        have hreps : ∀ p ∈ (if rem ≠ 0 then
            [makeInsert rem x pos ctx (ctx.getLoc s pos) l [l]] else []),
            RepFrame s pos ctx (some rem) p := by
          split
          · simp only [List.mem_singleton]; rintro _ rfl; exact RepFrame.insert hp ..
          · simp
        cases y with
        | none => simp only [Out.ret.injEq] at h4; subst h4; exact ⟨by simp, by simp, hreps⟩
        | some y =>
          obtain ⟨cur, t⟩ := y
          obtain ⟨h5, h6, h7, _⟩ := scan_some h3
          simp only [Out.ret.injEq] at h4; subst h4
          refine ⟨by simp, by simp; omega, ?_⟩
          intro p hm
          rcases List.mem_append.1 hm with hm | hm
          · exact hreps p hm
          · simp only [List.mem_singleton] at hm; subst hm
            exact RepFrame.skip (by omega) (by omega) (by omega) ..⟩
  literal x ss hx := ⟨sim_closed.literal x ss hx, by
    intro s pos ctx ins rem r hp hr
    have hlen : 0 < x.length := List.length_pos_iff.2 hx
    simp only [literalFns, literalFn] at hr
    split at hr
    · next ht =>
      have := startsWith_le hx ht
      simp at hr; subst hr
      exact ⟨by simp, by simp only; omega, by simp; omega, CtxFrame.updateLoc ..⟩
    · split at hr
      · simp at hr; subst hr; trivial
      · next rem =>
        simp only [Out.bind_def, Out.bind_eq_ret, Out.ofExcept_eq_ret] at hr
        obtain ⟨y, h3, h4⟩ := hr
        have hreps : ∀ p ∈ (if rem ≠ 0 then
            [makeInsert rem x pos ctx (ctx.getLoc s pos) ss [ss]] else []),
            RepFrame s pos ctx (some rem) p := by
          split
          · simp only [List.mem_singleton]; rintro _ rfl; exact RepFrame.insert hp ..
          · simp
        cases y with
        | none => simp only [Out.ret.injEq] at h4; subst h4; exact ⟨by simp, by simp, hreps⟩
        | some y =>
          obtain ⟨cur, t⟩ := y
          obtain ⟨h5, h6, h7, _⟩ := scan_some h3
          simp only [Out.ret.injEq] at h4; subst h4
          have hsw : startsWith x s cur = true := by
            by_cases h : startsWith x s cur = true
            · exact h
            · simp [h] at h7
          have := startsWith_le hx hsw
          refine ⟨by simp, by simp; omega, ?_⟩
          intro p hm
          rcases List.mem_append.1 hm with hm | hm
          · exact hreps p hm
          · simp only [List.mem_singleton] at hm; subst hm
            exact RepFrame.skip (by omega) (by omega) (by omega) ..⟩
  regexp m := ⟨sim_closed.regexp m, by
    intro s pos ctx ins rem r hp hr
    simp only [regexpFns, regexpFn, Out.bind_def, Out.bind_eq_ret, Out.ofExcept_eq_ret] at hr
    obtain ⟨x, h1, h2⟩ := hr
    cases x with
    | some t =>
      obtain ⟨e, v⟩ := t
      obtain ⟨h3, h4⟩ := m.at_bounds hp h1
      simp at h2; subst h2
      refine ⟨h3, h4, ?_, CtxFrame.updateLoc ..⟩
      simp only
      rw [Bool.eq_iff_iff]; simp; omega
    | none =>
      cases rem with
      | none => simp at h2; subst h2; trivial
      | some rem =>
        simp only [Out.bind_eq_ret, Out.ofExcept_eq_ret] at h2
        obtain ⟨y, h3, h4⟩ := h2
        cases y with
        | none => simp at h4; subst h4; trivial
        | some y =>
          obtain ⟨cur, e, v⟩ := y
          obtain ⟨h5, h6, h7, _⟩ := scan_some h3
          obtain ⟨h8, h9⟩ := m.at_bounds (by omega) h7
          simp at h4; subst h4
          refine ⟨by simp, by simp; omega, ?_⟩
          simp only [List.mem_singleton]
          rintro _ rfl
          exact RepFrame.skip (by omega) (by omega) (by omega) ..⟩
  fmap f fn h := ⟨sim_fmap f fn h.1, framed_fmap fn h.2⟩
  alt f g hf hg := ⟨sim_alt f g hf.1 hg.1, framed_alt hf.2 hg.2⟩
  bind f g hf hg := ⟨sim_bind f g hf.1 fun a => (hg a).1, framed_bind hf.2 fun a => (hg a).2⟩
  many f fuel h := ⟨sim_closed.many f fuel h.1, by
    intro s pos ctx ins rem r hp hr
    exact framed_manyLoop h.2 s ins fuel pos ctx pos ctx false [] r rem (Nat.le_refl _) hp
      (by simp) (CtxFrame.refl _) hr⟩
  attempt f h := ⟨sim_attempt f h.1, by
    intro s pos ctx ins rem r hp hr
    cases rem with
    | some rem => exact h.2 s pos ctx ins _ r hp hr
    | none =>
      simp only [attemptFns, attemptFn, Out.bind_def, Out.bind_eq_ret] at hr
      obtain ⟨x, h1, h2⟩ := hr
      cases x with
      | ok o => simp at h2; subst h2; exact framed_fast h.1 h.2 hp h1
      | error e => simp at h2; subst h2; trivial⟩
  label f x h := ⟨sim_label f x h.1, by
    intro s pos ctx ins rem r hp hr
    simp only [labelFns, Out.bind_def, Out.bind_eq_ret, Out.pure_def, Out.ret.injEq] at hr
    obtain ⟨y, h1, rfl⟩ := hr
    exact (h.2 s pos ctx ins rem y hp h1).setExpected _⟩
  recover f h := ⟨sim_recover f h.1, framed_recover h.2⟩
  recoverWithFn f fn lbl h := ⟨sim_recoverWithFn f fn lbl h.1, framed_recoverWithFn fn lbl h.2⟩
  block f h := ⟨sim_closed.block f h.1, by
    intro s pos ctx ins rem r hp hr
    simp only [blockFns, Out.bind_def, Out.bind_eq_ret, Out.pure_def, Out.ret.injEq] at hr
    obtain ⟨y, h1, rfl⟩ := hr
    exact (h.2 s pos _ ins rem y hp h1).setCtx (CtxFrame.updateLoc ..)⟩
  aligned f h := ⟨sim_closed.aligned f h.1, by
    intro s pos ctx ins rem r hp hr
    simp only [alignedFns] at hr
    split at hr
    · have h1 := h.2 s pos _ ins rem r hp hr
      have hc := CtxFrame.updateLoc ctx s pos
      cases r with
      | ok r => exact ⟨h1.lo, h1.hi, h1.consumed, hc.trans h1.ctx⟩
      | error e => trivial
      | recovered r =>
        exact ⟨h1.consumed, h1.minPrio, fun p hp => by
          have := h1.reps p hp
          exact ⟨this.lo, this.hi, this.lt, hc.trans this.ctx, this.ops, this.cost, this.size,
            this.prio⟩⟩
    · simp at hr; subst hr; trivial⟩
  indented f d h := ⟨sim_closed.indented f d h.1, by
    intro s pos ctx ins rem r hp hr
    simp only [indentedFns] at hr
    split at hr
    · simp only [Out.bind_def, Out.bind_eq_ret, Out.pure_def, Out.ret.injEq] at hr
      obtain ⟨y, h1, rfl⟩ := hr
      exact (h.2 s pos _ ins rem y hp h1).setCtx (CtxFrame.updateLoc ..)
    · simp at hr; subst hr; trivial⟩
  diverge := ⟨sim_closed.diverge, by intro s pos ctx ins rem r hp hr; simp [divergeFns] at hr⟩
  undefined := ⟨sim_closed.undefined, by
    intro s pos ctx ins rem r hp hr; simp [undefinedFns] at hr⟩

variable {ρ : Type} {Γ : ρ → Type} [BEq τ]

/-- Every parser satisfies the frame invariant. -/
theorem frame_denote (env : Env τ ρ Γ) (fuel : Nat) (p : P τ ρ Γ α) :
    Framed (denote env fuel p) := (frame_closed.denote env fuel p).2

theorem frame_fast (env : Env τ ρ Γ) (fuel : Nat) (p : P τ ρ Γ α) {s pos ctx o}
    (hp : pos ≤ s.length) (h : (denote env fuel p).fast s pos ctx = .ret (.ok o)) :
    OkFrame s pos ctx o :=
  framed_fast (sim_denote env fuel p) (frame_denote env fuel p) hp h

end Reparsec
