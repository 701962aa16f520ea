import Verif.Lemmas.AppendDepth
import Verif.Spec.Stack

/-!
# Without `Delay` objects the depth is bounded by the parser
-/

namespace Reparsec.App

variable {τ α β γ : Type}

/-- All is marked as consumed in the repairs. -/
def Result.Solid : Result τ α → Prop
  | .ok _ => True
  | .error _ => True
  | .recovered r => ∀ x ∈ r.repairs, x.consumed = true ∧ ∀ i ∈ x.ops, i.consumed = true

/-- Without a budget, repairs come only after something was consumed. -/
def Solid (p : ParseFns τ α) : Prop := ∀ s pos ctx ins, Rets (p.fn s pos ctx ins none) Result.Solid

theorem Result.Solid.set {x : Exp} {r : Result τ α} (h : r.Solid) : (r.setExpected x).Solid := by
  cases r with
  | ok | error => trivial
  | recovered r =>
    intro y hy
    obtain ⟨z, hz, rfl⟩ := List.mem_map.1 hy
    refine ⟨(h z hz).1, fun i hi => ?_⟩
    obtain ⟨j, hj, rfl⟩ := List.mem_map.1 hi
    have := (h z hz).2 j hj
    simp only [OpItem.setExpected, this, if_true]

theorem Result.Solid.prepend {x : Exp} {c : Bool} {r : Result τ α} (h : r.Solid) : (r.prependExpected x c).Solid := by
  cases r with
  | ok | error => trivial
  | recovered r =>
    intro y hy
    obtain ⟨z, hz, rfl⟩ := List.mem_map.1 hy
    refine ⟨by simp only [Repair.prependExpected, (h z hz).1, Bool.true_or], fun i hi => ?_⟩
    obtain ⟨j, hj, rfl⟩ := List.mem_map.1 hi
    have := (h z hz).2 j hj
    simp only [OpItem.prependExpected, this, if_true]

theorem Result.solid_prepend {x : Exp} (r : Result τ α) : (r.prependExpected x true).Solid := by
  cases r with
  | ok | error => trivial
  | recovered r =>
    intro y hy
    obtain ⟨z, hz, rfl⟩ := List.mem_map.1 hy
    refine ⟨by simp only [Repair.prependExpected, Bool.or_true], fun i hi => ?_⟩
    obtain ⟨j, hj, rfl⟩ := List.mem_map.1 hi
    simp only [OpItem.prependExpected]
    split
    · assumption
    · simp only [Bool.or_true]

theorem Result.Solid.setCtx {c : Ctx τ} {r : Result τ α} (h : r.Solid) : (r.setCtx c).Solid := by
  cases r with
  | ok | error => trivial
  | recovered r =>
    intro y hy
    obtain ⟨z, hz, rfl⟩ := List.mem_map.1 hy
    exact h z hz

theorem Result.Solid.fmap {f : α → β} {r : Result τ α} (h : r.Solid) : (r.fmap f).Solid := by
  cases r with
  | ok | error => trivial
  | recovered r =>
    intro y hy
    obtain ⟨z, hz, rfl⟩ := List.mem_map.1 hy
    exact h z hz

theorem Result.Solid.fmapM {f : α → Except Exn β} {r : Result τ α} (h : r.Solid) : Rets (r.fmapM f) Result.Solid := by
  cases r with
  | error => exact .ret trivial
  | ok r =>
    simp only [Result.fmapM, Ok.fmapM]
    cases f r.value with
    | error => exact .raise
    | ok => exact .ret trivial
  | recovered r =>
    refine Rets.bind (Q := fun l : List (Repair τ _) => ∀ x ∈ l, x.consumed = true ∧ ∀ i ∈ x.ops, i.consumed = true) ?_
      fun l hl => .ret hl
    have h : ∀ x ∈ r.repairs, x.consumed = true ∧ ∀ i ∈ x.ops, i.consumed = true := h
    generalize r.repairs = l at h ⊢
    induction l with
    | nil => exact .ret fun x hx => by cases hx
    | cons r l ih =>
      simp only [repairsFmapM, Repair.fmapM]
      cases f r.value with
      | error => exact .raise
      | ok v =>
        refine (ih fun x hx => h x (List.mem_cons_of_mem _ hx)).bind fun l' hl' => .ret fun x hx => ?_
        rcases List.mem_cons.1 hx with rfl | hx
        · exact h r List.mem_cons_self
        · exact hl' x hx

theorem contOne_solid {ins : Int} {merge : α → β → γ} {r : Repair τ α} {rb : Result τ β} (hc : r.consumed = true)
    (ho : ∀ i ∈ r.ops, i.consumed = true) :
    ∀ x ∈ contOne ins merge r rb, x.consumed = true ∧ ∀ i ∈ x.ops, i.consumed = true := by
  intro x hx
  cases rb with
  | error => cases hx
  | ok rb =>
    cases List.mem_singleton.1 hx
    exact ⟨by simp only [hc, Bool.true_or], ho⟩
  | recovered rb =>
    obtain ⟨y, hy, rfl⟩ := List.mem_map.1 hx
    refine ⟨by simp only [hc, Bool.true_or], fun i hi => ?_⟩
    rcases List.mem_append.1 hi with hi | hi
    · exact ho i hi
    · obtain ⟨j, hj, rfl⟩ := List.mem_map.1 hi
      simp only [OpItem.prependExpected, hc]
      split
      · assumption
      · simp only [Bool.or_true]

theorem continueParse_solid {ra : Recovered τ α} {ins : Int} {f : α → Nat → Ctx τ → Int → Out (Result τ β)}
    {merge : α → β → γ} (hr : (Result.recovered ra).Solid) :
    Rets (continueParse ra ins f merge) Result.Solid := by
  refine Rets.bind (Q := fun l : List (Repair τ _) => ∀ x ∈ l, x.consumed = true ∧ ∀ i ∈ x.ops, i.consumed = true) ?_ fun l hl => .ret hl
  have hr : ∀ x ∈ ra.repairs, x.consumed = true ∧ ∀ i ∈ x.ops, i.consumed = true := hr
  generalize ra.repairs = l at hr ⊢
  induction l with
  | nil => exact .ret fun x hx => by cases hx
  | cons r l ih =>
    refine (Rets.any _).bind fun rb _ => (ih fun x hx => hr x (List.mem_cons_of_mem _ hx)).bind fun l' hl' =>
      .ret fun x hx => ?_
    rcases List.mem_append.1 hx with hx | hx
    · exact contOne_solid (hr r List.mem_cons_self).1 (hr r List.mem_cons_self).2 x hx
    · exact hl' x hx

/-- What carries on after a repair in `many`: successes are not nested deeper, and nothing is put before what was expected
in repairs. -/
def Result.Tail (n : Nat) : Result τ α → Prop
  | .ok r => r.expected.depth ≤ n
  | .error e => e.expected.depth ≤ n
  | .recovered r => (r.expected.depth ≤ n ∧ ∀ x ∈ r.repairs, x.Within (n + 1)) ∧
      ∀ x ∈ r.repairs, x.consumed = true ∧ ∀ i ∈ x.ops, i.consumed = true

theorem Result.Tail.within {n : Nat} {r : Result τ α} (h : r.Tail n) : r.Within (n + 1) := by
  cases r with
  | ok | error => exact Nat.le_succ_of_le h
  | recovered r => exact ⟨Nat.le_succ_of_le h.1.1, h.1.2⟩

theorem Result.Tail.solid {n : Nat} {r : Result τ α} (h : r.Tail n) : r.Solid := by
  cases r with
  | ok | error => trivial
  | recovered r => exact h.2

theorem contOne_tail {ins : Int} {merge : α → β → γ} {n : Nat} {r : Repair τ α} {rb : Result τ β} (hr : r.Within n)
    (hb : rb.Tail n) : ∀ x ∈ contOne ins merge r rb, x.Within (n + 1) := by
  have ha : ∀ (x : Exp) (c : Bool), x.depth ≤ n → (appendExpected r x c).depth ≤ n + 1 := by
    intro x c hx
    have := hr.1
    simp only [appendExpected]
    split
    · omega
    · simp only [Exp.depth_append]; omega
  intro x hx
  cases rb with
  | error => cases hx
  | ok rb =>
    cases List.mem_singleton.1 hx
    exact ⟨ha _ _ hb, fun i hi => Nat.le_succ_of_le (hr.2 i hi)⟩
  | recovered rb =>
    obtain ⟨y, hy, rfl⟩ := List.mem_map.1 hx
    have hw := hb.1.2 y hy
    have hc := hb.2 y hy
    refine ⟨?_, fun i hi => ?_⟩
    · simp only [appendExpected, hc.1, if_true]
      exact hw.1
    · rcases List.mem_append.1 hi with hi | hi
      · exact Nat.le_succ_of_le (hr.2 i hi)
      · obtain ⟨j, hj, rfl⟩ := List.mem_map.1 hi
        simp only [OpItem.prependExpected, hc.2 j hj, if_true]
        exact hw.2 j hj

theorem continueParse_tail {ra : Recovered τ α} {ins : Int} {f : α → Nat → Ctx τ → Int → Out (Result τ β)}
    {merge : α → β → γ} {n : Nat} (hr : (Result.recovered ra).Within n) (hs : (Result.recovered ra).Solid)
    (hf : ∀ v p c r, Rets (f v p c r) (Result.Tail n)) :
    Rets (continueParse ra ins f merge) (Result.Tail n) := by
  intro x hx
  have hsx := continueParse_solid hs x hx
  obtain ⟨l, hl, hx'⟩ := Out.bind_eq_ret.1 hx
  clear hx
  cases hx'
  refine ⟨⟨hr.1, ?_⟩, hsx⟩
  have hr : ∀ x ∈ ra.repairs, x.Within n := hr.2
  clear hsx hs
  simp only
  generalize ra.repairs = rs at hr hl
  induction rs generalizing l with
  | nil => cases hl; exact fun x hx => by cases hx
  | cons r rs ih =>
    obtain ⟨rb, h1, hl⟩ := Out.bind_eq_ret.1 hl
    obtain ⟨l', h2, hl⟩ := Out.bind_eq_ret.1 hl
    cases hl
    intro x hx
    rcases List.mem_append.1 hx with hx | hx
    · exact contOne_tail (hr r List.mem_cons_self) (hf _ _ _ _ rb h1) x hx
    · exact ih l' (fun x hx => hr x (List.mem_cons_of_mem _ hx)) h2 x hx

open Reparsec.Stk (Frames call)

namespace Stk

/-- Both, whatever the stack. -/
structure SBounded (n : Nat) (p : LFns τ α) : Prop where
  bd : ∀ d, Bounded n (p d)
  sd : ∀ d, Solid (p d)

theorem SBounded.mono {n m : Nat} (h : n ≤ m) {p : LFns τ α} (hp : SBounded n p) : SBounded m p :=
  ⟨fun d => (hp.bd d).mono h, hp.sd⟩

theorem call_any {ω : Type} {b : Frames → Out ω} {Q : ω → Prop} {d : Frames} (h : ∀ d, Rets (b d) Q) : Rets (call b d) Q := by
  cases d with
  | none => exact h none
  | some d =>
    cases d with
    | zero => exact .raise
    | succ d => exact h _

theorem SBounded.framed {n : Nat} {b : LFns τ α} (h : SBounded n b) : SBounded n (framed b) :=
  ⟨fun _ => ⟨fun s pos ctx => call_any (b := fun d => (b d).fast s pos ctx) fun d => (h.bd d).fast s pos ctx,
    fun s pos ctx ins rem => call_any (b := fun d => (b d).fn s pos ctx ins rem) fun d => (h.bd d).fn s pos ctx ins rem⟩,
   fun _ s pos ctx ins => call_any (b := fun d => (b d).fn s pos ctx ins none) fun d => h.sd d s pos ctx ins⟩

theorem SBounded.framedFn {n : Nat} {p b : LFns τ α} (hp : SBounded n p) (h : SBounded n b) : SBounded n (framedFn p b) :=
  ⟨fun d => ⟨(hp.bd d).fast,
    fun s pos ctx ins rem => call_any (b := fun d => (b d).fn s pos ctx ins rem) fun d => (h.bd d).fn s pos ctx ins rem⟩,
   fun _ s pos ctx ins => call_any (b := fun d => (b d).fn s pos ctx ins none) fun d => h.sd d s pos ctx ins⟩

theorem continueParse_any {n : Nat} {d : Frames} {ra : Recovered τ α} {ins : Int}
    {f : Frames → α → Nat → Ctx τ → Int → Out (Result τ β)} {merge : α → β → γ} (hr : (Result.recovered ra).Within n)
    (hf : ∀ d v p c r, Rets (f d v p c r) (Result.Within n)) :
    Rets (continueParse d ra ins f merge) (Result.Within (n + 1)) :=
  call_any fun _ => continueParse_within hr fun _ _ _ _ => call_any fun _ => hf _ _ _ _ _

theorem continueParse_any_solid {d : Frames} {ra : Recovered τ α} {ins : Int}
    {f : Frames → α → Nat → Ctx τ → Int → Out (Result τ β)} {merge : α → β → γ} (hs : (Result.recovered ra).Solid) :
    Rets (continueParse d ra ins f merge) Result.Solid :=
  call_any fun _ => continueParse_solid hs

theorem bind_static {n : Nat} {p : LFns τ α} {f : α → LFns τ β} (hp : SBounded n p) (hf : ∀ a, SBounded n (f a)) :
    SBounded (n + 1) (bindFns p f) := by
  refine SBounded.framed ⟨fun d => ⟨(hp.bd d).bindFast fun a => (hf a).framed.bd d, fun s pos ctx ins rem => ?_⟩,
    fun d s pos ctx ins => ?_⟩
  · refine ((hp.bd d).fn s pos ctx ins rem).bind fun a ha => ?_
    cases a with
    | error => exact .ret (Nat.le_succ_of_le ha)
    | recovered r => exact continueParse_any ha fun d v p c r => ((hf v).framed.bd d).fn _ _ _ _ _
    | ok r =>
      exact .ite ((((hf r.value).framed.bd d).fn _ _ _ _ _).bind fun b hb => .ret (hb.prepend ha))
        ((((hf r.value).framed.bd d).fn _ _ _ _ _).bind fun b hb => .ret (hb.prepend ha))
  · refine (hp.sd d s pos ctx ins).bind fun a ha => ?_
    cases a with
    | error => exact .ret trivial
    | recovered r => exact continueParse_any_solid ha
    | ok r =>
      dsimp only
      split
      · next hc => exact (Rets.any _).bind fun b _ => .ret (by rw [hc]; exact b.solid_prepend)
      · exact ((hf r.value).framed.sd d _ _ _ _).bind fun b hb => .ret hb.prepend

theorem seq_static {n : Nat} {p : LFns τ α} {q : LFns τ β} (hp : SBounded n p) (hq : SBounded n q) (merge : α → β → γ) :
    SBounded (n + 1) (seqFns p q merge) := by
  refine SBounded.framed ⟨fun d => ⟨(hp.bd d).seqFast (hq.bd d) merge, fun s pos ctx ins rem => ?_⟩,
    fun d s pos ctx ins => ?_⟩
  · refine ((hp.bd d).fn s pos ctx ins rem).bind fun a ha => ?_
    cases a with
    | error => exact .ret (Nat.le_succ_of_le ha)
    | recovered r => exact continueParse_any ha fun d v p c r => (hq.bd d).fn _ _ _ _ _
    | ok r => exact ((hq.bd d).fn _ _ _ _ _).bind fun b hb => .ret (hb.fmap.prepend ha)
  · refine (hp.sd d s pos ctx ins).bind fun a ha => ?_
    cases a with
    | error => exact .ret trivial
    | recovered r => exact continueParse_any_solid ha
    | ok r =>
      dsimp only
      cases hc : r.consumed with
      | true => exact (Rets.any _).bind fun b _ => .ret (Result.solid_prepend _)
      | false => exact (hq.sd d _ _ _ _).bind fun b hb => .ret hb.fmap.prepend

theorem manyLoop_static {n : Nat} {p : LFns τ α} (hp : SBounded n p) (s : List τ) (ins : Int) (fuel : Nat) (d : Frames)
    (pos : Nat) (ctx : Ctx τ) (c : Bool) (v : List α) :
    Rets (manyLoop p s ins fuel d pos ctx c v) (Result.Tail n) := by
  induction fuel generalizing d pos ctx c v with
  | zero => exact .diverge
  | succ k ih =>
    have h : Rets ((p d).fn s pos ctx ins none) fun r => r.Within n ∧ r.Solid :=
      fun r hr => ⟨(hp.bd d).fn s pos ctx ins none r hr, hp.sd d s pos ctx ins r hr⟩
    refine h.bind fun a ha => ?_
    cases a with
    | ok r => exact .ite (ih _ _ _ _ _) .raise
    | error => exact .ite (.ret ha.1) (.ret ha.1)
    | recovered r =>
      exact call_any fun d => continueParse_tail ha.1 ha.2 fun v p c r => call_any fun d => call_any fun d => ih _ _ _ _ _

theorem many_static {n : Nat} {p : LFns τ α} (hp : SBounded n p) (fuel : Nat) : SBounded (n + 1) (manyFns fuel p) :=
  SBounded.framed ⟨fun d => ⟨fun s pos ctx => (((hp.bd d).mono (Nat.le_succ n)).manyFastLoop s fuel pos ctx false []),
    fun s pos ctx ins _ => (manyLoop_static hp s ins fuel d pos ctx false []).mono fun _ h => h.within⟩,
    fun d s pos ctx ins => (manyLoop_static hp s ins fuel d pos ctx false []).mono fun _ h => h.solid⟩

/-! ### Which parsers are solid -/

section
variable {p q : ParseFns τ α}

theorem Solid.fmap (hp : Solid p) (f : α → Except Exn β) : Solid (fmapFns p f) :=
  fun s pos ctx ins => (hp s pos ctx ins).bind fun _ hr => hr.fmapM

theorem Solid.altSecond (hq : Solid q) {s : List τ} {pos : Nat} {ctx : Ctx τ} {ins : Int} {loc : Loc} {x : Exp} :
    Rets (App.altSecond p q s pos ctx ins none loc x) Result.Solid := by
  refine (hq s pos ctx ins).bind fun a ha => ?_
  cases a with
  | ok r => exact .ite (.ret trivial) (.ret trivial)
  | error r => exact .ite (.ret trivial) (.ret trivial)
  | recovered r => exact .ite (.ret ha) (.ret trivial)

theorem Solid.alt (hp : Solid p) (hq : Solid q) : Solid (altFns p q) := by
  intro s pos ctx ins
  refine (hp s pos ctx ins).bind fun a ha => ?_
  cases a with
  | ok => exact .ret trivial
  | error e => exact .ite (.ret trivial) (Solid.altSecond hq)
  | recovered e => exact .ite (.ret ha) (Solid.altSecond hq)

theorem Solid.maybe (hp : Solid p) : Solid (maybeFns p) := by
  intro s pos ctx ins
  refine (hp s pos ctx ins).bind fun a ha => ?_
  cases a with
  | ok => exact .ret trivial
  | error => exact .ite (.ret trivial) (.ret trivial)
  | recovered => exact .ite (.ret ha.fmap) (.ret trivial)

theorem solid_attempt (p : ParseFns τ α) : Solid (attemptFns p) := by
  intro s pos ctx ins
  refine (Rets.any _).bind fun a _ => ?_
  cases a <;> exact .ret trivial

theorem Solid.label (hp : Solid p) (x : String) : Solid (labelFns p x) :=
  fun s pos ctx ins => (hp s pos ctx ins).bind fun _ hr => .ret hr.set

theorem Solid.recover (hp : Solid p) : Solid (recoverFns p) := by
  intro s pos ctx ins
  refine (hp s pos ctx ins).bind fun a ha => ?_
  cases a with
  | ok | error => exact .ret trivial
  | recovered r =>
    refine .ret fun y hy => ?_
    obtain ⟨z, hz, rfl⟩ := List.mem_map.1 hy
    exact ha z hz

theorem Solid.block (hp : Solid p) : Solid (blockFns p) :=
  fun s pos _ ins => (hp s pos _ ins).bind fun _ hr => .ret hr.setCtx

theorem Solid.aligned (hp : Solid p) : Solid (alignedFns p) :=
  fun s pos _ ins => .ite (hp s pos _ ins) (.ret trivial)

theorem Solid.indented (hp : Solid p) (delta : Int) : Solid (indentedFns delta p) :=
  fun s pos _ ins => .ite ((hp s pos _ ins).bind fun _ hr => .ret hr.setCtx) (.ret trivial)

theorem solid_pure (x : α) : Solid (pureFns x : ParseFns τ α) := fun _ _ _ _ => .ret trivial

theorem solid_pureFn (x : Except Exn α) : Solid (pureFnFns x : ParseFns τ α) :=
  fun _ _ _ _ => (Rets.any _).bind fun _ _ => .ret trivial

theorem solid_eof : Solid (eofFns : ParseFns τ Unit) := fun _ _ _ _ => .ite (.ret trivial) (.ret trivial)

theorem solid_satisfy (test : τ → Except Exn Bool) : Solid (satisfyFns test) := by
  intro s pos ctx ins
  refine (Rets.any _).bind fun a _ => ?_
  cases a <;> exact .ret trivial

theorem solid_regexp (m : Matcher τ β) : Solid (regexpFns m) := by
  intro s pos ctx ins
  refine (Rets.any _).bind fun a _ => ?_
  cases a <;> exact .ret trivial

theorem solid_sym [BEq τ] (x : τ) (l : String) : Solid (symFns x l) := by
  intro s pos ctx ins
  simp only [symFns, symFn]
  cases symAt x s pos <;> exact .ret trivial

theorem solid_literal [BEq τ] (x : List τ) (l : String) : Solid (literalFns x l) :=
  fun _ _ _ _ => .ite (.ret trivial) (.ret trivial)

end

variable {ρ : Type} {Γ : ρ → Type} [BEq τ]

theorem denoteWith_static (n : Nat) (t : (i : ρ) → LFns τ (Γ i)) {p : P τ ρ Γ α} {h : Nat} (hp : Height p h) :
    SBounded h (denoteWith n t p) := by
  induction hp with
  | pure x => exact SBounded.framed ⟨fun _ => bounded_pure _ _, fun _ => solid_pure _⟩
  | pureFn x => exact SBounded.framed ⟨fun _ => bounded_pureFn _ _, fun _ => solid_pureFn _⟩
  | unexpected x => exact SBounded.framed ⟨fun _ => bounded_unexpected _ _, fun _ _ _ _ _ => .ret trivial⟩
  | eof => exact SBounded.framed ⟨fun _ => bounded_eof _, fun _ => solid_eof⟩
  | satisfy x => exact SBounded.framed ⟨fun _ => bounded_satisfy _ _, fun _ => solid_satisfy _⟩
  | sym x l => exact SBounded.framed ⟨fun _ => bounded_sym _ _ _, fun _ => solid_sym _ _⟩
  | literal x l => exact SBounded.framed ⟨fun _ => bounded_literal _ _ _, fun _ => solid_literal _ _⟩
  | regexp m => exact SBounded.framed ⟨fun _ => bounded_regexp _ _, fun _ => solid_regexp _⟩
  | fmap f _ ih =>
    exact (SBounded.framed ⟨fun d => (ih.bd d).fmap f, fun d => Solid.fmap (ih.sd d) f⟩).mono (Nat.le_succ _)
  | alt _ _ ihp ihq =>
    exact SBounded.framed ⟨fun d => (ihp.bd d).alt (ihq.bd d), fun d => Solid.alt (ihp.sd d) (ihq.sd d)⟩
  | bind _ _ ihp ihf => exact (bind_static ihp ihf).mono (Nat.le_succ _)
  | seqWith m _ _ ihp ihq => exact seq_static ihp ihq m
  | maybe _ ih => exact (SBounded.framed ⟨fun d => (ih.bd d).maybe, fun d => Solid.maybe (ih.sd d)⟩).mono (Nat.le_succ _)
  | many _ ih => exact many_static ih _
  | attempt _ ih => exact (SBounded.framed ⟨fun d => (ih.bd d).attempt, fun _ => solid_attempt _⟩).mono (Nat.le_succ _)
  | label x _ ih =>
    exact (SBounded.framed ⟨fun d => (ih.bd d).label x, fun d => Solid.label (ih.sd d) x⟩).mono (Nat.le_succ _)
  | recover _ ih =>
    exact (SBounded.framedFn ih ⟨fun d => (ih.bd d).recover, fun d => Solid.recover (ih.sd d)⟩).mono (Nat.le_succ _)
  | recoverWith x vs _ ih =>
    exact (SBounded.framedFn ih ⟨fun d => (ih.bd d).recoverWith x vs, ih.sd⟩).mono (Nat.le_succ _)
  | recoverWithFn f l _ ih =>
    exact (SBounded.framedFn ih ⟨fun d => (ih.bd d).recoverWithFn f l, ih.sd⟩).mono (Nat.le_succ _)
  | block _ ih => exact (SBounded.framed ⟨fun d => (ih.bd d).block, fun d => Solid.block (ih.sd d)⟩).mono (Nat.le_succ _)
  | aligned _ ih =>
    exact (SBounded.framed ⟨fun d => (ih.bd d).aligned, fun d => Solid.aligned (ih.sd d)⟩).mono (Nat.le_succ _)
  | indented delta _ ih =>
    exact (SBounded.framed ⟨fun d => (ih.bd d).indented delta, fun d => Solid.indented (ih.sd d) delta⟩).mono (Nat.le_succ _)

theorem parse_static (env : Env τ ρ Γ) (n : Nat) (d : Frames) {p : P τ ρ Γ α} {h : Nat} (hp : Height p h) (s : List τ)
    (b : Bool) (k : Int) (gl : Loc → List τ → Nat → Loc) : Rets (parse env n d p s b k gl) (Result.Within h) := by
  have hd : SBounded h (denote env n p) := denoteWith_static n _ hp
  refine call_any fun d => ?_
  cases b with
  | true => exact (hd.framed.bd d).fn _ _ _ _ _
  | false => exact ((hd.framed.bd d).fast _ _ _).bind fun r hr => .ret hr.toResult

end Stk

end Reparsec.App
