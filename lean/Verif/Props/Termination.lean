import Verif.Lemmas.Halts
import Verif.Spec.LeftCalls
import Verif.Props.Samples
import Verif.Props.Positions
import Mathlib.Data.Fintype.Card
import Mathlib.Data.Fintype.EquivFin

/-!
# C22, C23: termination
-/

namespace Reparsec

variable {τ ρ : Type} {Γ : ρ → Type} {α β : Type} [BEq τ]

/-! ### C22 -/

/-- The node is not a `Delay` object. -/
def P.notRef : {α : Type} → P τ ρ Γ α → Prop
  | _, .ref _ => False
  | _, _ => True

theorem ends_of_no_delay (env : Env τ ρ Γ) (p : P τ ρ Γ α) (h : p.All P.notRef) (s : List τ)
    (ins : Int) : ∀ pos ctx rem, pos ≤ s.length → Ends env p s pos ctx ins rem := by
  induction p with
  | pure x => exact fun _ _ _ _ => .pure
  | pureFn x => exact fun _ _ _ _ => .pureFn
  | unexpected x => exact fun _ _ _ _ => .unexpected
  | eof => exact fun _ _ _ _ => .eof
  | satisfy test => exact fun _ _ _ _ => .satisfy
  | sym x l => exact fun _ _ _ _ => .sym
  | literal x l hx => exact fun _ _ _ _ => .literal
  | regexp m => exact fun _ _ _ _ => .regexp
  | fmap p fn ih => exact fun pos ctx rem hp => (ih h.2 _ _ _ hp).fmap
  | alt p q ihp ihq =>
    exact fun pos ctx rem hp => Ends.alt (ihp h.2.1 _ _ _ hp) (ihq h.2.2 _ _ _ hp)
      (ihp h.2.1 _ _ _ hp) (ihq h.2.2 _ _ _ hp)
  | bind p k ihp ihk =>
    intro pos ctx rem hp
    refine Ends.bind (ihp h.2.1 _ _ _ hp) (fun n ra hn => ?_) (fun n ra hn r hr => ?_)
    · have hf : OkFrame .. := frame_denote env n p s pos ctx ins rem _ hp hn
      exact ihk _ (h.2.2 _) _ _ _ hf.hi
    · have hf : RecFrame .. := frame_denote env n p s pos ctx ins rem _ hp hn
      exact ihk _ (h.2.2 _) _ _ _ (hf.reps r hr).hi
  | seqWith p q m ihp ihq =>
    intro pos ctx rem hp
    refine Ends.seqWith (ihp h.2.1 _ _ _ hp) (fun n ra hn => ?_) (fun n ra hn r hr => ?_)
    · have hf : OkFrame .. := frame_denote env n p s pos ctx ins rem _ hp hn
      exact ihq h.2.2 _ _ _ hf.hi
    · have hf : RecFrame .. := frame_denote env n p s pos ctx ins rem _ hp hn
      exact ihq h.2.2 _ _ _ (hf.reps r hr).hi
  | maybe p ih => exact fun pos ctx rem hp => (ih h.2 _ _ _ hp).maybe
  | many p ih => exact fun pos ctx rem hp => Ends.many (fun _ _ _ h' => ih h.2 _ _ _ h') hp
  | attempt p ih => exact fun pos ctx rem hp => (ih h.2 _ _ _ hp).attempt
  | label p x ih => exact fun pos ctx rem hp => (ih h.2 _ _ _ hp).label
  | recover p ih => exact fun pos ctx rem hp => (ih h.2 _ _ _ hp).recover
  | recoverWith p x vs ih => exact fun pos ctx rem hp => (ih h.2 _ _ _ hp).recoverWith
  | recoverWithFn p fn lbl ih => exact fun pos ctx rem hp => (ih h.2 _ _ _ hp).recoverWithFn
  | block p ih => exact fun pos ctx rem hp => Ends.block fun _ => ih h.2 _ _ _ hp
  | aligned p ih => exact fun pos ctx rem hp => Ends.aligned fun _ => ih h.2 _ _ _ hp
  | indented d p ih => exact fun pos ctx rem hp => Ends.indented fun _ => ih h.2 _ _ _ hp
  | ref i => exact absurd h id

theorem not_hangs_of_ends {env : Env τ ρ Γ} {p : P τ ρ Γ α} {s : List τ} {o : Opts τ}
    (h : Ends env p s 0 (initCtx o.getLoc) o.maxInsertions (some o.maxInsertions)) :
    ¬ Hangs env p s o := by
  intro hh
  cases hb : o.recover with
  | true =>
    obtain ⟨n, hn⟩ := h
    refine hn n (Nat.le_refl _) ?_
    have := hh n
    simpa [parse, hb] using this
  | false =>
    obtain ⟨n, hn⟩ := h.fast
    have := hh n
    simp only [parse, hb, Bool.false_eq_true, if_false, Out.bind_def, Out.pure_def] at this
    refine hn n (Nat.le_refl _) ?_
    cases hx : (denote env n p).fast s 0 (initCtx o.getLoc) with
    | diverge => exact hx
    | raise e => simp [hx] at this
    | ret a => simp [hx] at this

/-- **C22**: a parser that uses no `Delay` never hangs: on every input, in both modes, with every
`max_insertions` (also a negative one) and every `get_loc`, `parse` returns or raises. -/
theorem C22_terminates (env : Env τ ρ Γ) (p : P τ ρ Γ α) (h : p.All P.notRef) (s : List τ)
    (o : Opts τ) : (∃ r, Returns env p s o r) ∨ ∃ e, Raises env p s o e := by
  rcases run_cases env p s o with h1 | h1 | h1
  · exact .inl h1
  · exact .inr h1
  · exact absurd h1 (not_hangs_of_ends (ends_of_no_delay env p h s _ _ _ _ (Nat.zero_le _)))

/-- Parsers without `Delay`, one of which raises. -/
example : Samples.list.All P.notRef := by
  simp [Samples.list, P.sepBy, P.seql, P.seqr, P.seq, P.map, P.All, P.notRef]

example : Samples.boom.All P.notRef := by simp [Samples.boom, P.All, P.notRef]

/-! ### C23 -/

section
variable {env : Env τ ρ Γ} {s : List τ} {ins : Int}

/-- Running `p` at `pos` with at most `b` insertions left ends. -/
def EndsAt (env : Env τ ρ Γ) (s : List τ) (ins : Int) (pos b : Nat) (p : P τ ρ Γ α) : Prop :=
  ∀ ctx rem, RemOK ins rem → rem.getD 0 ≤ (b : Int) → Ends env p s pos ctx ins rem

theorem remOK_none (h : 0 ≤ ins) : RemOK ins none := ⟨h, by simp⟩

/-- Where the rest of a sequence starts after a repair: further on, or with a smaller budget. -/
theorem repair_moves {p : P τ ρ Γ α} {pos : Nat} {ctx : Ctx τ} {rem : Option Int} {n : Nat}
    {ra : Recovered τ α} (hp : pos ≤ s.length) (hr : RemOK ins rem)
    (h : (denote env n p).fn s pos ctx ins rem = .ret (.recovered ra)) {r : Repair τ α}
    (hm : r ∈ ra.repairs) :
    r.pos ≤ s.length ∧ RemOK ins (some r.ins) ∧
      (pos < r.pos ∨ (r.pos = pos ∧ r.ins < rem.getD 0)) := by
  have hf : RecFrame .. := frame_denote env n p s pos ctx ins rem _ hp h
  have hf := hf.reps r hm
  have hs : RecSound .. := (sound_denote env (anyDisc ctx.getLocFn s) p (.inl trivial) n).fn pos ctx
    ins rem _ hp ⟨rfl, trivial⟩ h
  obtain ⟨es, hs⟩ := hs.reps r hm
  have hb := hs.budget hr
  have hstop := hb.stop
  refine ⟨hf.hi, ⟨hr.1, ?_⟩, ?_⟩
  · rintro k ⟨⟩
    exact ⟨hb.nonneg, by omega⟩
  · have := hf.lo
    by_cases he : r.pos = pos
    · refine .inr ⟨he, ?_⟩
      have h1 := hb.same he
      have ho := (der_inOrder hs.der hp).1
      have hops := hs.ops
      generalize edits es = es at h1 ho hops
      suffices h : 0 < insertsAt pos es by omega
      cases es with
      | nil =>
        have := hops
        generalize hops : r.ops = ops at this
        cases this
        exact absurd hops hf.ops
      | cons e es =>
        have hsz := hf.size
        generalize r.ops = ops at hops hsz
        cases hops with
        | @cons _ _ i is h1 h2 h3 =>
          have hsz := hsz i List.mem_cons_self
          rw [h1] at hsz
          rw [he] at ho
          rw [insertsAt_cons]
          obtain ⟨ho1, ho2⟩ := ho
          have ho2 := ho2.le
          obtain ⟨q, op⟩ := e
          cases op with
          | skip m =>
            simp only [RepairOp.size] at hsz
            simp only [RepairOp.width] at ho1 ho2
            omega
          | insert l =>
            simp only [RepairOp.width] at ho1 ho2
            have : insertsAt pos [⟨q, .insert l⟩] = 1 := by
              rw [insertsAt_insert, if_pos (by omega)]
            omega
    · exact .inl (by omega)

/-- The structural step: everything ends at `pos` with budget `b` if the `Delay` objects that can be
called there do, and everything ends further on and with smaller budgets. -/
theorem endsAt_struct {pos b : Nat} (hp : pos ≤ s.length)
    (hfar : ∀ {β : Type} (q : P τ ρ Γ β) pos' b', pos < pos' → pos' ≤ s.length →
      EndsAt env s ins pos' b' q)
    (hless : ∀ {β : Type} (q : P τ ρ Γ β) b', b' < b → EndsAt env s ins pos b' q)
    (p : P τ ρ Γ α) (href : ∀ i, p.StartsWith env i → EndsAt env s ins pos b (.ref i)) :
    EndsAt env s ins pos b p := by
  -- what comes after a success
  have hok : ∀ {β γ : Type} (p : P τ ρ Γ β) (q : P τ ρ Γ γ) ctx rem n ra, RemOK ins rem →
      rem.getD 0 ≤ (b : Int) → (denote env n p).fn s pos ctx ins rem = .ret (.ok ra) →
      (CanBeEmpty env p ra.value → EndsAt env s ins pos b q) →
      Ends env q s ra.pos ra.ctx ins (if ra.consumed then some ins else rem) := by
    intro β γ p q ctx rem n ra hr hb hn hq
    have hf : OkFrame .. := frame_denote env n p s pos ctx ins rem _ hp hn
    cases hc : ra.consumed with
    | true =>
      have hlt : pos < ra.pos := by simpa [hc] using hf.consumed.symm
      refine hfar q ra.pos ins.toNat hlt hf.hi _ _ ⟨hr.1, ?_⟩ ?_
      · simp only [if_true]; rintro k ⟨⟩; exact ⟨hr.1, Int.le_refl _⟩
      · simp
    | false =>
      have hge : ¬ pos < ra.pos := by simpa [hc] using hf.consumed.symm
      have := hf.lo
      have he : ra.pos = pos := by omega
      simp only [Bool.false_eq_true, if_false]
      rw [he]
      refine hq ⟨s, pos, ctx, ra.ctx, hp, ra.expected, ra.consumed, n, ?_⟩ _ _ hr hb
      have h1 := (sim_denote env n p).fast_ok hn
      rw [show (⟨ra.value, pos, ra.ctx, ra.expected, ra.consumed⟩ : Ok τ β) = ra by
        rw [← he]]
      exact h1
  -- what comes after a repair
  have hrec : ∀ {β γ : Type} (p : P τ ρ Γ β) (q : P τ ρ Γ γ) ctx rem n ra, RemOK ins rem →
      rem.getD 0 ≤ (b : Int) → (denote env n p).fn s pos ctx ins rem = .ret (.recovered ra) →
      ∀ r ∈ ra.repairs, Ends env q s r.pos r.ctx ins (some r.ins) := by
    intro β γ p q ctx rem n ra hr hb hn r hm
    obtain ⟨h1, h2, h3⟩ := repair_moves hp hr hn hm
    have h0 := (h2.2 _ rfl).1
    rcases h3 with h3 | ⟨h3, h4⟩
    · exact hfar q r.pos r.ins.toNat h3 h1 _ _ h2 (by simp)
    · rw [h3]
      exact hless q r.ins.toNat (by omega) _ _ h2 (by simp)
  induction p with
  | pure x => exact fun _ _ _ _ => .pure
  | pureFn x => exact fun _ _ _ _ => .pureFn
  | unexpected x => exact fun _ _ _ _ => .unexpected
  | eof => exact fun _ _ _ _ => .eof
  | satisfy test => exact fun _ _ _ _ => .satisfy
  | sym x l => exact fun _ _ _ _ => .sym
  | literal x l hx => exact fun _ _ _ _ => .literal
  | regexp m => exact fun _ _ _ _ => .regexp
  | fmap p fn ih => exact fun ctx rem hr hb => (ih href _ _ hr hb).fmap
  | alt p q ihp ihq =>
    intro ctx rem hr hb
    have h1 := ihp fun i hi => href i (.inl hi)
    have h2 := ihq fun i hi => href i (.inr hi)
    exact Ends.alt (h1 _ _ (remOK_none hr.1) (by simp)) (h2 _ _ (remOK_none hr.1) (by simp))
      (h1 _ _ hr hb) (h2 _ _ hr hb)
  | bind p k ihp ihk =>
    intro ctx rem hr hb
    refine Ends.bind (ihp (fun i hi => href i (.inl hi)) _ _ hr hb) (fun n ra hn => ?_)
      (fun n ra hn r hm => hrec p _ ctx rem n ra hr hb hn r hm)
    exact hok p _ ctx rem n ra hr hb hn fun he =>
      ihk _ fun i hi => href i (.inr ⟨_, he, hi⟩)
  | seqWith p q m ihp ihq =>
    intro ctx rem hr hb
    refine Ends.seqWith (ihp (fun i hi => href i (.inl hi)) _ _ hr hb) (fun n ra hn => ?_)
      (fun n ra hn r hm => hrec p _ ctx rem n ra hr hb hn r hm)
    exact hok p _ ctx rem n ra hr hb hn fun he =>
      ihq fun i hi => href i (.inr ⟨⟨_, he⟩, hi⟩)
  | maybe p ih =>
    exact fun ctx rem hr hb => (ih href _ _ (remOK_none hr.1) (by simp)).maybe
  | many p ih =>
    intro ctx rem hr hb
    refine Ends.many (fun pos' ctx' h1 h2 => ?_) hp
    by_cases he : pos' = pos
    · subst he
      exact ih href _ _ (remOK_none hr.1) (by simp)
    · exact hfar p pos' 0 (by omega) h2 _ _ (remOK_none hr.1) (by simp)
  | attempt p ih => exact fun ctx rem hr hb => (ih href _ _ hr hb).attempt
  | label p x ih => exact fun ctx rem hr hb => (ih href _ _ hr hb).label
  | recover p ih => exact fun ctx rem hr hb => (ih href _ _ hr hb).recover
  | recoverWith p x vs ih => exact fun ctx rem hr hb => (ih href _ _ hr hb).recoverWith
  | recoverWithFn p fn lbl ih => exact fun ctx rem hr hb => (ih href _ _ hr hb).recoverWithFn
  | block p ih => exact fun ctx rem hr hb => Ends.block fun _ => ih href _ _ hr hb
  | aligned p ih => exact fun ctx rem hr hb => Ends.aligned fun _ => ih href _ _ hr hb
  | indented d p ih => exact fun ctx rem hr hb => Ends.indented fun _ => ih href _ _ hr hb
  | ref i => exact href i rfl

/-- Without left recursion everything ends, everywhere, with every budget. -/
theorem endsAt_all (hwf : WellFounded fun j i => LeftCalls env i j) :
    ∀ (d b pos : Nat), s.length - pos ≤ d → pos ≤ s.length →
      ∀ {α : Type} (p : P τ ρ Γ α), EndsAt env s ins pos b p := by
  intro d
  induction d with
  | zero =>
    intro b
    induction b using Nat.strongRecOn with
    | ind b ihb =>
      intro pos hd hp α p
      have hfar : ∀ {β : Type} (q : P τ ρ Γ β) pos' b', pos < pos' → pos' ≤ s.length →
          EndsAt env s ins pos' b' q := fun q pos' b' h1 h2 => by omega
      have hless : ∀ {β : Type} (q : P τ ρ Γ β) b', b' < b → EndsAt env s ins pos b' q :=
        fun q b' h => ihb b' h pos hd hp q
      have href : ∀ i, EndsAt env s ins pos b (.ref i : P τ ρ Γ (Γ i)) := fun i => by
        induction i using hwf.induction with
        | _ i ih =>
          intro ctx rem hr hb
          cases he : env i with
          | none => exact .ref_undefined he
          | some q =>
            exact .ref_defined he (endsAt_struct hp hfar hless q (fun j hj => ih j ⟨q, he, hj⟩)
              ctx rem hr hb)
      exact endsAt_struct hp hfar hless p fun i _ => href i
  | succ d ihd =>
    intro b
    induction b using Nat.strongRecOn with
    | ind b ihb =>
      intro pos hd hp α p
      have hfar : ∀ {β : Type} (q : P τ ρ Γ β) pos' b', pos < pos' → pos' ≤ s.length →
          EndsAt env s ins pos' b' q := fun q pos' b' h1 h2 => ihd b' pos' (by omega) h2 q
      have hless : ∀ {β : Type} (q : P τ ρ Γ β) b', b' < b → EndsAt env s ins pos b' q :=
        fun q b' h => ihb b' h pos hd hp q
      have href : ∀ i, EndsAt env s ins pos b (.ref i : P τ ρ Γ (Γ i)) := fun i => by
        induction i using hwf.induction with
        | _ i ih =>
          intro ctx rem hr hb
          cases he : env i with
          | none => exact .ref_undefined he
          | some q =>
            exact .ref_defined he (endsAt_struct hp hfar hless q (fun j hj => ih j ⟨q, he, hj⟩)
              ctx rem hr hb)
      exact endsAt_struct hp hfar hless p fun i _ => href i

end

/-- **C23**: a grammar without left recursion (there is no infinite chain of `Delay` objects each of
which may call the next one before consuming anything) never hangs: on every input, in both modes,
with every `max_insertions ≥ 0` and every `get_loc`, `parse` returns or raises. -/
theorem C23_terminates (env : Env τ ρ Γ) (hwf : WellFounded fun j i => LeftCalls env i j)
    (p : P τ ρ Γ α) (s : List τ) (o : Opts τ) (hk : 0 ≤ o.maxInsertions) :
    (∃ r, Returns env p s o r) ∨ ∃ e, Raises env p s o e := by
  rcases run_cases env p s o with h1 | h1 | h1
  · exact .inl h1
  · exact .inr h1
  · refine absurd h1 (not_hangs_of_ends ?_)
    refine endsAt_all hwf s.length o.maxInsertions.toNat 0 (by omega) (Nat.zero_le _) p _ _
      ⟨hk, ?_⟩ ?_
    · rintro k ⟨⟩; exact ⟨hk, Int.le_refl _⟩
    · simp

theorem LeftReaches.trans {env : Env τ ρ Γ} {i j k : ρ} (h : LeftReaches env i j)
    (h' : LeftReaches env j k) : LeftReaches env i k := by
  induction h with
  | one h => exact .step h h'
  | step h _ ih => exact .step h (ih h')

/-- **C23**, in the form in which one checks it: there are finitely many `Delay` objects and none
reaches itself by a chain of such calls. -/
theorem C23_no_left_recursion [Finite ρ] (env : Env τ ρ Γ) (h : ∀ i, ¬ LeftReaches env i i)
    (p : P τ ρ Γ α) (s : List τ) (o : Opts τ) (hk : 0 ≤ o.maxInsertions) :
    (∃ r, Returns env p s o r) ∨ ∃ e, Raises env p s o e := by
  refine C23_terminates env ?_ p s o hk
  have : IsTrans ρ fun j i => LeftReaches env i j := ⟨fun _ _ _ h1 h2 => h2.trans h1⟩
  have : Std.Irrefl fun j i => LeftReaches env i j := ⟨h⟩
  have hwf := Finite.wellFounded_of_trans_of_irrefl fun j i => LeftReaches env i j
  exact Subrelation.wf (fun h => .one h) hwf

/-- A condition on the syntax under which a parser always consumes input when it succeeds. -/
def P.Consumes : {α : Type} → P τ ρ Γ α → Prop
  | _, .satisfy _ => True
  | _, .sym _ _ => True
  | _, .literal _ _ _ => True
  | _, .unexpected _ => True
  | _, .fmap p _ => p.Consumes
  | _, .alt p q => p.Consumes ∧ q.Consumes
  | _, .bind p k => p.Consumes ∨ ∀ a, (k a).Consumes
  | _, .seqWith p q _ => p.Consumes ∨ q.Consumes
  | _, .attempt p => p.Consumes
  | _, .label p _ => p.Consumes
  | _, .recover p => p.Consumes
  | _, .recoverWith p _ _ => p.Consumes
  | _, .recoverWithFn p _ _ => p.Consumes
  | _, .block p => p.Consumes
  | _, .aligned p => p.Consumes
  | _, .indented _ p => p.Consumes
  | _, _ => False

theorem P.Consumes.lt {env : Env τ ρ Γ} {n : Nat} {p : P τ ρ Γ α} (h : p.Consumes) {s : List τ}
    {pos : Nat} {ctx : Ctx τ} {r : Ok τ α} (hp : pos ≤ s.length)
    (hr : (denote env n p).fast s pos ctx = .ret (.ok r)) : pos < r.pos := by
  induction p generalizing pos ctx with
  | pure x => exact absurd h id
  | pureFn x => exact absurd h id
  | unexpected x => simp [denote, denoteWith, unexpectedFns] at hr
  | eof => exact absurd h id
  | satisfy test =>
    simp only [denote, denoteWith, satisfyFns, satisfyFast, Out.bind_def, Out.bind_eq_ret] at hr
    obtain ⟨x, _, hr⟩ := hr
    cases x with
    | none => simp at hr
    | some t => simp only [Out.ret.injEq, Simple.ok.injEq] at hr; subst hr; simp
  | sym x l =>
    simp only [denote, denoteWith, symFns, symFast] at hr
    cases hx : symAt x s pos with
    | none => simp [hx] at hr
    | some t => simp only [hx, Out.ret.injEq, Simple.ok.injEq] at hr; subst hr; simp
  | literal x l hx =>
    simp only [denote, denoteWith, literalFns, literalFast] at hr
    split at hr
    · simp only [Out.ret.injEq, Simple.ok.injEq] at hr; subst hr
      have := List.length_pos_iff.2 hx
      simp; omega
    · simp at hr
  | regexp m => exact absurd h id
  | fmap p fn ih =>
    change fmapFast (denote env n p) fn s pos ctx = _ at hr
    simp only [fmapFast, Out.bind_def, Out.bind_eq_ret] at hr
    obtain ⟨x, h1, h2⟩ := hr
    cases x with
    | error e => simp [Simple.fmapM] at h2
    | ok ra =>
      simp only [Simple.fmapM, Ok.fmapM, Out.bind_def, Out.bind_eq_ret, Out.pure_def,
        Out.ret.injEq, Simple.ok.injEq] at h2
      obtain ⟨_, ⟨_, _, rfl⟩, rfl⟩ := h2
      exact ih h hp h1
  | alt p q ihp ihq =>
    change altFast (denote env n p) (denote env n q) s pos ctx = _ at hr
    simp only [altFast, Out.bind_def, Out.bind_eq_ret] at hr
    obtain ⟨x, h1, h2⟩ := hr
    cases x with
    | ok ra =>
      simp only [Out.ret.injEq, Simple.ok.injEq] at h2; subst h2
      exact ihp h.1 hp h1
    | error e =>
      simp only at h2
      split at h2
      · simp at h2
      · rw [Out.bind_eq_ret] at h2
        obtain ⟨y, h3, h4⟩ := h2
        cases y with
        | error e' => simp only at h4; split at h4 <;> simp at h4
        | ok rb =>
          have := ihq h.2 hp h3
          simp only at h4
          split at h4
          · simp only [Out.ret.injEq, Simple.ok.injEq] at h4; subst h4; exact this
          · simp only [Out.ret.injEq, Simple.ok.injEq] at h4; subst h4
            unfold Ok.setExpected; split <;> exact this
  | bind p k ihp ihk =>
    change bindFast (denote env n p) (fun a => denote env n (k a)) s pos ctx = _ at hr
    simp only [bindFast, Out.bind_def, Out.bind_eq_ret] at hr
    obtain ⟨x, h1, h2⟩ := hr
    cases x with
    | error e => simp at h2
    | ok ra =>
      simp only [Out.bind_eq_ret, Out.pure_def, Out.ret.injEq] at h2
      obtain ⟨y, h3, h4⟩ := h2
      cases y with
      | error e => simp [Simple.prependExpected] at h4
      | ok rb =>
        simp only [Simple.prependExpected, Simple.ok.injEq] at h4
        subst h4
        have f1 := frame_fast env n p hp h1
        have f2 := frame_fast env n (k ra.value) f1.hi h3
        have g1 := f1.lo
        have g2 := f2.lo
        simp only [Ok.prependExpected_pos]
        rcases h with h | h
        · have := ihp h hp h1; omega
        · have := ihk _ (h _) f1.hi h3; omega
  | seqWith p q m ihp ihq =>
    change seqFast (denote env n p) (denote env n q) m s pos ctx = _ at hr
    simp only [seqFast, Out.bind_def, Out.bind_eq_ret] at hr
    obtain ⟨x, h1, h2⟩ := hr
    cases x with
    | error e => simp at h2
    | ok ra =>
      simp only [Out.bind_eq_ret, Out.pure_def, Out.ret.injEq] at h2
      obtain ⟨y, h3, h4⟩ := h2
      cases y with
      | error e => simp [Simple.fmap, Simple.prependExpected] at h4
      | ok rb =>
        simp only [Simple.fmap, Simple.prependExpected, Simple.ok.injEq] at h4
        subst h4
        have f1 := frame_fast env n p hp h1
        have f2 := frame_fast env n q f1.hi h3
        have g1 := f1.lo
        have g2 := f2.lo
        simp only [Ok.prependExpected_pos, Ok.fmap]
        rcases h with h | h
        · have := ihp h hp h1; omega
        · have := ihq h f1.hi h3; omega
  | maybe p ih => exact absurd h id
  | many p ih => exact absurd h id
  | attempt p ih =>
    change attemptFast (denote env n p) s pos ctx = _ at hr
    simp only [attemptFast, Out.bind_def, Out.bind_eq_ret] at hr
    obtain ⟨x, h1, h2⟩ := hr
    cases x with
    | error e => simp at h2
    | ok ra =>
      simp only [Out.ret.injEq, Simple.ok.injEq] at h2; subst h2
      exact ih h hp h1
  | label p x ih =>
    change (labelFns (denote env n p) x).fast s pos ctx = _ at hr
    simp only [labelFns, Out.bind_def, Out.bind_eq_ret, Out.pure_def, Out.ret.injEq] at hr
    obtain ⟨y, h1, h2⟩ := hr
    cases y with
    | error e => simp [Simple.setExpected] at h2
    | ok ra =>
      simp only [Simple.setExpected, Simple.ok.injEq] at h2; subst h2
      have := ih h hp h1
      unfold Ok.setExpected; split <;> exact this
  | recover p ih => exact ih h hp hr
  | recoverWith p x vs ih => exact ih h hp hr
  | recoverWithFn p fn lbl ih => exact ih h hp hr
  | block p ih =>
    change (blockFns (denote env n p)).fast s pos ctx = _ at hr
    simp only [blockFns, Out.bind_def, Out.bind_eq_ret, Out.pure_def, Out.ret.injEq] at hr
    obtain ⟨y, h1, h2⟩ := hr
    cases y with
    | error e => simp [Simple.setCtx] at h2
    | ok ra =>
      simp only [Simple.setCtx, Simple.ok.injEq] at h2; subst h2
      have := ih h hp h1
      exact this
  | aligned p ih =>
    change (alignedFns (denote env n p)).fast s pos ctx = _ at hr
    simp only [alignedFns] at hr
    split at hr
    · exact ih h hp hr
    · simp at hr
  | indented d p ih =>
    change (indentedFns d (denote env n p)).fast s pos ctx = _ at hr
    simp only [indentedFns, Out.bind_def] at hr
    split at hr
    · simp only [Out.bind_eq_ret, Out.pure_def, Out.ret.injEq] at hr
      obtain ⟨y, h1, h2⟩ := hr
      cases y with
      | error e => simp [Simple.setCtx] at h2
      | ok ra =>
        simp only [Simple.setCtx, Simple.ok.injEq] at h2; subst h2
        have := ih h hp h1
        exact this
    · simp at hr
  | ref i => exact absurd h id

/-- A way to see that a parser cannot be empty. -/
theorem P.Consumes.not_empty {env : Env τ ρ Γ} {p : P τ ρ Γ α} (h : p.Consumes) (a : α) :
    ¬ CanBeEmpty env p a := by
  rintro ⟨s, pos, ctx, ctx', hp, ex, c, n, hn⟩
  have hn : (denote env n p).fast s pos ctx = .ret (.ok ⟨a, pos, ctx', ex, c⟩) := hn
  exact Nat.lt_irrefl pos (h.lt hp hn)

namespace Samples

/-- The nested parentheses of `Samples.nestEnv` are not left recursive. -/
theorem nest_not_left_recursive : ∀ i, ¬ LeftReaches nestEnv i i := by
  have h : ∀ i j, ¬ LeftCalls nestEnv i j := by
    rintro i j ⟨q, hq, hs⟩
    cases hq
    simp only [P.map, P.seqr, P.seql, P.StartsWith, false_or, or_false] at hs
    obtain ⟨⟨a, ha⟩, -⟩ := hs
    exact P.Consumes.not_empty (p := (.sym '(' "'('" : P Char Unit (fun _ => Nat) Char))
      trivial a ha
  intro i hi
  cases hi with
  | one h' => exact h _ _ h'
  | step h' _ => exact h _ _ h'

/-- So it never hangs. -/
example (s : List Char) (o : Opts Char) (hk : 0 ≤ o.maxInsertions) :
    (∃ r, Returns nestEnv nest s o r) ∨ ∃ e, Raises nestEnv nest s o e :=
  C23_no_left_recursion nestEnv nest_not_left_recursive nest s o hk

/-- `e = Delay(); e.define(sym("a") >> e)`: not left recursive, and infinite. -/
def foreverEnv : Env Char Unit (fun _ => Unit) := fun _ =>
  some (.seqr (.sym 'a' "'a'") (.ref ()))

theorem forever_not_left_recursive : ∀ i, ¬ LeftReaches foreverEnv i i := by
  have h : ∀ i j, ¬ LeftCalls foreverEnv i j := by
    rintro i j ⟨q, hq, hs⟩
    cases hq
    simp only [P.seqr, P.StartsWith, false_or] at hs
    obtain ⟨⟨a, ha⟩, -⟩ := hs
    exact P.Consumes.not_empty (p := (.sym 'a' "'a'" : P Char Unit (fun _ => Unit) Char))
      trivial a ha
  intro i hi
  cases hi with
  | one h' => exact h _ _ h'
  | step h' _ => exact h _ _ h'

end Samples

/-- **C23**, the condition on left recursion is needed: `e = Delay(); e.define(e.label("e"))` hangs on every
input, in both modes. -/
theorem C23_left_recursion_hangs (s : List Char) (o : Opts Char) :
    Hangs Samples.loopEnv (.ref ()) s o := by
  have h : ∀ n, table Samples.loopEnv n () = divergeFns := by
    intro n
    induction n with
    | zero => rfl
    | succ n ih =>
      show labelFns (table Samples.loopEnv n ()) "e" = divergeFns
      rw [ih]; rfl
  intro n
  show parse Samples.loopEnv n (.ref ()) s o.recover o.maxInsertions o.getLoc = .diverge
  unfold parse denote
  simp only [denoteWith, h, divergeFns]
  split <;> rfl

/-- **C23**, the condition `max_insertions ≥ 0` is needed: with a negative one, the budget is never
used up, and `e = Delay(); e.define(sym("a") >> e)`, which is not left recursive, hangs on the empty
input. -/
theorem C23_negative_budget_hangs (k : Int) (hk : k < 0) (gl : Loc → List Char → Nat → Loc) :
    Hangs Samples.foreverEnv (.ref ()) []
      { recover := true, maxInsertions := k, getLoc := gl } := by
  have h : ∀ n ctx (rem : Int), rem < 0 →
      (table Samples.foreverEnv n ()).fn [] 0 ctx k (some rem) = .diverge := by
    intro n
    induction n with
    | zero => intros; rfl
    | succ n ih =>
      intro ctx rem hr
      have h0 : rem ≠ 0 := by omega
      simp only [table, Samples.foreverEnv, P.seqr, denoteWith, seqFns, seqFn, symFns, symFn, symAt,
        List.getElem?_nil, h0, ne_eq, not_false_eq_true, if_true, List.length_nil, scan,
        Nat.zero_sub, Out.ofExcept_ok, Out.bind_def, Out.bind_ret, continueParse, contReps,
        makeInsert]
      have := ih ctx (rem - 1) (by omega)
      simp [this]
  intro n
  exact h n _ _ hk

/-- With a budget, the same parser on the same input comes back. -/
example : (∃ r, Returns Samples.foreverEnv (.ref ()) [] { recover := true, getLoc := defaultGetLoc } r)
    ∨ ∃ e, Raises Samples.foreverEnv (.ref ()) [] { recover := true, getLoc := defaultGetLoc } e :=
  C23_no_left_recursion _ Samples.forever_not_left_recursive _ _ _ (by decide)

end Reparsec
