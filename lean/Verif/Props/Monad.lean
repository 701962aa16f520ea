import Verif.Props.Laws

/-!
# C18: the monad laws, in both modes
-/

namespace Reparsec

variable {τ ρ : Type} {Γ : ρ → Type} {α β γ δ : Type}

theorem OpItem.prepend_nil (i : OpItem) : i.prependExpected [] false = i := by
  unfold OpItem.prependExpected; split <;> simp

theorem opsPrepend_nil (ops : List OpItem) : opsPrependExpected ops [] false = ops := by
  unfold opsPrependExpected
  rw [List.map_congr_left (g := id) fun x _ => OpItem.prepend_nil x, List.map_id]

theorem Repair.prepend_nil (r : Repair τ α) : r.prependExpected [] false = r := by
  simp [Repair.prependExpected, opsPrepend_nil]

theorem Result.prepend_nil (r : Result τ α) : r.prependExpected [] false = r := by
  cases r with
  | ok r => simp [Result.prependExpected, Ok.prependExpected]
  | error e => simp [Result.prependExpected, Err.prependExpected]
  | recovered r =>
    have : r.repairs.map (Repair.prependExpected [] false) = r.repairs := by
      rw [List.map_congr_left (g := id) fun x _ => Repair.prepend_nil x, List.map_id]
    simp [Result.prependExpected, Recovered.prependExpected, this]

theorem Simple.prepend_nil (r : Simple τ α) : r.prependExpected [] false = r := by
  cases r with
  | ok r => simp [Simple.prependExpected, Ok.prependExpected]
  | error e => simp [Simple.prependExpected, Err.prependExpected]

theorem bindFns_pure_left (x : α) (g : α → ParseFns τ β) : bindFns (pureFns x) g = g x := by
  cases hg : g x with
  | mk fa fn =>
    simp only [bindFns]
    congr 1
    · funext s pos ctx
      simp [bindFast, pureFns, Simple.prepend_nil, hg]
    · funext s pos ctx ins rem
      simp [bindFn, pureFns, Result.prepend_nil, hg]

theorem contReps_pure (ins : Int) (l : List (Repair τ α)) (s : List τ) :
    contReps ins (fun v p c r => (pureFns v).fn s p c ins (some r)) (fun _ v => v) l = .ret l := by
  induction l with
  | nil => rfl
  | cons r rs ih =>
    simp only [contReps, Out.bind_def, ih, Out.pure_def]
    simp [pureFns, contOne, appendExpected]

theorem bindFns_pure_right (f : ParseFns τ α) : bindFns f (fun a => pureFns a) = f := by
  cases f with
  | mk fa fn =>
    simp only [bindFns]
    congr 1
    · funext s pos ctx
      simp only [bindFast, pureFns, Out.bind_def]
      cases fa s pos ctx with
      | diverge => rfl
      | raise e => rfl
      | ret r =>
        cases r <;> simp [Simple.prependExpected, Ok.prependExpected]
    · funext s pos ctx ins rem
      simp only [bindFn, Out.bind_def]
      cases fn s pos ctx ins rem with
      | diverge => rfl
      | raise e => rfl
      | ret r =>
        cases r with
        | error e => rfl
        | ok r =>
          obtain ⟨_, _, _, ex, c⟩ := r
          cases c <;> simp [pureFns, Result.prependExpected, Ok.prependExpected]
        | recovered r =>
          simp [continueParse, contReps_pure]

/-! ### Associativity -/

theorem OpItem.prepend_prepend (i : OpItem) (e1 e2 : List String) (c1 c2 : Bool) :
    (i.prependExpected e1 c1).prependExpected e2 c2
      = i.prependExpected (if c1 then e1 else e2 ++ e1) (c1 || c2) := by
  obtain ⟨op, loc, ex, c⟩ := i
  cases c <;> cases c1 <;> simp [OpItem.prependExpected]

theorem opsPrepend_prepend (ops : List OpItem) (e1 e2 : List String) (c1 c2 : Bool) :
    opsPrependExpected (opsPrependExpected ops e1 c1) e2 c2
      = opsPrependExpected ops (if c1 then e1 else e2 ++ e1) (c1 || c2) := by
  simp only [opsPrependExpected, List.map_map]
  exact List.map_congr_left fun i _ => OpItem.prepend_prepend i e1 e2 c1 c2

theorem opsPrepend_append (a b : List OpItem) (e : List String) (c : Bool) :
    opsPrependExpected (a ++ b) e c = opsPrependExpected a e c ++ opsPrependExpected b e c := by
  simp [opsPrependExpected]

theorem Repair.prepend_prepend (r : Repair τ α) (e1 e2 : List String) (c1 c2 : Bool) :
    (r.prependExpected e1 c1).prependExpected e2 c2
      = r.prependExpected (if c1 then e1 else e2 ++ e1) (c1 || c2) := by
  obtain ⟨_, _, _, ops, _, _, _, ex, c⟩ := r
  cases c <;> cases c1 <;> simp [Repair.prependExpected, opsPrepend_prepend]

theorem Result.prepend_prepend (r : Result τ α) (e1 e2 : List String) (c1 c2 : Bool) :
    (r.prependExpected e1 c1).prependExpected e2 c2
      = r.prependExpected (if c1 then e1 else e2 ++ e1) (c1 || c2) := by
  cases r with
  | ok r =>
    obtain ⟨_, _, _, ex, c⟩ := r
    cases c <;> cases c1 <;> simp [Result.prependExpected, Ok.prependExpected]
  | error r =>
    obtain ⟨_, ex, c⟩ := r
    cases c <;> cases c1 <;> simp [Result.prependExpected, Err.prependExpected]
  | recovered r =>
    obtain ⟨reps, _, _, ex, c⟩ := r
    simp only [Result.prependExpected, Recovered.prependExpected, List.map_map, Function.comp_def]
    rw [List.map_congr_left fun x _ => Repair.prepend_prepend x e1 e2 c1 c2]
    cases c <;> cases c1 <;> simp

theorem Simple.prepend_prepend (r : Simple τ α) (e1 e2 : List String) (c1 c2 : Bool) :
    (r.prependExpected e1 c1).prependExpected e2 c2
      = r.prependExpected (if c1 then e1 else e2 ++ e1) (c1 || c2) := by
  cases r with
  | ok r =>
    obtain ⟨_, _, _, ex, c⟩ := r
    cases c <;> cases c1 <;> simp [Simple.prependExpected, Ok.prependExpected]
  | error r =>
    obtain ⟨_, ex, c⟩ := r
    cases c <;> cases c1 <;> simp [Simple.prependExpected, Err.prependExpected]

/-- The repair that `contOne` makes out of two repairs. -/
def joinRep (r : Repair τ α) (rr : Repair τ β) : Repair τ β :=
  { cost := r.cost + rr.cost, prio := r.prio, ins := rr.ins, ops := joinOps r rr,
    value := rr.value, pos := rr.pos, ctx := rr.ctx,
    expected := appendExpected r rr.expected rr.consumed,
    consumed := r.consumed || rr.consumed }

/-- Carrying on from a repair, forgetting its value. -/
abbrev contOne' (ins : Int) (r : Repair τ α) (x : Result τ β) : List (Repair τ β) :=
  contOne ins (fun _ v => v) r x

theorem contOne_joinRep (ins : Int) (r : Repair τ α) (rr : Repair τ β) (x : Result τ γ) :
    contOne' ins (joinRep r rr) x = (contOne' ins rr x).map (joinRep r) := by
  cases x with
  | error e => rfl
  | ok rc =>
    obtain ⟨_, _, _, ex, c⟩ := rc
    obtain ⟨_, _, _, ops, _, _, _, ex', c'⟩ := rr
    cases c <;> cases c' <;> simp [contOne', contOne, joinRep, joinOps, appendExpected]
  | recovered rc =>
    simp only [contOne', contOne, List.map_map]
    apply List.map_congr_left
    intro x _
    obtain ⟨_, _, _, ops, _, _, _, ex, c⟩ := x
    obtain ⟨_, _, _, ops', _, _, _, ex', c'⟩ := rr
    cases c <;> cases c' <;>
      simp [joinRep, joinOps, appendExpected, opsPrepend_append, opsPrepend_prepend, Nat.add_assoc,
        Bool.or_comm]

theorem contOne_prepend (ins : Int) (r : Repair τ α) (e : List String) (c : Bool)
    (x : Result τ β) :
    contOne' ins (r.prependExpected e c) x
      = (contOne' ins r x).map (Repair.prependExpected e c) := by
  cases x with
  | error e => rfl
  | ok rc =>
    obtain ⟨_, _, _, ex, c1⟩ := rc
    obtain ⟨_, _, _, ops, _, _, _, ex', c2⟩ := r
    cases c1 <;> cases c2 <;> simp [contOne', contOne, appendExpected, Repair.prependExpected]
  | recovered rc =>
    simp only [contOne', contOne, List.map_map]
    apply List.map_congr_left
    intro x _
    obtain ⟨_, _, _, ops, _, _, _, ex, c1⟩ := x
    obtain ⟨_, _, _, ops', _, _, _, ex', c2⟩ := r
    cases c1 <;> cases c2 <;>
      simp [joinOps, appendExpected, opsPrepend_append, opsPrepend_prepend, Repair.prependExpected,
        Bool.or_comm]

theorem contReps_append (ins : Int) (k : α → Nat → Ctx τ → Int → Out (Result τ β))
    (a b : List (Repair τ α)) :
    contReps ins k (fun _ v => v) (a ++ b) =
      (contReps ins k (fun _ v => v) a).bind fun x =>
        (contReps ins k (fun _ v => v) b).bind fun y => .ret (x ++ y) := by
  induction a with
  | nil => simp [contReps]
  | cons r rs ih =>
    simp only [List.cons_append, contReps, Out.bind_def, ih, Out.bind_assoc, Out.pure_def,
      Out.bind_ret, List.append_assoc]

/-- Changing the repairs in a way that does not affect where the parse carries on. -/
theorem contReps_map (ins : Int) (k : α → Nat → Ctx τ → Int → Out (Result τ β))
    (f : Repair τ α → Repair τ α) (g : Repair τ β → Repair τ β)
    (hv : ∀ r, (f r).value = r.value) (hp : ∀ r, (f r).pos = r.pos) (hc : ∀ r, (f r).ctx = r.ctx)
    (hi : ∀ r, (f r).ins = r.ins)
    (hx : ∀ r x, contOne' ins (f r) x = (contOne' ins r x).map g) (l : List (Repair τ α)) :
    contReps ins k (fun _ v => v) (l.map f) =
      (contReps ins k (fun _ v => v) l).bind fun x => .ret (x.map g) := by
  induction l with
  | nil => rfl
  | cons r rs ih =>
    simp only [List.map_cons, contReps, Out.bind_def, ih, Out.bind_assoc, Out.pure_def,
      Out.bind_ret, hv, hp, hc, hi, List.map_append]
    apply Out.bind_congr; intro rb
    apply Out.bind_congr; intro rest
    have := hx r rb
    simp only [contOne'] at this
    rw [this]

theorem bindFast_assoc (f : ParseFns τ α) (g : α → ParseFns τ β) (h : β → ParseFns τ γ) :
    (bindFns (bindFns f g) h).fast = (bindFns f fun a => bindFns (g a) h).fast := by
  funext s pos ctx
  simp only [bindFns, bindFast, Out.bind_def, Out.bind_assoc]
  apply Out.bind_congr
  intro ra
  cases ra with
  | error e => rfl
  | ok ra =>
    simp only [Out.bind_assoc, Out.pure_def, Out.bind_ret]
    apply Out.bind_congr
    intro rb
    cases rb with
    | error e => simp [Simple.prependExpected]
    | ok rb =>
      simp only [Simple.prependExpected, Ok.prependExpected_value, Ok.prependExpected_pos,
        Ok.prependExpected_ctx, Out.bind_assoc, Out.bind_ret]
      apply Out.bind_congr
      intro rc
      have := Simple.prepend_prepend rc rb.expected ra.expected rb.consumed ra.consumed
      simp only [Simple.prependExpected] at this
      rw [this]
      obtain ⟨_, _, _, ex, c⟩ := rb
      cases c <;> rfl


/-- The repair that `contOne` makes out of a repair and a success. -/
abbrev okRep (ins : Int) (r : Repair τ α) (rb : Ok τ β) : Repair τ β :=
  { cost := r.cost, prio := r.prio, ins := if r.pos = rb.pos then r.ins else ins, ops := r.ops,
    value := rb.value, pos := rb.pos, ctx := rb.ctx,
    expected := appendExpected r rb.expected rb.consumed, consumed := r.consumed || rb.consumed }

theorem prep_ok (e : List String) (c : Bool) (r : Ok τ α) :
    (Result.ok r).prependExpected e c = .ok (r.prependExpected e c) := rfl

theorem prep_error (e : List String) (c : Bool) (r : Err) :
    (Result.error r : Result τ α).prependExpected e c = .error (r.prependExpected e c) := rfl

theorem prep_recovered (e : List String) (c : Bool) (r : Recovered τ α) :
    (Result.recovered r).prependExpected e c = .recovered (r.prependExpected e c) := rfl

/-- One repair: carrying on with `g` and then with `h` is carrying on with both. -/
theorem contOne_assoc {s : List τ} {ins : Int} {g : ParseFns τ β} {h : β → ParseFns τ γ}
    (hg : Framed g) (hh : ∀ b, Framed (h b)) {r : Repair τ α} (hr : r.pos ≤ s.length)
    {fb : Result τ β} (hfb : g.fn s r.pos r.ctx ins (some r.ins) = .ret fb)
    (x : List (Repair τ γ)) :
    contReps ins (fun v p c k => (h v).fn s p c ins (some k)) (fun _ v => v) (contOne' ins r fb)
        = .ret x ↔
      ∃ rb, (bindFns g h).fn s r.pos r.ctx ins (some r.ins) = .ret rb ∧ x = contOne' ins r rb := by
  have hfr := hg s _ _ _ _ _ hr hfb
  cases fb with
  | error e =>
    simp only [bindFns, bindFn, hfb, Out.bind_def, Out.bind_ret]
    simp only [contOne', contOne, contReps, Out.ret.injEq]
    constructor
    · rintro rfl; exact ⟨_, rfl, rfl⟩
    · rintro ⟨_, rfl, rfl⟩; rfl
  | ok rb =>
    have hf : OkFrame .. := hfr
    have hcons := hf.consumed
    have hrem : (if r.pos = rb.pos then r.ins else ins) = if rb.consumed then ins else r.ins := by
      have := hf.lo
      rw [hcons]
      by_cases he : r.pos = rb.pos
      · simp [he]
      · have : r.pos < rb.pos := by omega
        simp [he, this]
    have key : ∀ rc, (h rb.value).fn s rb.pos rb.ctx ins
          (some (if rb.consumed then ins else r.ins)) = .ret rc →
        contOne' ins (okRep ins r rb) rc
        = contOne' ins r (rc.prependExpected rb.expected rb.consumed) := by
      intro rc hrc
      have hfc := hh rb.value s _ _ _ _ _ hf.hi hrc
      cases rc with
      | error e => rfl
      | ok rc =>
        have hfc : OkFrame .. := hfc
        have h1 := hf.lo
        have h2 := hfc.lo
        have hins : (if rb.pos = rc.pos then if r.pos = rb.pos then r.ins else ins else ins)
            = if r.pos = rc.pos then r.ins else ins := by
          by_cases h3 : rb.pos = rc.pos
          · rw [h3]; simp
          · have : r.pos ≠ rc.pos := by omega
            simp [h3, this]
        simp only [okRep, contOne', contOne, prep_ok, Ok.prependExpected_pos,
          Ok.prependExpected_value, Ok.prependExpected_ctx, hins]
        obtain ⟨_, _, _, ex, c⟩ := rb
        obtain ⟨_, _, _, ex', c'⟩ := rc
        cases c <;> cases c' <;> simp [appendExpected, Ok.prependExpected]
      | recovered rc =>
        simp only [okRep, contOne', contOne, prep_recovered, Recovered.prependExpected,
          List.map_map]
        apply List.map_congr_left
        intro y _
        obtain ⟨_, _, _, ex, c⟩ := rb
        obtain ⟨_, _, _, ops, _, _, _, ex', c'⟩ := y
        cases c <;> cases c' <;>
          simp [appendExpected, Repair.prependExpected, joinOps, opsPrepend_prepend, Bool.or_comm]
    have hbind : (if rb.consumed = true then
          ((h rb.value).fn s rb.pos rb.ctx ins (some ins)).bind fun rc =>
            pure (rc.prependExpected rb.expected rb.consumed)
        else ((h rb.value).fn s rb.pos rb.ctx ins (some r.ins)).bind fun rc =>
            pure (rc.prependExpected rb.expected rb.consumed))
        = ((h rb.value).fn s rb.pos rb.ctx ins
          (some (if rb.consumed then ins else r.ins))).bind fun rc =>
            .ret (rc.prependExpected rb.expected rb.consumed) := by
      cases rb.consumed <;> rfl
    simp only [bindFns, bindFn, hfb, Out.bind_def, Out.bind_ret]
    rw [hbind]
    simp only [contOne', contOne, contReps, Out.bind_def, Out.bind_ret, Out.pure_def,
      List.append_nil, Out.bind_eq_ret, Out.ret.injEq, hrem]
    constructor
    · rintro ⟨rc, h1, rfl⟩
      refine ⟨_, ⟨rc, h1, rfl⟩, ?_⟩
      have := key rc h1
      rw [okRep, hrem] at this
      exact this
    · rintro ⟨_, ⟨rc, h1, rfl⟩, rfl⟩
      refine ⟨rc, h1, ?_⟩
      have := key rc h1
      rw [okRep, hrem] at this
      exact this
  | recovered rr =>
    simp only [bindFns, bindFn, hfb, Out.bind_def, Out.bind_ret]
    have hl : contOne' ins r (.recovered rr) = rr.repairs.map (joinRep r) := rfl
    rw [hl, contReps_map ins _ (joinRep r) (joinRep r) (fun _ => rfl) (fun _ => rfl) (fun _ => rfl)
      (fun _ => rfl) (fun y x => contOne_joinRep ins r y x)]
    simp only [continueParse, Out.bind_def, Out.bind_eq_ret, Out.pure_def, Out.ret.injEq]
    constructor
    · rintro ⟨reps, h1, rfl⟩
      exact ⟨_, ⟨reps, h1, rfl⟩, rfl⟩
    · rintro ⟨_, ⟨reps, h1, rfl⟩, rfl⟩
      exact ⟨reps, h1, rfl⟩

/-- The same for a list of repairs. -/
theorem contReps_assoc {s : List τ} {ins : Int} {g : α → ParseFns τ β} {h : β → ParseFns τ γ}
    (hg : ∀ a, Framed (g a)) (hh : ∀ b, Framed (h b)) (l : List (Repair τ α))
    (hl : ∀ r ∈ l, r.pos ≤ s.length) (z : List (Repair τ γ)) :
    (∃ y, contReps ins (fun v p c k => (g v).fn s p c ins (some k)) (fun _ v => v) l = .ret y ∧
      contReps ins (fun v p c k => (h v).fn s p c ins (some k)) (fun _ v => v) y = .ret z) ↔
    contReps ins (fun v p c k => (bindFns (g v) h).fn s p c ins (some k)) (fun _ v => v) l
      = .ret z := by
  induction l generalizing z with
  | nil => simp [contReps]
  | cons r rs ih =>
    have hr := hl r List.mem_cons_self
    have ih := ih fun r' h' => hl r' (List.mem_cons_of_mem _ h')
    constructor
    · rintro ⟨y, h1, h2⟩
      simp only [contReps, Out.bind_def, Out.bind_eq_ret, Out.pure_def, Out.ret.injEq] at h1
      obtain ⟨fb, h3, rest, h4, rfl⟩ := h1
      rw [contReps_append] at h2
      simp only [Out.bind_eq_ret, Out.ret.injEq] at h2
      obtain ⟨x, h5, y, h6, rfl⟩ := h2
      obtain ⟨rb, h7, rfl⟩ := (contOne_assoc (hg _) hh hr h3 x).1 h5
      have h8 := (ih y).1 ⟨rest, h4, h6⟩
      simp [contReps, h7, h8]
    · intro h1
      simp only [contReps, Out.bind_def, Out.bind_eq_ret, Out.pure_def, Out.ret.injEq] at h1
      obtain ⟨rb, h3, rest, h4, rfl⟩ := h1
      obtain ⟨y, h5, h6⟩ := (ih rest).2 h4
      have h3' := h3
      simp only [bindFns, bindFn, Out.bind_def, Out.bind_eq_ret] at h3'
      obtain ⟨fb, h7, _⟩ := h3'
      have h8 := (contOne_assoc (hg _) hh hr h7 _).2 ⟨rb, h3, rfl⟩
      refine ⟨contOne' ins r fb ++ y, ?_, ?_⟩
      · simp [contReps, h7, h5]
      · rw [contReps_append, h8, h6]; rfl

theorem bindFn_assoc {f : ParseFns τ α} {g : α → ParseFns τ β} {h : β → ParseFns τ γ}
    (hf : Framed f) (hg : ∀ a, Framed (g a)) (hh : ∀ b, Framed (h b)) {s : List τ} {pos : Nat}
    (hp : pos ≤ s.length) (ctx : Ctx τ) (ins : Int) (rem : Option Int) (res : Result τ γ) :
    (bindFns (bindFns f g) h).fn s pos ctx ins rem = .ret res ↔
      (bindFns f fun a => bindFns (g a) h).fn s pos ctx ins rem = .ret res := by
  simp only [bindFns, bindFn, Out.bind_def]
  cases hfp : f.fn s pos ctx ins rem with
  | diverge => rfl
  | raise e => rfl
  | ret ra =>
    cases ra with
    | error e => rfl
    | recovered ra =>
      have hfr : RecFrame .. := hf s _ _ _ _ _ hp hfp
      have key := contReps_assoc (ins := ins) hg hh ra.repairs fun r hr => (hfr.reps r hr).hi
      simp only [bindFns, bindFn, Out.bind_def] at key
      simp only [Out.bind_ret, continueParse, Out.bind_def, Out.bind_eq_ret, Out.pure_def,
        Out.ret.injEq]
      constructor
      · rintro ⟨_, ⟨y, h1, rfl⟩, h2⟩
        simp only [Out.bind_eq_ret, Out.ret.injEq] at h2
        obtain ⟨z, h2, rfl⟩ := h2
        exact ⟨z, (key z).1 ⟨y, h1, h2⟩, rfl⟩
      · rintro ⟨z, h1, rfl⟩
        obtain ⟨y, h2, h3⟩ := (key z).2 h1
        refine ⟨_, ⟨y, h2, rfl⟩, ?_⟩
        simp only [h3, Out.bind_ret]
    | ok ra =>
      apply Iff.of_eq
      congr 1
      have aux : ∀ rem', ((g ra.value).fn s ra.pos ra.ctx ins rem').bind (fun rb =>
            Out.bind (pure (rb.prependExpected ra.expected ra.consumed)) fun x =>
              match x with
              | .error e => .ret (.error e)
              | .recovered ra => continueParse ra ins
                  (fun v p c r => (h v).fn s p c ins (some r)) (fun _ v => v)
              | .ok rb =>
                if rb.consumed then
                  ((h rb.value).fn s rb.pos rb.ctx ins (some ins)).bind fun rc =>
                    pure (rc.prependExpected rb.expected rb.consumed)
                else
                  ((h rb.value).fn s rb.pos rb.ctx ins rem).bind fun rc =>
                    pure (rc.prependExpected rb.expected rb.consumed))
          = ((g ra.value).fn s ra.pos ra.ctx ins rem').bind fun rb =>
            Out.bind (match rb with
              | .error e => .ret (.error e)
              | .recovered ra => continueParse ra ins
                  (fun v p c r => (h v).fn s p c ins (some r)) (fun _ v => v)
              | .ok rb =>
                if rb.consumed then
                  ((h rb.value).fn s rb.pos rb.ctx ins (some ins)).bind fun rc =>
                    pure (rc.prependExpected rb.expected rb.consumed)
                else
                  ((h rb.value).fn s rb.pos rb.ctx ins
                      (if ra.consumed then some ins else rem)).bind fun rc =>
                    pure (rc.prependExpected rb.expected rb.consumed)) fun x =>
              pure (x.prependExpected ra.expected ra.consumed) := by
        intro rem'
        apply Out.bind_congr
        intro fb
        cases fb with
        | error e => simp [prep_error]
        | ok rb =>
          simp only [prep_ok, Out.pure_def, Out.bind_ret, Ok.prependExpected_value,
            Ok.prependExpected_pos, Ok.prependExpected_ctx]
          obtain ⟨v, p', c', ex, c⟩ := rb
          have hpp := fun rc : Result τ γ =>
            Result.prepend_prepend rc ex ra.expected c ra.consumed
          cases c with
          | true =>
            simp only [Ok.prependExpected, if_true, Out.bind_assoc, Out.bind_ret]
            apply Out.bind_congr; intro rc
            have := hpp rc
            simp only [if_true, Bool.true_or] at this
            rw [this]
          | false =>
            simp only [Ok.prependExpected, Bool.false_eq_true, if_false, Bool.false_or,
              Out.bind_assoc, Out.bind_ret]
            have hpp' : ∀ rc : Result τ γ,
                (rc.prependExpected ex false).prependExpected ra.expected ra.consumed
                  = rc.prependExpected (ra.expected ++ ex) ra.consumed := by
              intro rc
              have := hpp rc
              simpa using this
            simp only [hpp']
            cases ra.consumed <;> simp
        | recovered rb =>
          simp only [prep_recovered, Out.pure_def, Out.bind_ret, continueParse,
            Out.bind_def, Recovered.prependExpected]
          rw [contReps_map ins _ (Repair.prependExpected ra.expected ra.consumed)
            (Repair.prependExpected ra.expected ra.consumed) (fun _ => rfl) (fun _ => rfl)
            (fun _ => rfl) (fun _ => rfl) (fun y x => contOne_prepend ins y _ _ x)]
          simp only [Out.bind_assoc, Out.bind_ret, prep_recovered, Recovered.prependExpected]
      cases hc : ra.consumed with
      | true =>
        simp only [Out.bind_ret, hc, if_true, Out.bind_assoc]
        have := aux (some ins)
        simp only [hc, if_true] at this
        exact this
      | false =>
        simp only [Out.bind_ret, hc, Bool.false_eq_true, if_false, Out.bind_assoc]
        have := aux rem
        simp only [hc, Bool.false_eq_true, if_false] at this
        exact this

/-! ### The laws -/

variable [BEq τ] (env : Env τ ρ Γ)

/-- C18. `Pure(x).bind(f)` is `f(x)`. -/
theorem C18_left_identity (x : α) (f : α → P τ ρ Γ β) : Same env (.bind (.pure x) f) (f x) :=
  .of_denote fun n => bindFns_pure_left x fun a => denote env n (f a)

/-- C18. `p.bind(Pure)` is `p`. -/
theorem C18_right_identity (p : P τ ρ Γ α) : Same env (.bind p fun a => .pure a) p :=
  .of_denote fun _ => bindFns_pure_right _

/-- C18. `p.bind(f).bind(g)` is `p.bind(lambda x: f(x).bind(g))`. -/
theorem C18_associativity (p : P τ ρ Γ α) (f : α → P τ ρ Γ β) (g : β → P τ ρ Γ γ) :
    SameReturns env (.bind (.bind p f) g) (.bind p fun a => .bind (f a) g) where
  plain s pos ctx o := Yields.congr fun n => by
    show (bindFns (bindFns _ _) _).fast s pos ctx = _
    rw [bindFast_assoc]; rfl
  recovering s pos ctx ins rem r hp := by
    constructor
    · rintro ⟨n, h⟩
      exact ⟨n, (bindFn_assoc (frame_denote env n p) (fun a => frame_denote env n (f a))
        (fun b => frame_denote env n (g b)) hp ctx ins rem r).1 h⟩
    · rintro ⟨n, h⟩
      exact ⟨n, (bindFn_assoc (frame_denote env n p) (fun a => frame_denote env n (f a))
        (fun b => frame_denote env n (g b)) hp ctx ins rem r).2 h⟩

/-- A concrete case of associativity with repairs: `sym a`, `sym b`, `sym c` on `"c"`. -/
example : ∃ r : Recovered Char Char, r.repairs.length = 1 ∧
    RunRec Samples.noEnv (.bind (.bind (.sym 'a' "a") fun _ => .sym 'b' "b") fun _ => .sym 'c' "c")
      "c".toList 0 (initCtx defaultGetLoc) 5 (some 5) (.ret (.recovered r)) :=
  ⟨_, by rfl, ⟨5, rfl⟩⟩

end Reparsec
