import Verif.Lemmas.Race
import Verif.Props.Delay
import Verif.Spec.Race

/-!
# Invariants of programs that define `Delay` objects in several threads
-/

namespace Reparsec.Race

open Eff (Ev EvFns Steady plainFn)

variable {τ ρ : Type} {Γ : ρ → Type} {α β γ : Type} {ι : Type}

theorem steady_steady (f : α → Except Exn β) : Steady (steady f) := fun _ _ _ => rfl

/-- What the `Delay` objects hold is made from their definitions. -/
def Made (U : Bool) (D : Env τ ρ Γ) (i : ρ) (c : P τ ρ Γ (Γ i)) : Prop :=
  ∃ e, D i = some e ∧ Exp U D e c

section
variable [BEq τ]

theorem ev_denote {seen : Nat → Delays τ ρ Γ} {D : Env τ ρ Γ}
    (hs : ∀ n i, (seen n).fns i = undefinedP ∨ Made true D i ((seen n).fns i)) (n : Nat)
    {e c : P τ ρ Γ α} (h : Exp true D e c) :
    EvFns (Eff.denoteWith n (table seen n) (embed c)) fun m => Reparsec.denote D m e := by
  induction n using Nat.strongRecOn generalizing α with
  | ind n ihn =>
  induction h with
  | late i =>
    cases n with
    | zero => exact .diverge
    | succ n =>
      refine EvFns.succ ?_
      have key : ∀ k, EvFns (Eff.denoteWith n (table seen n) (embed ((seen k).fns i)))
          fun m => Reparsec.denote D (m + 1) (.ref i) := by
        intro k
        rcases hs k i with h | ⟨e, he, hx⟩
        · rw [h]
          exact ⟨fun _ _ _ _ => .inl rfl, fun _ _ _ _ _ _ => .inl rfl⟩
        · show EvFns _ fun m => Reparsec.table D (m + 1) i
          simp only [Reparsec.table, he]
          exact ihn n (by omega) hx
      exact ⟨fun s pos ctx w => (key w.state).fast s pos ctx (tick w),
        fun s pos ctx ins rem w => (key w.state).fn s pos ctx ins rem (tick w)⟩
  | undef i h => exact ⟨fun _ _ _ _ => .inl rfl, fun _ _ _ _ _ _ => .inl rfl⟩
  | @early i e c h h' ih =>
    refine EvFns.succ ?_
    show EvFns _ fun m => Reparsec.table D (m + 1) i
    simp only [Reparsec.table, h]
    exact ih
  | pure | unexpected | eof | sym | literal | regexp => exact .of_does (Eff.does_lift _)
  | pureFn x => exact .of_does (Eff.does_pureFn (steady_steady _) 0)
  | satisfy test => exact .of_does (Eff.does_satisfy (steady_steady _) 0)
  | fmap fn _ ih => exact Eff.ev_fmap ih (steady_steady _) 0
  | alt _ _ ihp ihq => exact Eff.ev_alt ihp ihq
  | bind _ _ ihp ihk =>
    refine Eff.ev_bind ihp fun a => ⟨fun s pos ctx => ?_, fun s pos ctx ins rem => ?_⟩
    · exact fun w => (ihk a).fast s pos ctx _
    · exact fun w => (ihk a).fn s pos ctx ins rem _
  | seqWith m _ _ ihp ihq => exact Eff.ev_seq ihp ihq m
  | maybe _ ih => exact Eff.ev_maybe ih
  | many _ ih => exact Eff.ev_many ih n
  | attempt _ ih => exact Eff.ev_attempt ih
  | label x _ ih => exact Eff.ev_label ih x
  | recover _ ih => exact Eff.ev_recover ih
  | recoverWith x vs _ ih => exact Eff.ev_recoverWith ih x vs
  | recoverWithFn fn lbl _ ih => exact Eff.ev_recoverWithFn ih (steady_steady _) 0 lbl
  | block _ ih => exact Eff.ev_block ih
  | aligned _ ih => exact Eff.ev_aligned ih
  | indented d _ ih => exact Eff.ev_indented ih d

theorem outcome_eq {σ : Type} (x : Run σ α) : outcome x = x.out := by cases x <;> rfl

theorem ev_parse {seen : Nat → Delays τ ρ Γ} {D : Env τ ρ Γ}
    (hs : ∀ n i, (seen n).fns i = undefinedP ∨ Made true D i ((seen n).fns i)) (n : Nat)
    {e : P τ ρ Γ α} {o : Obj τ ρ Γ α} (h : Exp true D e o.call) (s : List τ) (b : Bool) (k : Int)
    (gl : Loc → List τ → Nat → Loc) :
    parse seen n o s b k gl = .raise undefinedExn ∨
      Conv (fun m => Reparsec.parse D m e s b k gl) (parse seen n o s b k gl) := by
  unfold parse Reparsec.parse
  have hd := ev_denote hs n h
  cases b with
  | true => simpa [outcome_eq, denote] using hd.fn s 0 (initCtx gl) k (some k) ⟨0, []⟩
  | false =>
    simp only [outcome_eq, Bool.false_eq_true, if_false]
    rcases hd.fast s 0 (initCtx gl) ⟨0, []⟩ with h' | h'
    · exact .inl (by simp only [denote, h']; rfl)
    · exact .inr (Conv.bind h' fun _ => .refl _)

end

/-! ### What all programs keep -/

variable [DecidableEq ρ]

/-- What is known about a thread. -/
def CallOk (U : Bool) (D D' : Env τ ρ Γ) : Call τ ρ Γ → Prop
  | .build R => ∀ {α : Type} (e : P τ ρ Γ α) c, R _ e c → Exp U D' e c
  | .checked i o => ∃ e, D i = some e ∧ Stands U D' e o
  | .marked i o => ∃ e, D i = some e ∧ Stands U D' e o
  | .got i c => ∃ e, D i = some e ∧ Exp U D' e c

/-- What is known in all states. -/
structure Inv (D : Env τ ρ Γ) (st : State τ ρ Γ ι) : Prop where
  fns : ∀ i, st.delays.fns i = undefinedP ∨ Made true D i (st.delays.fns i)
  objs : ∀ {α : Type} (e : P τ ρ Γ α) o, st.objs _ e o → Stands true D e o
  call : ∀ t, CallOk true D D (st.call t)

omit [DecidableEq ρ] in
theorem Inv.toFns {D : Env τ ρ Γ} {S : Delays τ ρ Γ}
    (hs : ∀ i, S.fns i = undefinedP ∨ Made true D i (S.fns i))
    {e : P τ ρ Γ α} {o : Obj τ ρ Γ α} (h : Stands true D e o) : Exp true D e (toFns S o) := by
  cases h with
  | delay i =>
    simp only [Race.toFns]
    split
    · rcases hs i with h | ⟨e, h, hx⟩
      · rw [h]; exact .undef i rfl
      · exact .early h hx
    · exact .late i
  | fn h => exact h

theorem Delays.assign_self (S : Delays τ ρ Γ) (i : ρ) (c : P τ ρ Γ (Γ i)) :
    (S.assign i c).fns i = c := by
  simp [Delays.assign]

theorem Delays.assign_ne (S : Delays τ ρ Γ) {i j : ρ} (c : P τ ρ Γ (Γ i)) (h : i ≠ j) :
    (S.assign i c).fns j = S.fns j := by
  simp [Delays.assign, h]

omit [DecidableEq ρ] in
theorem Inv.start (D : Env τ ρ Γ) : Inv D (start : State τ ρ Γ ι) :=
  ⟨fun _ => .inl rfl, fun _ _ h => absurd h id, fun _ _ _ _ h => absurd h id⟩

theorem Inv.move {D : Env τ ρ Γ} {may : {α : Type} → Obj τ ρ Γ α → Prop} {S S' : Delays τ ρ Γ} {K K' : Objects τ ρ Γ} {c c' : Call τ ρ Γ}
    (hm : Move D may S K c S' K' c') (h1 : ∀ i, S.fns i = undefinedP ∨ Made true D i (S.fns i))
    (h2 : ∀ {α : Type} (e : P τ ρ Γ α) o, K _ e o → Stands true D e o)
    (h3 : CallOk true D D c) :
    (∀ i, S'.fns i = undefinedP ∨ Made true D i (S'.fns i)) ∧
      (∀ {α : Type} (e : P τ ρ Γ α) o, K' _ e o → Stands true D e o) ∧ CallOk true D D c' := by
  cases hm with
  | part hk _ =>
    refine ⟨h1, h2, fun e c h => ?_⟩
    cases h with
    | old h => exact h3 _ _ h
    | new => exact Inv.toFns h1 (h2 _ _ hk)
  | made hb =>
    refine ⟨h1, fun e o h => ?_, fun e c h => absurd h id⟩
    cases h with
    | old h => exact h2 _ _ h
    | new => exact hb.stands h2 h3
  | refused h => exact ⟨h1, h2, fun e c h => absurd h id⟩
  | check hd hk hf => exact ⟨h1, h2, _, hd, h2 _ _ hk⟩
  | mark => exact ⟨h1, h2, h3⟩
  | get _ =>
    obtain ⟨e, he, hs⟩ := h3
    exact ⟨h1, h2, e, he, Inv.toFns h1 hs⟩
  | @assign i c =>
    refine ⟨fun j => ?_, h2, fun e c h => absurd h id⟩
    by_cases hij : i = j
    · subst hij
      rw [Delays.assign_self]
      exact .inr h3
    · rw [Delays.assign_ne _ _ hij]
      exact h1 j

theorem Inv.step {D : Env τ ρ Γ} {may : Rule τ ρ Γ ι} {st st' : State τ ρ Γ ι} {t : ι} (h : Inv D st)
    (hs : Step D may t st st') : Inv D st' := by
  obtain ⟨h1, h2, h3⟩ := Inv.move hs.1 h.fns h.objs (h.call t)
  refine ⟨h1, h2, fun u => ?_⟩
  by_cases hu : u = t
  · subst hu; exact h3
  · rw [hs.2 u hu]; exact h.call u

theorem Inv.later {D : Env τ ρ Γ} {may : Rule τ ρ Γ ι} {T : ι → Prop} {st st' : State τ ρ Γ ι} (h : Inv D st)
    (hl : Later D may T st st') : Inv D st' := by
  induction hl with
  | refl => exact h
  | step t _ _ hs ih => exact ih.step hs

theorem Reachable.inv {D : Env τ ρ Γ} {may : Rule τ ρ Γ ι} {st : State τ ρ Γ ι} (h : Reachable D may st) : Inv D st :=
  (Inv.start D).later h

/-! ### What careful programs keep -/

/-- The definitions of the `Delay` objects that count as defined. -/
def soFar (D : Env τ ρ Γ) (S : Delays τ ρ Γ) : Env τ ρ Γ := fun i =>
  if S.defined i then D i else none

/-- What is known about a thread in a careful program, in addition. -/
def CallDefined (S : Delays τ ρ Γ) : Call τ ρ Γ → Prop
  | .build _ => True
  | .checked _ _ => True
  | .marked i _ => S.defined i = true
  | .got i _ => S.defined i = true

/-- What is known in all states of a careful program. -/
structure InvC (D : Env τ ρ Γ) (st : State τ ρ Γ ι) : Prop where
  fns : ∀ i, st.delays.defined i = true →
    Halfway st i ∨ ∃ e, D i = some e ∧ Exp false (soFar D st.delays) e (st.delays.fns i)
  undef : ∀ i, st.delays.defined i = false → st.delays.fns i = undefinedP
  some : ∀ i, st.delays.defined i = true → ∃ e, D i = some e
  objs : ∀ {α : Type} (e : P τ ρ Γ α) o, st.objs _ e o → Stands false (soFar D st.delays) e o
  call : ∀ t, CallOk false D (soFar D st.delays) (st.call t)
  defd : ∀ t, CallDefined st.delays (st.call t)

omit [DecidableEq ρ] in
theorem InvC.start (D : Env τ ρ Γ) : InvC D (start : State τ ρ Γ ι) :=
  ⟨fun _ h => by simp [Race.start, Delays.init] at h, fun _ _ => rfl,
    fun _ h => by simp [Race.start, Delays.init] at h,
    fun _ _ h => absurd h id, fun _ _ _ _ h => absurd h id, fun _ => trivial⟩

omit [DecidableEq ρ] in
theorem InvC.toFns {D : Env τ ρ Γ} {st : State τ ρ Γ ι} (hi : InvC D st)
    {e : P τ ρ Γ α} {o : Obj τ ρ Γ α} (hc : carefully st o)
    (h : Stands false (soFar D st.delays) e o) :
    Exp false (soFar D st.delays) e (toFns st.delays o) := by
  cases h with
  | delay i =>
    simp only [Race.toFns]
    split
    next hd =>
      rcases hi.fns i hd with h | ⟨e, h, hx⟩
      · exact absurd h hc
      · exact .early (by simp [soFar, hd, h]) hx
    · exact .late i
  | fn h => exact h

omit [DecidableEq ρ] in
theorem _root_.Reparsec.Stands.mono {U : Bool} {D D' : Env τ ρ Γ} (hD : ∀ i e, D i = some e → D' i = some e)
    {e : P τ ρ Γ α} {o : Obj τ ρ Γ α} (h : Stands U D e o) : Stands U D' e o := by
  cases h with
  | delay i => exact .delay i
  | fn h => exact .fn (h.mono hD)

omit [DecidableEq ρ] in
theorem CallOk.mono {U : Bool} {D0 D D' : Env τ ρ Γ} (hD : ∀ i e, D i = some e → D' i = some e)
    {c : Call τ ρ Γ} (h : CallOk U D0 D c) : CallOk U D0 D' c := by
  cases c with
  | build R => exact fun e c hc => (h e c hc).mono hD
  | checked i o => obtain ⟨e, h1, h2⟩ := h; exact ⟨e, h1, h2.mono hD⟩
  | marked i o => obtain ⟨e, h1, h2⟩ := h; exact ⟨e, h1, h2.mono hD⟩
  | got i c => obtain ⟨e, h1, h2⟩ := h; exact ⟨e, h1, h2.mono hD⟩

/-- The thread is halfway through defining `i`. -/
def Half (i : ρ) : Call τ ρ Γ → Prop
  | .build _ => False
  | .checked _ _ => False
  | .marked j _ => j = i
  | .got j _ => j = i

omit [DecidableEq ρ] in
theorem halfway_iff {st : State τ ρ Γ ι} {i : ρ} : Halfway st i ↔ ∃ t, Half i (st.call t) := by
  constructor
  · rintro ⟨t, ⟨o, h⟩ | ⟨c, h⟩⟩ <;> exact ⟨t, by rw [h]; rfl⟩
  · rintro ⟨t, h⟩
    refine ⟨t, ?_⟩
    cases hc : st.call t with
    | build R => rw [hc] at h; exact h.elim
    | checked j o => rw [hc] at h; exact h.elim
    | marked j o => rw [hc] at h; cases h; exact .inl ⟨o, rfl⟩
    | got j c => rw [hc] at h; cases h; exact .inr ⟨c, rfl⟩

omit [DecidableEq ρ] in
theorem halfway_step {st st' : State τ ρ Γ ι} {t : ι} {i : ρ}
    (hu : ∀ u, u ≠ t → st'.call u = st.call u)
    (ht : Half i (st.call t) → Half i (st'.call t)) (h : Halfway st i) : Halfway st' i := by
  rw [halfway_iff] at h ⊢
  obtain ⟨u, h⟩ := h
  by_cases he : u = t
  · subst he; exact ⟨u, ht h⟩
  · exact ⟨u, by rw [hu u he]; exact h⟩

theorem soFar_mark (D : Env τ ρ Γ) (S : Delays τ ρ Γ) (i j : ρ) (e : P τ ρ Γ (Γ j))
    (h : soFar D S j = some e) : soFar D (S.mark i) j = some e := by
  simp only [soFar, Delays.mark] at h ⊢
  split at h
  next hd => simp [hd, h]
  · cases h

theorem InvC.step {D : Env τ ρ Γ} {st st' : State τ ρ Γ ι} {t : ι} (hi : InvC D st)
    (hs : Step D carefully t st st') : InvC D st' := by
  obtain ⟨hm, hu⟩ := hs
  have hhalf := fun i => halfway_step (i := i) hu
  obtain ⟨S', K', c'⟩ := st'
  have hct := hi.call t
  have hdt := hi.defd t
  simp only at hm hu hhalf
  -- what is left to show when the `Delay` objects do not change
  have same : S' = st.delays →
      (∀ i, Half i (st.call t) → Half i (c' t)) →
      (∀ {α : Type} (e : P τ ρ Γ α) o, K' _ e o → Stands false (soFar D st.delays) e o) →
      CallOk false D (soFar D st.delays) (c' t) → CallDefined st.delays (c' t) →
      InvC D ⟨S', K', c'⟩ := by
    intro hS hh hK h1 h2
    subst hS
    refine ⟨fun i hd => (hi.fns i hd).imp (hhalf i (hh i)) id, hi.undef, hi.some, hK,
      fun u => ?_, fun u => ?_⟩
    · by_cases he : u = t
      · subst he; exact h1
      · simp only [hu u he]; exact hi.call u
    · by_cases he : u = t
      · subst he; exact h2
      · simp only [hu u he]; exact hi.defd u
  generalize hS : st.delays = S at hm hdt same
  generalize hc : st.call t = x at hm hct hdt same hhalf
  generalize hc' : c' t = x' at hm same hhalf
  generalize hK : st.objs = K at hm
  cases hm with
  | part hk hmay =>
    refine same rfl (fun i h => h.elim) (fun e o h => ?_) (fun e c h => ?_) trivial
    · exact hS ▸ hi.objs e o (hK ▸ h)
    · cases h with
      | old h => exact hS ▸ hct _ _ h
      | new => exact hS ▸ hi.toFns hmay (hi.objs _ _ (hK ▸ hk))
  | made hb =>
    refine same rfl (fun i h => h.elim) (fun e o h => ?_) (fun e c h => absurd h id) trivial
    have hK' : ∀ {α : Type} (e : P τ ρ Γ α) o, K _ e o → Stands false (soFar D S') e o :=
      fun e o h => hS ▸ hi.objs e o (hK ▸ h)
    cases h with
    | old h => exact hK' _ _ h
    | new => exact hb.stands hK' fun e c h => hS ▸ hct e c h
  | refused h =>
    exact same rfl (fun i h => h.elim) (fun e o h => hS ▸ hi.objs e o (hK ▸ h))
      (fun e c h => absurd h id) trivial
  | check hd hk hf =>
    exact same rfl (fun i h => h.elim) (fun e o h => hS ▸ hi.objs e o (hK ▸ h))
      ⟨_, hd, hS ▸ hi.objs _ _ (hK ▸ hk)⟩ trivial
  | get hmay =>
    obtain ⟨e, he, hst⟩ := hct
    refine same rfl (fun i h => h) (fun e o h => hS ▸ hi.objs e o (hK ▸ h))
      ⟨e, he, hS ▸ hi.toFns hmay hst⟩ hdt
  | @mark i o =>
    subst hS hK
    have hmono := soFar_mark D st.delays i
    obtain ⟨e, he, hst⟩ := hct
    refine ⟨fun j hd => ?_, fun j hd => ?_, fun j hd => ?_, fun e o h => (hi.objs e o h).mono hmono,
      fun u => ?_, fun u => ?_⟩
    · by_cases hij : j = i
      · subst hij
        exact .inl (halfway_iff.2 ⟨t, by simp only [hc']; rfl⟩)
      · have hd : st.delays.defined j = true := by simpa [Delays.mark, hij] using hd
        rcases hi.fns j hd with h | ⟨e, h, hx⟩
        · exact .inl (hhalf j (fun h => h.elim) h)
        · exact .inr ⟨e, h, hx.mono hmono⟩
    · by_cases hij : j = i
      · simp [Delays.mark, hij] at hd
      · exact hi.undef j (by simpa [Delays.mark, hij] using hd)
    · by_cases hij : j = i
      · subst hij; exact ⟨e, he⟩
      · exact hi.some j (by simpa [Delays.mark, hij] using hd)
    · by_cases hut : u = t
      · subst hut; simp only [hc']; exact ⟨e, he, hst.mono hmono⟩
      · simp only [hu u hut]; exact (hi.call u).mono hmono
    · by_cases hut : u = t
      · subst hut; simp only [hc']; simp [CallDefined, Delays.mark]
      · simp only [hu u hut]
        have := hi.defd u
        cases h : st.call u with
        | build R => trivial
        | checked j o => trivial
        | marked j o => rw [h] at this; simp [CallDefined, Delays.mark] at this ⊢; exact .inr this
        | got j o => rw [h] at this; simp [CallDefined, Delays.mark] at this ⊢; exact .inr this
  | @assign i c =>
    subst hS hK
    refine ⟨fun j hd => ?_, fun j hd => ?_, hi.some, hi.objs, fun u => ?_, fun u => ?_⟩
    · by_cases hij : i = j
      · subst hij
        simp only [Delays.assign_self]
        exact .inr hct
      · simp only [Delays.assign_ne _ _ hij]
        rcases hi.fns j hd with h | h
        · exact .inl (hhalf j (fun h => absurd h hij) h)
        · exact .inr h
    · have hij : i ≠ j := by
        rintro rfl
        simp only [CallDefined] at hdt
        rw [show (st.delays.assign i c).defined i = st.delays.defined i from rfl, hdt] at hd
        cases hd
      simp only [Delays.assign_ne _ _ hij]
      exact hi.undef j hd
    · by_cases hut : u = t
      · subst hut; simp only [hc']; exact fun e c h => absurd h id
      · simp only [hu u hut]; exact hi.call u
    · by_cases hut : u = t
      · subst hut; simp only [hc']; trivial
      · simp only [hu u hut]; exact hi.defd u

theorem Reachable.invC {D : Env τ ρ Γ} {st : State τ ρ Γ ι} (h : Reachable D carefully st) :
    InvC D st := by
  induction h with
  | refl => exact .start D
  | step t _ _ hs ih => exact ih.step hs

end Reparsec.Race
