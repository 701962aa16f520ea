import Verif.Lemmas.Sound

/-!
# Soundness, continued: primitives, the remaining combinators, and the induction
-/

namespace Reparsec

variable {τ ρ : Type} {Γ : ρ → Type} {α β γ : Type} {s : List τ}

section
variable [BEq τ] {env : Env τ ρ Γ} {D : LocDisc s}

/-! ### Primitives -/

theorem RepSound.skip {p : P τ ρ Γ α} {pos k stop : Nat} {ctx : Ctx τ} {ins rem : Int} {v : α}
    {e : List String} (hd : Der env s D.col p ctx.mark pos [.skip pos (k - pos)] v stop)
    (hp : pos ≤ s.length) (hc : CtxOK D ctx pos) (hlt : pos < stop) :
    RepSound env D p pos ctx ins (some rem)
      (makeSkip ins v stop (ctx.updateLoc s stop) (ctx.getLoc s pos) (k - pos) e)
      [.skip pos (k - pos)] := by
  have ho := der_inOrder hd hp
  exact ⟨hd, .cons rfl (hc.report (Nat.le_refl _) hp) .nil,
    hc.updateLoc ho.1.le ho.2, fun hr => .skip _ _ _ hlt hr, by simp,
    by simp [makeSkip, startsAuto, Step.skip]⟩

theorem RepSound.insert {p : P τ ρ Γ α} {pos : Nat} {ctx : Ctx τ} {ins rem : Int} {v : α}
    {l : String} {e : List String} (hd : Der env s D.col p ctx.mark pos [.autoInsert pos l] v pos)
    (hp : pos ≤ s.length) (hc : CtxOK D ctx pos) (hne : rem ≠ 0) :
    RepSound env D p pos ctx ins (some rem)
      (makeInsert rem v pos ctx (ctx.getLoc s pos) l e) [.autoInsert pos l] :=
  ⟨hd, .cons rfl (hc.report (Nat.le_refl _) hp) .nil, hc, fun hr => .insert _ _ hne hr, by simp,
    by simp [makeInsert, startsAuto, Step.autoInsert]⟩

theorem stuck_satisfy {test : τ → Except Exn Bool} {m pos : Nat}
    (h : testAt test s pos = .ok none) :
    Stuck env s D.col (.satisfy test : P τ ρ Γ τ) m pos pos := by
  refine .satisfy fun t ht => ?_
  unfold testAt at h
  rw [ht] at h
  simp only at h
  cases hb : test t with
  | error e => simp [hb] at h
  | ok b => cases b with
    | false => rfl
    | true => simp [hb] at h

theorem stuck_sym {x : τ} {l : String} {m pos : Nat}
    (h : symAt x s pos = none) : Stuck env s D.col (.sym x l : P τ ρ Γ τ) m pos pos := by
  refine .sym fun t ht => ?_
  unfold symAt at h
  rw [ht] at h
  simp only at h
  cases hb : t == x with
  | false => rfl
  | true => simp [hb] at h

theorem stuck_literal {x : List τ} {ss : String} {hx : x ≠ []} {m pos : Nat}
    (h : ¬ startsWith x s pos = true) :
    Stuck env s D.col (.literal x ss hx : P τ ρ Γ (List τ)) m pos pos := by
  refine .literal ?_
  simpa [startsWith] using h

theorem stuck_regexp {mt : Matcher τ β} {m pos : Nat} (h : mt.at s pos = .ok none) :
    Stuck env s D.col (.regexp mt : P τ ρ Γ β) m pos pos := by
  refine .regexp fun j v hr => ?_
  unfold Matcher.at at h
  rw [hr] at h
  simp at h

theorem sound_pureFn (x : Except Exn α) :
    SoundAt env D (.pureFn x : P τ ρ Γ α) (pureFnFns x) := by
  constructor
  · intro pos ctx ins rem r hp hc hr
    cases x with
    | error e => simp [pureFnFns] at hr
    | ok v => simp [pureFnFns] at hr; subst hr; exact ⟨.pureFn rfl, hc⟩
  · intro pos ctx e hp hc hr
    cases x with
    | error e => simp [pureFnFns] at hr
    | ok v => simp [pureFnFns] at hr

theorem sound_pure (x : α) : SoundAt env D (.pure x : P τ ρ Γ α) (pureFns x) := by
  constructor
  · intro pos ctx ins rem r hp hc hr
    simp [pureFns] at hr; subst hr; exact ⟨.pure, hc⟩
  · intro pos ctx e hp hc hr
    simp [pureFns] at hr

theorem sound_unexpected (x : String) :
    SoundAt env D (.unexpected x : P τ ρ Γ Unit) (unexpectedFns x) := by
  constructor
  · intro pos ctx ins rem r hp hc hr
    simp [unexpectedFns] at hr; subst hr; exact hc.errLoc hp .unexpected
  · intro pos ctx e hp hc hr
    simp [unexpectedFns] at hr; subst hr; exact hc.errLoc hp .unexpected

theorem sound_eof : SoundAt env D (.eof : P τ ρ Γ Unit) eofFns := by
  constructor
  · intro pos ctx ins rem r hp hc hr
    simp only [eofFns, eofFn] at hr
    split at hr
    · next he => simp at hr; subst hr; subst he; exact ⟨.eof, hc⟩
    · next hne =>
      have hst : Stuck env s D.col (.eof : P τ ρ Γ Unit) ctx.mark pos pos := .eof hne
      split at hr
      · simp at hr; subst hr; exact hc.errLoc hp hst
      · simp at hr; subst hr
        refine ⟨hc.errLoc hp hst, ?_⟩
        simp only [List.mem_singleton]
        rintro _ rfl
        exact ⟨_, .eofSkip (by omega), .cons rfl (hc.report (Nat.le_refl _) hp) .nil,
          hc.stay hp (Nat.le_refl _),
          fun hr => .skip _ _ _ (by simp only [makePendingSkip]; omega) hr, by simp,
          by simp [makePendingSkip, startsAuto, Step.skip]⟩
  · intro pos ctx e hp hc hr
    simp only [eofFns, eofFast] at hr
    split at hr
    · simp at hr
    · next hne => simp at hr; subst hr; exact hc.errLoc hp (.eof hne)

theorem sound_satisfy (test : τ → Except Exn Bool) :
    SoundAt env D (.satisfy test : P τ ρ Γ τ) (satisfyFns test) := by
  constructor
  · intro pos ctx ins rem r hp hc hr
    simp only [satisfyFns, satisfyFn, Out.bind_def, Out.bind_eq_ret, Out.ofExcept_eq_ret] at hr
    obtain ⟨x, h1, h2⟩ := hr
    cases x with
    | some t =>
      have := testAt_lt h1
      have h3 := testAt_some h1
      simp at h2; subst h2
      exact ⟨.satisfy h3.1 h3.2, hc.stay (by simp) (by simp only; omega)⟩
    | none =>
      have hst := stuck_satisfy (env := env) (D := D) (m := ctx.mark) h1
      cases rem with
      | none => simp at h2; subst h2; exact hc.errLoc hp hst
      | some rem =>
        simp only [Out.bind_eq_ret, Out.ofExcept_eq_ret] at h2
        obtain ⟨y, h3, h4⟩ := h2
        cases y with
        | none => simp at h4; subst h4; exact hc.errLoc hp hst
        | some y =>
          obtain ⟨cur, t⟩ := y
          obtain ⟨h5, h6, h7, _⟩ := scan_some h3
          have h8 := testAt_some h7
          simp at h4; subst h4
          refine ⟨hc.errLoc hp hst, ?_⟩
          simp only [List.mem_singleton]
          rintro _ rfl
          exact ⟨_, .skip (.satisfySkip (by omega) h8.1 h8.2) hp hc (by omega)⟩
  · intro pos ctx e hp hc hr
    simp only [satisfyFns, satisfyFast, Out.bind_def, Out.bind_eq_ret, Out.ofExcept_eq_ret] at hr
    obtain ⟨x, h1, h2⟩ := hr
    cases x with
    | some t => simp at h2
    | none => simp at h2; subst h2; exact hc.errLoc hp (stuck_satisfy h1)

theorem sound_sym (x : τ) (l : String) : SoundAt env D (.sym x l : P τ ρ Γ τ) (symFns x l) := by
  constructor
  · intro pos ctx ins rem r hp hc hr
    simp only [symFns, symFn] at hr
    split at hr
    · next t ht =>
      have := symAt_lt ht
      have h3 := symAt_some ht
      simp at hr; subst hr
      exact ⟨.sym h3.1 h3.2, hc.stay (by simp) (by simp only; omega)⟩
    · next hno =>
      have hst : Stuck env s D.col (.sym x l : P τ ρ Γ τ) ctx.mark pos pos := stuck_sym hno
      split at hr
      · simp at hr; subst hr; exact hc.errLoc hp hst
      · next rem =>
        simp only [Out.bind_def, Out.bind_eq_ret, Out.ofExcept_eq_ret] at hr
        obtain ⟨y, h3, h4⟩ := hr
        have hreps : ∀ p ∈ (if rem ≠ 0 then
            [makeInsert rem x pos ctx (ctx.getLoc s pos) l [l]] else []),
            ∃ es, RepSound env D (.sym x l : P τ ρ Γ τ) pos ctx ins (some rem) p es := by
          split
          · next hne =>
            simp only [List.mem_singleton]; rintro _ rfl
            exact ⟨_, .insert .symInsert hp hc hne⟩
          · simp
        cases y with
        | none => simp only [Out.ret.injEq] at h4; subst h4; exact ⟨hc.errLoc hp hst, hreps⟩
        | some y =>
          obtain ⟨cur, t⟩ := y
          obtain ⟨h5, h6, h7, _⟩ := scan_some h3
          simp only [Except.ok.injEq] at h7
          have h8 := symAt_some h7
          simp only [Out.ret.injEq] at h4; subst h4
          refine ⟨hc.errLoc hp hst, ?_⟩
          intro p hm
          rcases List.mem_append.1 hm with hm | hm
          · exact hreps p hm
          · simp only [List.mem_singleton] at hm; subst hm
            exact ⟨_, .skip (.symSkip (by omega) h8.1 h8.2) hp hc (by omega)⟩
  · intro pos ctx e hp hc hr
    simp only [symFns, symFast] at hr
    split at hr
    · simp at hr
    · next hno => simp at hr; subst hr; exact hc.errLoc hp (stuck_sym hno)

theorem sound_literal (x : List τ) (ss : String) (hx : x ≠ []) :
    SoundAt env D (.literal x ss hx : P τ ρ Γ (List τ)) (literalFns x ss) := by
  have hlen : 0 < x.length := List.length_pos_iff.2 hx
  constructor
  · intro pos ctx ins rem r hp hc hr
    simp only [literalFns, literalFn] at hr
    split at hr
    · next ht =>
      have := startsWith_le hx ht
      simp at hr; subst hr
      exact ⟨.literal ht, hc.updateLoc (by omega) this⟩
    · next hno =>
      have hst : Stuck env s D.col (.literal x ss hx : P τ ρ Γ (List τ)) ctx.mark pos pos :=
        stuck_literal hno
      split at hr
      · simp at hr; subst hr; exact hc.errLoc hp hst
      · next rem =>
        simp only [Out.bind_def, Out.bind_eq_ret, Out.ofExcept_eq_ret] at hr
        obtain ⟨y, h3, h4⟩ := hr
        have hreps : ∀ p ∈ (if rem ≠ 0 then
            [makeInsert rem x pos ctx (ctx.getLoc s pos) ss [ss]] else []),
            ∃ es, RepSound env D (.literal x ss hx : P τ ρ Γ (List τ)) pos ctx ins (some rem) p
              es := by
          split
          · next hne =>
            simp only [List.mem_singleton]; rintro _ rfl
            exact ⟨_, .insert .literalInsert hp hc hne⟩
          · simp
        cases y with
        | none => simp only [Out.ret.injEq] at h4; subst h4; exact ⟨hc.errLoc hp hst, hreps⟩
        | some y =>
          obtain ⟨cur, t⟩ := y
          obtain ⟨h5, h6, h7, _⟩ := scan_some h3
          simp only [Out.ret.injEq] at h4; subst h4
          have hsw : startsWith x s cur = true := by
            by_cases h : startsWith x s cur = true
            · exact h
            · simp [h] at h7
          refine ⟨hc.errLoc hp hst, ?_⟩
          intro p hm
          rcases List.mem_append.1 hm with hm | hm
          · exact hreps p hm
          · simp only [List.mem_singleton] at hm; subst hm
            exact ⟨_, .skip (.literalSkip (by omega) hsw) hp hc (by omega)⟩
  · intro pos ctx e hp hc hr
    simp only [literalFns, literalFast] at hr
    split at hr
    · simp at hr
    · next hno => simp at hr; subst hr; exact hc.errLoc hp (stuck_literal hno)

omit [BEq τ] in
theorem Matcher.at_some {m : Matcher τ β} {pos e : Nat} {v : β}
    (h : m.at s pos = .ok (some (e, v))) : m.run s pos = some (e, .ok (some v)) := by
  unfold Matcher.at at h
  split at h
  · simp at h
  · simp at h
  · simp at h
  · next hr => simp at h; obtain ⟨rfl, rfl⟩ := h; exact hr

theorem sound_regexp (m : Matcher τ β) :
    SoundAt env D (.regexp m : P τ ρ Γ β) (regexpFns m) := by
  constructor
  · intro pos ctx ins rem r hp hc hr
    simp only [regexpFns, regexpFn, Out.bind_def, Out.bind_eq_ret, Out.ofExcept_eq_ret] at hr
    obtain ⟨x, h1, h2⟩ := hr
    cases x with
    | some t =>
      obtain ⟨e, v⟩ := t
      obtain ⟨h3, h4⟩ := m.at_bounds hp h1
      simp at h2; subst h2
      exact ⟨.regexp (Matcher.at_some h1), hc.updateLoc h3 h4⟩
    | none =>
      have hst := stuck_regexp (env := env) (D := D) (m := ctx.mark) h1
      cases rem with
      | none => simp at h2; subst h2; exact hc.errLoc hp hst
      | some rem =>
        simp only [Out.bind_eq_ret, Out.ofExcept_eq_ret] at h2
        obtain ⟨y, h3, h4⟩ := h2
        cases y with
        | none => simp at h4; subst h4; exact hc.errLoc hp hst
        | some y =>
          obtain ⟨cur, e, v⟩ := y
          obtain ⟨h5, h6, h7, _⟩ := scan_some h3
          obtain ⟨h8, h9⟩ := m.at_bounds (by omega) h7
          simp at h4; subst h4
          refine ⟨hc.errLoc hp hst, ?_⟩
          simp only [List.mem_singleton]
          rintro _ rfl
          exact ⟨_, .skip (.regexpSkip (by omega) (by omega) (Matcher.at_some h7)) hp hc
            (by omega)⟩
  · intro pos ctx e hp hc hr
    simp only [regexpFns, regexpFast, Out.bind_def, Out.bind_eq_ret, Out.ofExcept_eq_ret] at hr
    obtain ⟨x, h1, h2⟩ := hr
    cases x with
    | some t => simp at h2
    | none => simp at h2; subst h2; exact hc.errLoc hp (stuck_regexp h1)

/-! ### The remaining combinators -/

theorem sound_manyFast {p : P τ ρ Γ α} {f : ParseFns τ α} (hfs : Sim f) (hf' : Framed f)
    (hf : SoundAt env D p f) (fuel : Nat) :
    ∀ pos0 mark pos ctx c v e vs, pos0 ≤ pos → pos ≤ s.length → CtxOK D ctx pos →
      ctx.mark = mark → DerRep env s D.col p mark pos0 vs pos →
      manyFastLoop f.fast s fuel pos ctx c v = .ret (.error e) →
      ErrLoc env D (.many p) mark pos0 e.loc := by
  induction fuel with
  | zero => intro _ _ _ _ _ _ _ _ _ _ _ _ _ h; simp [manyFastLoop] at h
  | succ n ih =>
    intro pos0 mark pos ctx c v e vs h0 h1 hc hm hrep h
    simp only [manyFastLoop, Out.bind_def, Out.bind_eq_ret] at h
    obtain ⟨x, h2, h3⟩ := h
    cases x with
    | ok o =>
      have hok := hfs.ok h2 0 none
      have hx : OkSound .. := hf.fn pos ctx 0 none _ h1 hc hok
      have hfx : OkFrame .. := hf' s pos ctx 0 none _ h1 hok
      have := hfx.lo
      simp only at h3
      split at h3
      · have hd := hx.der
        rw [hm] at hd
        exact ih pos0 mark o.pos o.ctx true _ e _ (by omega) hfx.hi hx.ctx
          (hfx.ctx.mark.trans hm) (hrep.snoc hd) h3
      · simp at h3
    | error e' =>
      simp only at h3
      split at h3
      · simp at h3; subst h3
        have hx := hf.fast pos ctx _ h1 hc h2
        rw [hm] at hx
        exact hx.mono fun q hq => hrep.stuck (.manyHere hq)
      · simp at h3

theorem sound_many {p : P τ ρ Γ α} {f : ParseFns τ α} (hfs : Sim f) (hf' : Framed f)
    (hf : SoundAt env D p f) (fuel : Nat) : SoundAt env D (.many p) (manyFns fuel f) := by
  constructor
  · intro pos ctx ins rem r hp hc hr
    exact sound_manyLoop hf' hf ins fuel pos ctx.mark pos ctx false [] r rem (Nat.le_refl _) hp hc
      rfl .nil hr ctx rfl
  · intro pos ctx e hp hc hr
    exact sound_manyFast hfs hf' hf fuel pos ctx.mark pos ctx false [] e [] (Nat.le_refl _) hp hc rfl
      .nil hr

theorem sound_maybe {p : P τ ρ Γ α} {f : ParseFns τ α} (hfs : Sim f) (hf' : Framed f)
    (hf : SoundAt env D p f) : SoundAt env D (.maybe p) (maybeFns f) := by
  rw [maybeFns_eq]
  have c := frame_closed (τ := τ)
  have h1 := c.fmap f (fun a => .ok (some a)) ⟨hfs, hf'⟩
  have h2 : Sim (pureFns none) ∧ Framed (pureFns (none : Option α)) := c.pureFn (.ok none)
  exact SoundAt.transfer (sound_alt h1.2 h2.2 (sound_fmap (fun a => .ok (some a)) hf)
    (sound_pure none)) (fun m i es v j h => h.toMaybe) fun m i q h => h.toMaybe

theorem sound_attempt {p : P τ ρ Γ α} {f : ParseFns τ α} (hfs : Sim f)
    (hf : SoundAt env D p f) : SoundAt env D (.attempt p) (attemptFns f) := by
  have ha : SoundAt env D (.attempt p) f := hf.transfer (fun _ _ _ _ _ h => .attempt h) fun _ _ _ h => .attempt h
  constructor
  · intro pos ctx ins rem r hp hc hr
    cases rem with
    | some rem => exact ha.fn pos ctx ins _ r hp hc hr
    | none =>
      simp only [attemptFns, attemptFn, Out.bind_def, Out.bind_eq_ret] at hr
      obtain ⟨x, h1, h2⟩ := hr
      cases x with
      | ok o => simp at h2; subst h2; exact ha.fn pos ctx ins none _ hp hc (hfs.ok h1 _ _)
      | error e => simp at h2; subst h2; exact ha.fast pos ctx e hp hc h1
  · intro pos ctx e hp hc hr
    simp only [attemptFns, attemptFast, Out.bind_def, Out.bind_eq_ret] at hr
    obtain ⟨x, h1, h2⟩ := hr
    cases x with
    | ok o => simp at h2
    | error e' => simp at h2; subst h2; exact ha.fast pos ctx e' hp hc h1

theorem sound_label {p : P τ ρ Γ α} {f : ParseFns τ α} (x : String)
    (hf : SoundAt env D p f) : SoundAt env D (.label p x) (labelFns f x) := by
  have ha : SoundAt env D (.label p x) f := hf.transfer (fun _ _ _ _ _ h => .label h) fun _ _ _ h => .label h
  constructor
  · intro pos ctx ins rem r hp hc hr
    simp only [labelFns, Out.bind_def, Out.bind_eq_ret, Out.pure_def, Out.ret.injEq] at hr
    obtain ⟨y, h1, rfl⟩ := hr
    exact (ha.fn pos ctx ins rem y hp hc h1).setExpected _
  · intro pos ctx e hp hc hr
    simp only [labelFns, Out.bind_def, Out.bind_eq_ret, Out.pure_def, Out.ret.injEq] at hr
    obtain ⟨y, h1, h2⟩ := hr
    cases y with
    | ok o => simp [Simple.setExpected] at h2
    | error e' =>
      simp [Simple.setExpected] at h2; subst h2
      simpa using ha.fast pos ctx e' hp hc h1

theorem sound_recover {p : P τ ρ Γ α} {f : ParseFns τ α}
    (hf : SoundAt env D p f) : SoundAt env D (.recover p) (recoverFns f) := by
  refine ⟨?_, fun pos ctx e hp hc he => (hf.fast pos ctx e hp hc he).mono fun _ => .recover⟩
  intro pos ctx ins rem r hp hc hr
  simp only [recoverFns, recoverFn, Out.bind_def, Out.bind_eq_ret] at hr
  obtain ⟨y, h1, h2⟩ := hr
  have h := hf.fn pos ctx ins rem y hp hc h1
  cases y with
  | ok o =>
    have h : OkSound .. := h
    simp at h2; subst h2; exact ⟨.recover h.der, h.ctx⟩
  | error e => simp at h2; subst h2; exact ErrLoc.mono h fun _ => .recover
  | recovered rr =>
    simp at h2; subst h2
    refine ⟨h.loc.mono fun _ => .recover, ?_⟩
    simp only [List.mem_map]
    rintro _ ⟨x, hx, rfl⟩
    obtain ⟨es, hs⟩ := h.reps x hx
    refine ⟨es.map Step.asked, .recover hs.der, by rw [edits_asked]; exact hs.ops, hs.ctx,
      by rw [edits_asked]; exact hs.budget, by simpa using hs.ne, ?_⟩
    simp only [startsAuto_asked, Repair.promote]
    cases x.prio <;> simp

theorem sound_recoverWithFn {p : P τ ρ Γ α} {f : ParseFns τ α}
    (fn : List τ → Nat → Except Exn α) (lbl : α → String)
    (hf : SoundAt env D p f) :
    SoundAt env D (.recoverWithFn p fn lbl) (recoverWithFnFns f fn lbl) := by
  have ha : SoundAt env D (.recoverWithFn p fn lbl) f :=
    hf.transfer (fun _ _ _ _ _ h => .recoverWithFn h) fun _ _ _ h => .recoverWithFn h
  refine ⟨?_, ha.fast⟩
  intro pos ctx ins rem r hp hc hr
  simp only [recoverWithFnFns, recoverWithFnFn] at hr
  cases rem with
  | none => exact ha.fn pos ctx ins none r hp hc hr
  | some rem =>
    have hins : ∀ x e, fn s pos = .ok x → rem ≠ 0 →
        RepSound env D (.recoverWithFn p fn lbl) pos ctx ins (some rem)
          (makeUserInsert rem x pos ctx (ctx.getLoc s pos) (lbl x) e)
          [.userInsert pos (lbl x)] := fun x e hx hne =>
      ⟨.recoverWithFnInsert hx, .cons rfl (hc.report (Nat.le_refl _) hp) .nil, hc,
        fun hr => .insert _ _ hne hr, by simp,
        by simp [makeUserInsert, startsAuto, Step.userInsert]⟩
    simp only [Out.bind_def, Out.bind_eq_ret] at hr
    obtain ⟨y, h1, h2⟩ := hr
    have h := ha.fn pos ctx ins _ y hp hc h1
    have h0 := hf.fn pos ctx ins _ y hp hc h1
    cases y with
    | ok o => simp at h2; subst h2; exact h
    | error e =>
      simp only at h2
      split at h2
      · simp at h2; subst h2; exact h
      · split at h2
        · next hne =>
          simp only [Out.bind_eq_ret, Out.ofExcept_eq_ret, Out.ret.injEq] at h2
          obtain ⟨x, h3, rfl⟩ := h2
          obtain ⟨q, hq, _⟩ : ErrLoc .. := h0
          refine ⟨hc.errLoc hp (.recoverWithFnHere hq), ?_⟩
          simp only [List.mem_singleton]
          rintro _ rfl
          exact ⟨_, hins x _ h3 hne⟩
        · simp at h2; subst h2; exact h
    | recovered rr =>
      have h : RecSound .. := h
      simp only at h2
      split at h2
      · simp at h2; subst h2; exact h
      · split at h2
        · next hne =>
          simp only [Out.bind_eq_ret, Out.ofExcept_eq_ret, Out.ret.injEq] at h2
          obtain ⟨x, h3, rfl⟩ := h2
          obtain ⟨q, hq, _⟩ := RecSound.loc h0
          refine ⟨hc.errLoc hp (.recoverWithFnHere hq), ?_⟩
          intro y hy
          rcases List.mem_cons.1 hy with rfl | hy
          · exact ⟨_, hins x _ h3 hne⟩
          · exact h.reps y hy
        · simp at h2; subst h2; exact h

/-- Running `p` in another context, then restoring. -/
theorem ResSound.setCtx {p p' : P τ ρ Γ α} {pos : Nat} {ctx c1 c2 : Ctx τ} {ins rem}
    {r : Result τ α} (hp : pos ≤ s.length)
    (hd : ∀ es v j, Der env s D.col p c1.mark pos es v j →
      Der env s D.col p' ctx.mark pos es v j)
    (hs : ∀ q, Stuck env s D.col p c1.mark pos q → Stuck env s D.col p' ctx.mark pos q)
    (hc : CtxOK D c2 pos) (h : ResSound env D p pos c1 ins rem r) :
    ResSound env D p' pos ctx ins rem (r.setCtx c2) := by
  cases r with
  | ok r =>
    have ho := der_inOrder h.der hp
    exact ⟨hd _ _ _ h.der, hc.stay ho.1.le ho.2⟩
  | error e => exact ErrLoc.mono h hs
  | recovered r =>
    refine ⟨h.loc.mono hs, ?_⟩
    simp only [List.mem_map]
    rintro _ ⟨x, hx, rfl⟩
    obtain ⟨es, h'⟩ := h.reps x hx
    have ho := der_inOrder h'.der hp
    exact ⟨es, hd _ _ _ h'.der, h'.ops, hc.stay ho.1.le ho.2, h'.budget, h'.ne, h'.prio⟩

omit [BEq τ] in
theorem simple_setCtx_error {r : Simple τ α} {c : Ctx τ} {e : Err}
    (h : r.setCtx c = .error e) : r = .error e := by
  cases r with
  | ok r => simp [Simple.setCtx] at h
  | error e' => simpa [Simple.setCtx] using h

theorem sound_block {p : P τ ρ Γ α} {f : ParseFns τ α} (hl : D.layout)
    (hf : SoundAt env D p f) : SoundAt env D (.block p) (blockFns f) := by
  constructor
  · intro pos ctx ins rem r hp hc hr
    simp only [blockFns, Out.bind_def, Out.bind_eq_ret, Out.pure_def, Out.ret.injEq] at hr
    obtain ⟨y, h1, rfl⟩ := hr
    have hu := hc.updateLoc (Nat.le_refl _) hp
    exact (hf.fn pos _ ins rem y hp (hu.setMark _) h1).setCtx hp
      (fun es v j d => .block (hc.here hp hl).2 d) (fun q d => .block (hc.here hp hl).2 d) hu
  · intro pos ctx e hp hc hr
    simp only [blockFns, Out.bind_def, Out.bind_eq_ret, Out.pure_def, Out.ret.injEq] at hr
    obtain ⟨y, h1, h2⟩ := hr
    have hu := hc.updateLoc (Nat.le_refl _) hp
    rw [simple_setCtx_error h2] at h1
    exact (hf.fast pos _ e hp (hu.setMark _) h1).mono fun q d => .block (hc.here hp hl).2 d

omit [BEq τ] in
theorem updateLoc_mark (ctx : Ctx τ) (pos : Nat) : (ctx.updateLoc s pos).mark = ctx.mark :=
  (CtxFrame.updateLoc ctx s pos).mark

theorem sound_indented {p : P τ ρ Γ α} {f : ParseFns τ α} (delta : Int) (hl : D.layout)
    (hf : SoundAt env D p f) : SoundAt env D (.indented delta p) (indentedFns delta f) := by
  constructor
  · intro pos ctx ins rem r hp hc hr
    have hu := hc.updateLoc (Nat.le_refl _) hp
    have hh := hc.here hp hl
    simp only [indentedFns] at hr
    split at hr
    · next heq =>
      simp only [Out.bind_def, Out.bind_eq_ret, Out.pure_def, Out.ret.injEq] at hr
      obtain ⟨y, h1, rfl⟩ := hr
      rw [updateLoc_mark] at heq
      exact (hf.fn pos _ ins rem y hp (hu.setMark _) h1).setCtx hp
        (fun es v j d => .indented hh.2 heq d) (fun q d => .indented hh.2 heq d) hu
    · next hne =>
      rw [updateLoc_mark] at hne
      simp at hr; subst hr; exact ⟨pos, .notIndented hh.2 hne, hh.1⟩
  · intro pos ctx e hp hc hr
    have hu := hc.updateLoc (Nat.le_refl _) hp
    have hh := hc.here hp hl
    simp only [indentedFns] at hr
    split at hr
    · next heq =>
      rw [updateLoc_mark] at heq
      simp only [Out.bind_def, Out.bind_eq_ret, Out.pure_def, Out.ret.injEq] at hr
      obtain ⟨y, h1, h2⟩ := hr
      rw [simple_setCtx_error h2] at h1
      exact (hf.fast pos _ e hp (hu.setMark _) h1).mono fun q d => .indented hh.2 heq d
    · next hne =>
      rw [updateLoc_mark] at hne
      simp at hr; subst hr; exact ⟨pos, .notIndented hh.2 hne, hh.1⟩

theorem sound_aligned {p : P τ ρ Γ α} {f : ParseFns τ α} (hl : D.layout)
    (hf : SoundAt env D p f) : SoundAt env D (.aligned p) (alignedFns f) := by
  constructor
  · intro pos ctx ins rem r hp hc hr
    have hu := hc.updateLoc (Nat.le_refl _) hp
    have hh := hc.here hp hl
    simp only [alignedFns] at hr
    split at hr
    · next heq =>
      have h := hf.fn pos _ ins rem r hp hu hr
      rw [updateLoc_mark] at heq
      have hd : ∀ es v j, Der env s D.col p (ctx.updateLoc s pos).mark pos es v j →
          Der env s D.col (.aligned p) ctx.mark pos es v j := by
        intro es v j d
        rw [updateLoc_mark] at d
        exact .aligned (heq ▸ hh.2) d
      have hst : ∀ q, Stuck env s D.col p (ctx.updateLoc s pos).mark pos q →
          Stuck env s D.col (.aligned p) ctx.mark pos q := by
        intro q d
        rw [updateLoc_mark] at d
        exact .aligned (heq ▸ hh.2) d
      cases r with
      | ok r => exact ⟨hd _ _ _ h.der, h.ctx⟩
      | error e => exact ErrLoc.mono h hst
      | recovered r =>
        refine ⟨h.loc.mono hst, fun x hx => ?_⟩
        obtain ⟨es, hs⟩ := h.reps x hx
        exact ⟨es, hd _ _ _ hs.der, hs.ops, hs.ctx, hs.budget, hs.ne, hs.prio⟩
    · next hne =>
      rw [updateLoc_mark] at hne
      simp at hr; subst hr; exact ⟨pos, .notAligned hh.2 fun h => hne h.symm, hh.1⟩
  · intro pos ctx e hp hc hr
    have hu := hc.updateLoc (Nat.le_refl _) hp
    have hh := hc.here hp hl
    simp only [alignedFns] at hr
    split at hr
    · next heq =>
      rw [updateLoc_mark] at heq
      refine (hf.fast pos _ e hp hu hr).mono fun q d => ?_
      rw [updateLoc_mark] at d
      exact .aligned (heq ▸ hh.2) d
    · next hne =>
      rw [updateLoc_mark] at hne
      simp at hr; subst hr; exact ⟨pos, .notAligned hh.2 fun h => hne h.symm, hh.1⟩

/-! ### The induction -/

theorem Der.inv_recoverWithFn {col} {p : P τ ρ Γ α} {fn : List τ → Nat → Except Exn α}
    {lbl : α → String} {m i es v j}
    (h : Der env s col (.recoverWithFn p fn lbl) m i es v j) :
    Der env s col p m i es v j ∨
      ∃ x, fn s i = .ok x ∧ es = [.userInsert i (lbl x)] ∧ v = x ∧ j = i := by
  cases h with
  | recoverWithFn h => exact .inl h
  | recoverWithFnInsert h => exact .inr ⟨_, h, rfl, rfl, rfl⟩

/-- What the induction carries: simulation, frame, and, where layout is covered, soundness. -/
structure SoundQ (env : Env τ ρ Γ) (D : LocDisc s) (p : P τ ρ Γ α) (f : ParseFns τ α) : Prop where
  sim : Sim f
  frame : Framed f
  sound : (D.layout ∨ p.All P.notLayout) → SoundAt env D p f

theorem sound_closed (env : Env τ ρ Γ) (D : LocDisc s)
    (henv : D.layout ∨ ∀ i q, env i = some q → q.All P.notLayout) :
    Closed env (fun {_} p f => SoundQ env D p f) := by
  have fc := frame_closed.closed (τ := τ) env
  have fd : ∀ {α : Type} {p : P τ ρ Γ α} {f : ParseFns τ α}, (Sim f ∧ Framed f) →
      ((D.layout ∨ p.All P.notLayout) → SoundAt env D p f) → SoundQ env D p f :=
    fun h h' => ⟨h.1, h.2, h'⟩
  exact {
    pure := fun x => fd (fc.pure x) fun _ => sound_pure x
    pureFn := fun x => fd (fc.pureFn x) fun _ => sound_pureFn x
    unexpected := fun x => fd (fc.unexpected x) fun _ => sound_unexpected x
    eof := fd fc.eof fun _ => sound_eof
    satisfy := fun t => fd (fc.satisfy t) fun _ => sound_satisfy t
    sym := fun x l => fd (fc.sym x l) fun _ => sound_sym x l
    literal := fun x ss h => fd (fc.literal x ss h) fun _ => sound_literal x ss h
    regexp := fun m => fd (fc.regexp m) fun _ => sound_regexp m
    fmap := fun p f fn h => fd (fc.fmap p f fn ⟨h.sim, h.frame⟩) fun hl =>
      sound_fmap fn (h.sound (hl.imp_right fun h => h.2))
    alt := fun p q f g hf hg =>
      fd (fc.alt p q f g ⟨hf.sim, hf.frame⟩ ⟨hg.sim, hg.frame⟩) fun hl =>
        sound_alt hf.frame hg.frame (hf.sound (hl.imp_right fun h => h.2.1))
          (hg.sound (hl.imp_right fun h => h.2.2))
    bind := fun p f k g hf hg =>
      fd (fc.bind p f k g ⟨hf.sim, hf.frame⟩ fun a => ⟨(hg a).sim, (hg a).frame⟩) fun hl =>
        sound_bind hf.sim hf.frame (hf.sound (hl.imp_right fun h => h.2.1))
          fun a => (hg a).sound (hl.imp_right fun h => h.2.2 a)
    seqWith := fun p f q g merge hf hg =>
      fd (fc.seqWith p f q g merge ⟨hf.sim, hf.frame⟩ ⟨hg.sim, hg.frame⟩) fun hl => by
        rw [seqFns_eq]
        refine SoundAt.transfer (p := .bind p fun a => .fmap q fun b => .ok (merge a b))
          (sound_bind hf.sim hf.frame (hf.sound (hl.imp_right fun h => h.2.1))
            fun a => sound_fmap _ (hg.sound (hl.imp_right fun h => h.2.2)))
          (fun m i es v j h => h.toSeqWith) fun m i q h => h.toSeqWith
    maybe := fun p f h => fd (fc.maybe p f ⟨h.sim, h.frame⟩) fun hl => by
      exact sound_maybe h.sim h.frame (h.sound (hl.imp_right fun h => h.2))
    many := fun p f fuel h => fd (fc.many p f fuel ⟨h.sim, h.frame⟩) fun hl =>
      sound_many h.sim h.frame (h.sound (hl.imp_right fun h => h.2)) fuel
    attempt := fun p f h => fd (fc.attempt p f ⟨h.sim, h.frame⟩) fun hl =>
      sound_attempt h.sim (h.sound (hl.imp_right fun h => h.2))
    label := fun p f x h => fd (fc.label p f x ⟨h.sim, h.frame⟩) fun hl =>
      sound_label x (h.sound (hl.imp_right fun h => h.2))
    recover := fun p f h => fd (fc.recover p f ⟨h.sim, h.frame⟩) fun hl =>
      sound_recover (h.sound (hl.imp_right fun h => h.2))
    recoverWith := fun p f x vs h => fd (fc.recoverWith p f x vs ⟨h.sim, h.frame⟩) fun hl => by
      rw [recoverWithFns_eq]
      refine (sound_recoverWithFn _ _ (h.sound (hl.imp_right fun h => h.2))).transfer
        (fun m i es v j h => ?_) fun m i q h => ?_
      · rcases h.inv_recoverWithFn with h | ⟨y, hy, rfl, rfl, rfl⟩
        · exact .recoverWith h
        · cases hy; exact .recoverWithInsert
      · rcases h.inv_recoverWithFn with h | ⟨rfl, q', h⟩
        · exact .recoverWith h
        · exact .recoverWithHere h
    recoverWithFn := fun p f fn lbl h =>
      fd (fc.recoverWithFn p f fn lbl ⟨h.sim, h.frame⟩) fun hl =>
        sound_recoverWithFn fn lbl (h.sound (hl.imp_right fun h => h.2))
    block := fun p f h => fd (fc.block p f ⟨h.sim, h.frame⟩) fun hl => by
      rcases hl with hl | hl
      · exact sound_block hl (h.sound (.inl hl))
      · exact hl.1.elim
    aligned := fun p f h => fd (fc.aligned p f ⟨h.sim, h.frame⟩) fun hl => by
      rcases hl with hl | hl
      · exact sound_aligned hl (h.sound (.inl hl))
      · exact hl.1.elim
    indented := fun p f d h => fd (fc.indented p f d ⟨h.sim, h.frame⟩) fun hl => by
      rcases hl with hl | hl
      · exact sound_indented d hl (h.sound (.inl hl))
      · exact hl.1.elim
    refDiverge := fun i => fd (fc.refDiverge i) fun _ => by
      constructor <;> intros <;> simp_all [divergeFns]
    refUndefined := fun i h => fd (fc.refUndefined i h) fun _ => by
      constructor <;> intros <;> simp_all [undefinedFns]
    refDefined := fun i p f he h => ⟨h.sim, h.frame, fun _ =>
      (h.sound (henv.imp_right fun h => h i p he)).transfer
        (fun _ _ _ _ _ d => .ref he d) fun _ _ _ d => .ref he d⟩ }

/-- Soundness of every parser. -/
theorem sound_denote (env : Env τ ρ Γ) (D : LocDisc s) (p : P τ ρ Γ α)
    (h : D.layout ∨ Everywhere env P.notLayout p) (fuel : Nat) :
    SoundAt env D p (denote env fuel p) :=
  ((sound_closed env D (h.imp_right fun h => h.2)).denote fuel p).sound
    (h.imp_right fun h => h.1)

end

end Reparsec
