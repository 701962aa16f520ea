import Verif.Lemmas.Basic

/-!
# The plain and the recovering function of every parser simulate each other
-/

namespace Reparsec

variable {τ α β γ : Type}

/-- What the outcome of the plain function says about the recovering function `F ins rem` run
from the same state. -/
def SimOut : Out (Simple τ α) → (Int → Option Int → Out (Result τ α)) → Prop
  | .diverge, F => ∀ ins rem, F ins rem = .diverge
  | .raise e, F => ∀ ins rem, F ins rem = .raise e
  | .ret (.ok r), F => ∀ ins rem, F ins rem = .ret (.ok r)
  | .ret (.error e), F =>
    (∀ ins rem r, F ins rem ≠ .ret (.ok r)) ∧
    (e.consumed = false → ∀ ins, F ins none = .ret (.error e)) ∧
    (e.consumed = true → ∀ ins r, F ins none = .ret r → r.consumed = true)

/-- The simulation. -/
def Sim (f : ParseFns τ α) : Prop :=
  ∀ s pos ctx, SimOut (f.fast s pos ctx) (f.fn s pos ctx)

theorem Sim.diverge {f : ParseFns τ α} (h : Sim f) {s pos ctx} (hf : f.fast s pos ctx = .diverge)
    (ins rem) : f.fn s pos ctx ins rem = .diverge := by
  have := h s pos ctx; rw [hf] at this; exact this ins rem

theorem Sim.raise {f : ParseFns τ α} (h : Sim f) {s pos ctx e}
    (hf : f.fast s pos ctx = .raise e) (ins rem) : f.fn s pos ctx ins rem = .raise e := by
  have := h s pos ctx; rw [hf] at this; exact this ins rem

theorem Sim.ok {f : ParseFns τ α} (h : Sim f) {s pos ctx r}
    (hf : f.fast s pos ctx = .ret (.ok r)) (ins rem) : f.fn s pos ctx ins rem = .ret (.ok r) := by
  have := h s pos ctx; rw [hf] at this; exact this ins rem

theorem Sim.not_ok {f : ParseFns τ α} (h : Sim f) {s pos ctx e}
    (hf : f.fast s pos ctx = .ret (.error e)) {ins rem r} :
    f.fn s pos ctx ins rem ≠ .ret (.ok r) := by
  have := h s pos ctx; rw [hf] at this; exact this.1 ins rem r

theorem Sim.error {f : ParseFns τ α} (h : Sim f) {s pos ctx e}
    (hf : f.fast s pos ctx = .ret (.error e)) (hc : e.consumed = false) (ins) :
    f.fn s pos ctx ins none = .ret (.error e) := by
  have := h s pos ctx; rw [hf] at this; exact this.2.1 hc ins

theorem Sim.error_consumed {f : ParseFns τ α} (h : Sim f) {s pos ctx e}
    (hf : f.fast s pos ctx = .ret (.error e)) (hc : e.consumed = true) {ins r}
    (hr : f.fn s pos ctx ins none = .ret r) : r.consumed = true := by
  have := h s pos ctx; rw [hf] at this; exact this.2.2 hc ins r hr

/-- The converse of `Sim.ok`. -/
theorem Sim.fast_ok {f : ParseFns τ α} (h : Sim f) {s pos ctx ins rem r}
    (hf : f.fn s pos ctx ins rem = .ret (.ok r)) : f.fast s pos ctx = .ret (.ok r) := by
  cases hx : f.fast s pos ctx with
  | diverge => rw [h.diverge hx] at hf; cases hf
  | raise e => rw [h.raise hx] at hf; cases hf
  | ret x =>
    cases x with
    | error e => exact absurd hf (h.not_ok hx)
    | ok r' => rw [h.ok hx] at hf; cases hf; rfl

@[simp] theorem Ok.prependExpected_consumed (e : List String) (c : Bool) (r : Ok τ α) :
    (r.prependExpected e c).consumed = (r.consumed || c) := by
  unfold Ok.prependExpected; split <;> simp_all

@[simp] theorem Err.prependExpected_consumed (e : List String) (c : Bool) (r : Err) :
    (r.prependExpected e c).consumed = (r.consumed || c) := by
  unfold Err.prependExpected; split <;> simp_all

@[simp] theorem Result.prependExpected_consumed (e : List String) (c : Bool) (r : Result τ α) :
    (r.prependExpected e c).consumed = (r.consumed || c) := by
  cases r <;> simp [Result.prependExpected, Result.consumed, Recovered.prependExpected]

@[simp] theorem Simple.prependExpected_consumed (e : List String) (c : Bool) (r : Simple τ α) :
    (r.prependExpected e c).consumed = (r.consumed || c) := by
  cases r <;> simp [Simple.prependExpected, Simple.consumed]

@[simp] theorem Ok.setExpected_consumed (e : List String) (r : Ok τ α) :
    (r.setExpected e).consumed = r.consumed := by
  unfold Ok.setExpected; split <;> simp_all

@[simp] theorem Err.setExpected_consumed (e : List String) (r : Err) :
    (r.setExpected e).consumed = r.consumed := by
  unfold Err.setExpected; split <;> simp_all

@[simp] theorem Result.setExpected_consumed (e : List String) (r : Result τ α) :
    (r.setExpected e).consumed = r.consumed := by
  cases r <;> simp [Result.setExpected, Result.consumed, Recovered.setExpected]

@[simp] theorem Result.setCtx_consumed (c : Ctx τ) (r : Result τ α) :
    (r.setCtx c).consumed = r.consumed := by
  cases r <;> rfl

theorem Result.fmapM_consumed {fn : α → Except Exn β} {r : Result τ α} {r' : Result τ β}
    (h : r.fmapM fn = .ret r') : r'.consumed = r.consumed := by
  cases r with
  | ok r =>
    simp only [Result.fmapM, Ok.fmapM, Out.bind_def, Out.bind_eq_ret, Out.pure_def,
      Out.ret.injEq] at h
    obtain ⟨_, ⟨_, _, rfl⟩, rfl⟩ := h; rfl
  | error e => simp only [Result.fmapM, Out.ret.injEq] at h; subst h; rfl
  | recovered r =>
    simp only [Result.fmapM, Out.bind_def, Out.bind_eq_ret, Out.pure_def, Out.ret.injEq] at h
    obtain ⟨_, _, rfl⟩ := h; rfl

theorem Result.fmapM_ne_ok {fn : α → Except Exn β} {r : Result τ α} {r' : Ok τ β}
    (hr : ∀ x, r ≠ .ok x) : r.fmapM fn ≠ .ret (.ok r') := by
  cases r with
  | ok r => exact absurd rfl (hr r)
  | error e => simp [Result.fmapM]
  | recovered r => 
    simp only [Result.fmapM, Out.bind_def, ne_eq, Out.bind_eq_ret, Out.pure_def, Out.ret.injEq]
    rintro ⟨_, _, h⟩; cases h

theorem continueParse_ne_ok {ra : Recovered τ α} {ins : Int}
    {k : α → Nat → Ctx τ → Int → Out (Result τ β)} {merge : α → β → γ} {r : Ok τ γ} :
    continueParse ra ins k merge ≠ .ret (.ok r) := by
  intro h
  obtain ⟨_, _, h⟩ := continueParse_ret h
  cases h

theorem continueParse_consumed {ra : Recovered τ α} {ins : Int}
    {k : α → Nat → Ctx τ → Int → Out (Result τ β)} {merge : α → β → γ} {r : Result τ γ}
    (h : continueParse ra ins k merge = .ret r) : r.consumed = ra.consumed := by
  obtain ⟨_, _, rfl⟩ := continueParse_ret h
  rfl

theorem sim_fmap (f : ParseFns τ α) (fn : α → Except Exn β) (h : Sim f) : Sim (fmapFns f fn) := by
  intro s pos ctx
  simp only [fmapFns]
  cases hx : f.fast s pos ctx with
  | diverge => simp [fmapFast, fmapFn, hx, SimOut, h.diverge hx]
  | raise e => simp [fmapFast, fmapFn, hx, SimOut, h.raise hx]
  | ret x =>
    cases x with
    | ok r =>
      simp only [fmapFast, hx, Out.bind_def, Out.bind_ret, Simple.fmapM, Ok.fmapM,
        Out.pure_def]
      cases hv : fn r.value <;> simp [SimOut, fmapFn, h.ok hx, Result.fmapM, Ok.fmapM, hv]
    | error e =>
      simp only [fmapFast, hx, Out.bind_def, Out.bind_ret, Simple.fmapM]
      refine ⟨?_, ?_, ?_⟩
      · intro ins rem r hr
        obtain ⟨x, h1, h2⟩ := Out.bind_eq_ret.1 hr
        refine Result.fmapM_ne_ok ?_ h2
        rintro y rfl; exact h.not_ok hx h1
      · intro hc ins
        simp [fmapFn, h.error hx hc, Result.fmapM]
      · intro hc ins r hr
        obtain ⟨x, h1, h2⟩ := Out.bind_eq_ret.1 hr
        rw [Result.fmapM_consumed h2]; exact h.error_consumed hx hc h1

theorem altRecover_ne_ok {f g : ParseFns τ α} {s pos ctx ins rem loc ex} {r : Ok τ α} :
    altRecover f g s pos ctx ins rem loc ex ≠ .ret (.ok r) := by
  cases rem with
  | none => simp [altRecover]
  | some rem =>
    simp only [altRecover, Out.bind_def]
    intro hr
    obtain ⟨x, _, h2⟩ := Out.bind_eq_ret.1 hr
    obtain ⟨y, _, h4⟩ := Out.bind_eq_ret.1 h2
    cases x <;> cases y <;> simp at h4

theorem sim_alt (f g : ParseFns τ α) (hf : Sim f) (hg : Sim g) : Sim (altFns f g) := by
  intro s pos ctx
  simp only [altFns]
  cases hx : f.fast s pos ctx with
  | diverge => simp [altFast, altFn, hx, SimOut, hf.diverge hx]
  | raise e => simp [altFast, altFn, hx, SimOut, hf.raise hx]
  | ret x =>
    cases x with
    | ok r => simp [altFast, altFn, hx, SimOut, hf.ok hx]
    | error e =>
      cases hc : e.consumed with
      | true =>
        simp only [altFast, hx, Out.bind_def, Out.bind_ret, hc, if_true]
        have key : ∀ ins rem, (∃ r, altFn f g s pos ctx ins rem = .ret r ∧ r.consumed = true ∧
            ∀ o, r ≠ .ok o) ∨ ∀ r, altFn f g s pos ctx ins rem ≠ .ret r := by
          intro ins rem
          simp only [altFn, Out.bind_def]
          cases hy : f.fn s pos ctx ins none with
          | diverge => simp
          | raise => simp
          | ret y =>
            have hcy := hf.error_consumed hx hc hy
            cases y with
            | ok r => exact absurd hy (hf.not_ok hx)
            | error e' =>
              simp only [Result.consumed] at hcy
              simp [hcy, Result.consumed]
            | recovered e' =>
              simp only [Result.consumed] at hcy
              simp [hcy, Result.consumed]
        refine ⟨?_, by simp [hc], ?_⟩
        · intro ins rem r hr
          rcases key ins rem with ⟨r', h1, _, h3⟩ | h1
          · rw [hr] at h1; cases h1; exact h3 r rfl
          · exact h1 _ hr
        · intro _ ins r hr
          rcases key ins none with ⟨r', h1, h2, _⟩ | h1
          · rw [hr] at h1; cases h1; exact h2
          · exact absurd hr (h1 r)
      | false =>
        have hfn : ∀ ins rem, altFn f g s pos ctx ins rem =
            altSecond f g s pos ctx ins rem e.loc e.expected := by
          intro ins rem; simp [altFn, hf.error hx hc, hc]
        simp only [altFast, hx, Out.bind_def, Out.bind_ret, hc, Bool.false_eq_true, if_false]
        cases hy : g.fast s pos ctx with
        | diverge => simp [hfn, altSecond, SimOut, hg.diverge hy]
        | raise e => simp [hfn, altSecond, SimOut, hg.raise hy]
        | ret y =>
          cases y with
          | ok r =>
            cases hcr : r.consumed <;> simp [hfn, altSecond, SimOut, hg.ok hy, hcr]
          | error e' =>
            cases hce : e'.consumed with
            | true =>
              simp only [Out.bind_ret, hce, if_true]
              have key : ∀ ins rem, (∃ r, altFn f g s pos ctx ins rem = .ret r ∧
                  r.consumed = true ∧ ∀ o, r ≠ .ok o) ∨
                  ∀ r, altFn f g s pos ctx ins rem ≠ .ret r := by
                intro ins rem
                simp only [hfn, altSecond, Out.bind_def]
                cases hz : g.fn s pos ctx ins none with
                | diverge => simp
                | raise => simp
                | ret z =>
                  have hcy := hg.error_consumed hy hce hz
                  cases z with
                  | ok r => exact absurd hz (hg.not_ok hy)
                  | error e'' =>
                    simp only [Result.consumed] at hcy
                    simp [hcy, Result.consumed]
                  | recovered e'' =>
                    simp only [Result.consumed] at hcy
                    simp [hcy, Result.consumed]
              refine ⟨?_, by simp [hce], ?_⟩
              · intro ins rem r hr
                rcases key ins rem with ⟨r', h1, _, h3⟩ | h1
                · rw [hr] at h1; cases h1; exact h3 r rfl
                · exact h1 _ hr
              · intro _ ins r hr
                rcases key ins none with ⟨r', h1, h2, _⟩ | h1
                · rw [hr] at h1; cases h1; exact h2
                · exact absurd hr (h1 r)
            | false =>
              simp only [Out.bind_ret, hce, Bool.false_eq_true, if_false]
              have hsec : ∀ ins rem, altFn f g s pos ctx ins rem =
                  altRecover f g s pos ctx ins rem e.loc (e.expected ++ e'.expected) := by
                intro ins rem; simp [hfn, altSecond, hg.error hy hce, hce]
              refine ⟨?_, ?_, by simp⟩
              · intro ins rem r; rw [hsec]; exact altRecover_ne_ok
              · intro _ ins; rw [hsec]; rfl

theorem Result.prependExpected_ne_ok {r : Result τ α} {e c} {r' : Ok τ α}
    (h : ∀ x, r ≠ .ok x) : r.prependExpected e c ≠ .ok r' := by
  cases r with
  | ok r => exact absurd rfl (h r)
  | _ => simp [Result.prependExpected]

theorem sim_bind (f : ParseFns τ α) (g : α → ParseFns τ β) (hf : Sim f) (hg : ∀ a, Sim (g a)) :
    Sim (bindFns f g) := by
  intro s pos ctx
  simp only [bindFns]
  cases hx : f.fast s pos ctx with
  | diverge => simp [bindFast, bindFn, hx, SimOut, hf.diverge hx]
  | raise e => simp [bindFast, bindFn, hx, SimOut, hf.raise hx]
  | ret x =>
    cases x with
    | error e =>
      simp only [bindFast, hx, Out.bind_def, Out.bind_ret]
      refine ⟨?_, ?_, ?_⟩
      · intro ins rem r hr
        simp only [bindFn, Out.bind_def] at hr
        obtain ⟨y, h1, h2⟩ := Out.bind_eq_ret.1 hr
        cases y with
        | ok r => exact hf.not_ok hx h1
        | error e' => simp at h2
        | recovered r' => exact continueParse_ne_ok h2
      · intro hc ins
        simp [bindFn, hf.error hx hc]
      · intro hc ins r hr
        simp only [bindFn, Out.bind_def] at hr
        obtain ⟨y, h1, h2⟩ := Out.bind_eq_ret.1 hr
        have := hf.error_consumed hx hc h1
        cases y with
        | ok r => exact absurd h1 (hf.not_ok hx)
        | error e' => simp at h2; subst h2; exact this
        | recovered r' => rw [continueParse_consumed h2]; exact this
    | ok r =>
      have hfn : ∀ ins rem, bindFn f g s pos ctx ins rem =
          ((g r.value).fn s r.pos r.ctx ins (if r.consumed then some ins else rem)).bind
            fun rb => .ret (rb.prependExpected r.expected r.consumed) := by
        intro ins rem
        simp only [bindFn, hf.ok hx, Out.bind_def, Out.bind_ret, Out.pure_def]
        cases r.consumed <;> rfl
      simp only [bindFast, hx, Out.bind_def, Out.bind_ret, Out.pure_def]
      have hgr := hg r.value
      cases hy : (g r.value).fast s r.pos r.ctx with
      | diverge => simp [SimOut, hfn, hgr.diverge hy]
      | raise e => simp [SimOut, hfn, hgr.raise hy]
      | ret y =>
        cases y with
        | ok r' => 
          simp [SimOut, hfn, hgr.ok hy, Simple.prependExpected, Result.prependExpected]
        | error e' =>
          refine ⟨?_, ?_, ?_⟩
          · intro ins rem o ho
            rw [hfn] at ho
            obtain ⟨z, h1, h2⟩ := Out.bind_eq_ret.1 ho
            simp only [Out.ret.injEq] at h2
            refine Result.prependExpected_ne_ok ?_ h2
            rintro w rfl; exact hgr.not_ok hy h1
          · intro hc ins
            simp only [Err.prependExpected_consumed, Bool.or_eq_false_iff] at hc
            rw [hfn, hc.2]
            simp [hgr.error hy hc.1, Result.prependExpected]
          · intro hc ins o ho
            rw [hfn] at ho
            obtain ⟨z, h1, h2⟩ := Out.bind_eq_ret.1 ho
            simp only [Out.ret.injEq] at h2
            subst h2
            simp only [Err.prependExpected_consumed, Bool.or_eq_true,
              Result.prependExpected_consumed] at hc ⊢
            cases hcr : r.consumed with
            | true => simp
            | false =>
              rw [hcr] at h1 hc
              simp only [Bool.false_eq_true, if_false, or_false] at h1 hc ⊢
              exact hgr.error_consumed hy hc h1

theorem sim_manyLoop (f : ParseFns τ α) (hf : Sim f) (s : List τ) (fuel : Nat) :
    ∀ pos ctx c v, SimOut (manyFastLoop f.fast s fuel pos ctx c v)
      (fun ins _ => manyLoop f.fn s ins fuel pos ctx c v) := by
  induction fuel with
  | zero => intro pos ctx c v; simp [manyFastLoop, manyLoop, SimOut]
  | succ n ih =>
    intro pos ctx c v
    cases hx : f.fast s pos ctx with
    | diverge => simp [manyFastLoop, manyLoop, hx, SimOut, hf.diverge hx]
    | raise e => simp [manyFastLoop, manyLoop, hx, SimOut, hf.raise hx]
    | ret x =>
      cases x with
      | ok r =>
        have hfn : ∀ ins, manyLoop f.fn s ins (n + 1) pos ctx c v =
            if r.consumed then manyLoop f.fn s ins n r.pos r.ctx true (v ++ [r.value])
            else .raise manyExn := by
          intro ins; simp [manyLoop, hf.ok hx]
        simp only [hfn, manyFastLoop, hx, Out.bind_def, Out.bind_ret]
        cases r.consumed
        · simp [SimOut]
        · exact ih r.pos r.ctx true (v ++ [r.value])
      | error e =>
        cases hc : e.consumed with
        | false => simp [manyFastLoop, manyLoop, hx, SimOut, hf.error hx hc, hc]
        | true =>
          simp only [manyFastLoop, hx, Out.bind_def, Out.bind_ret, hc, if_true]
          have key : ∀ ins, (∃ r, manyLoop f.fn s ins (n + 1) pos ctx c v = .ret r ∧
              r.consumed = true ∧ ∀ o, r ≠ .ok o) ∨
              ∀ r, manyLoop f.fn s ins (n + 1) pos ctx c v ≠ .ret r := by
            intro ins
            simp only [manyLoop, Out.bind_def]
            cases hz : f.fn s pos ctx ins none with
            | diverge => simp
            | raise => simp
            | ret z =>
              have hcy := hf.error_consumed hx hc hz
              cases z with
              | ok r => exact absurd hz (hf.not_ok hx)
              | error e'' =>
                simp only [Result.consumed] at hcy
                simp [hcy, Result.consumed]
              | recovered e'' =>
                simp only [Out.bind_ret]
                cases hk : continueParse e'' ins (fun _ p' c _ => manyLoop f.fn s ins n p' c false [])
                  (fun a b => v ++ a :: b) with
                | diverge => simp
                | raise => simp
                | ret w =>
                  left
                  refine ⟨w, rfl, ?_, ?_⟩
                  · rw [continueParse_consumed hk]; exact hcy
                  · rintro o rfl; exact continueParse_ne_ok hk
          refine ⟨?_, by simp [hc], ?_⟩
          · intro ins rem r (hr : manyLoop f.fn s ins (n + 1) pos ctx c v = _)
            rcases key ins with ⟨r', h1, _, h3⟩ | h1
            · rw [hr] at h1; cases h1; exact h3 r rfl
            · exact h1 _ hr
          · intro _ ins r (hr : manyLoop f.fn s ins (n + 1) pos ctx c v = _)
            rcases key ins with ⟨r', h1, h2, _⟩ | h1
            · rw [hr] at h1; cases h1; exact h2
            · exact absurd hr (h1 r)

theorem sim_attempt (f : ParseFns τ α) (hf : Sim f) : Sim (attemptFns f) := by
  intro s pos ctx
  simp only [attemptFns]
  cases hx : f.fast s pos ctx with
  | diverge =>
    simp only [attemptFast, hx, Out.bind_def, Out.bind_diverge]
    intro ins rem
    cases rem <;> simp [attemptFn, hx, hf.diverge hx]
  | raise e =>
    simp only [attemptFast, hx, Out.bind_def, Out.bind_raise]
    intro ins rem
    cases rem <;> simp [attemptFn, hx, hf.raise hx]
  | ret x =>
    cases x with
    | ok r =>
      simp only [attemptFast, hx, Out.bind_def, Out.bind_ret]
      intro ins rem
      cases rem <;> simp [attemptFn, hx, hf.ok hx]
    | error e =>
      simp only [attemptFast, hx, Out.bind_def, Out.bind_ret]
      refine ⟨?_, ?_, by simp⟩
      · intro ins rem r
        cases rem with
        | none => simp [attemptFn, hx]
        | some rem => exact hf.not_ok hx
      · intro _ ins; simp [attemptFn, hx]

theorem Result.setExpected_ne_ok {r : Result τ α} {e} {r' : Ok τ α}
    (h : ∀ x, r ≠ .ok x) : r.setExpected e ≠ .ok r' := by
  cases r with
  | ok r => exact absurd rfl (h r)
  | _ => simp [Result.setExpected]

/-- Closure under post-processing the results with functions that agree on `Ok` and `Error` and
keep the kind of a result and its `consumed` flag. -/
theorem sim_post (f f' : ParseFns τ α) (hf : Sim f) (a : Simple τ α → Simple τ α)
    (b : Option Int → Result τ α → Result τ α)
    (hfast : ∀ s pos ctx, f'.fast s pos ctx = (f.fast s pos ctx).bind fun r => .ret (a r))
    (hfn : ∀ s pos ctx ins rem,
      f'.fn s pos ctx ins rem = (f.fn s pos ctx ins rem).bind fun r => .ret (b rem r))
    (ha : ∀ rem r, (a r).toResult = b rem r.toResult)
    (hb : ∀ rem r o, (∀ x, r ≠ .ok x) → b rem r ≠ .ok o)
    (hc : ∀ rem r, (b rem r).consumed = r.consumed) : Sim f' := by
  intro s pos ctx
  rw [hfast]
  cases hx : f.fast s pos ctx with
  | diverge => simp [SimOut, hfn, hf.diverge hx]
  | raise e => simp [SimOut, hfn, hf.raise hx]
  | ret x =>
    cases x with
    | ok r =>
      have h0 := fun rem => ha rem (.ok r)
      simp only [Simple.toResult] at h0
      cases hy : a (.ok r) with
      | ok r' =>
        simp only [hy] at h0
        simp [SimOut, hfn, hf.ok hx, hy, ← h0]
      | error e =>
        simp only [hy] at h0
        simp [SimOut, hfn, hf.ok hx, hy, ← h0]
        intro hh
        exact hh
    | error e =>
      have h0 := fun rem => ha rem (.error e)
      have hne : ∀ ins rem o, f'.fn s pos ctx ins rem ≠ .ret (.ok o) := by
        intro ins rem o ho
        rw [hfn] at ho
        obtain ⟨z, h1, h2⟩ := Out.bind_eq_ret.1 ho
        simp only [Out.ret.injEq] at h2
        refine hb rem z o ?_ h2
        rintro w rfl; exact hf.not_ok hx h1
      cases hy : a (.error e) with
      | ok r' =>
        exfalso
        have := h0 none
        rw [hy] at this
        exact hb none (Simple.error e).toResult r' (by simp [Simple.toResult]) this.symm
      | error e' =>
        have hcc : e'.consumed = e.consumed := by
          have h1 := h0 none
          rw [hy] at h1
          have h2 := hc none (Simple.error e : Simple τ α).toResult
          rw [← h1] at h2
          exact h2
        simp only [Out.bind_ret, hy]
        refine ⟨hne, ?_, ?_⟩
        · intro h1 ins
          rw [hfn, hf.error hx (by rw [← hcc]; exact h1)]
          have := h0 none
          rw [hy] at this
          simp only [Simple.toResult] at this
          simp [← this]
        · intro h1 ins r hr
          rw [hfn] at hr
          obtain ⟨z, h2, h3⟩ := Out.bind_eq_ret.1 hr
          simp only [Out.ret.injEq] at h3
          subst h3
          rw [hc]; exact hf.error_consumed hx (by rw [← hcc]; exact h1) h2

theorem sim_label (f : ParseFns τ α) (x : String) (hf : Sim f) : Sim (labelFns f x) := by
  refine sim_post f _ hf (Simple.setExpected [x]) (fun _ => Result.setExpected [x])
    (fun _ _ _ => rfl) (fun _ _ _ _ _ => rfl) ?_ ?_ ?_
  · rintro _ (r | e) <;> rfl
  · intro _ r o h; exact Result.setExpected_ne_ok h
  · intro _ r; simp

theorem sim_recover (f : ParseFns τ α) (hf : Sim f) : Sim (recoverFns f) := by
  refine sim_post f _ hf id (fun _ r => match r with
      | .recovered r => .recovered { r with repairs := r.repairs.map Repair.promote }
      | r => r)
    (fun _ _ _ => by simp [recoverFns]) ?_ ?_ ?_ ?_
  · intro s pos ctx ins rem
    simp only [recoverFns, recoverFn, Out.bind_def]
    apply Out.bind_congr
    intro r; cases r <;> rfl
  · rintro _ (r | e) <;> rfl
  · intro _ r o h
    cases r with
    | ok r => exact absurd rfl (h r)
    | _ => simp
  · intro _ r; cases r <;> rfl

theorem sim_recoverWithFn (f : ParseFns τ α) (fn : List τ → Nat → Except Exn α)
    (lbl : α → String) (hf : Sim f) : Sim (recoverWithFnFns f fn lbl) := by
  intro s pos ctx
  simp only [recoverWithFnFns]
  cases hx : f.fast s pos ctx with
  | diverge => intro ins rem; cases rem <;> simp [recoverWithFnFn, hf.diverge hx]
  | raise e => intro ins rem; cases rem <;> simp [recoverWithFnFn, hf.raise hx]
  | ret x =>
    cases x with
    | ok r => intro ins rem; cases rem <;> simp [recoverWithFnFn, hf.ok hx]
    | error e =>
      refine ⟨?_, ?_, ?_⟩
      · intro ins rem o ho
        cases rem with
        | none => exact hf.not_ok hx ho
        | some rem =>
          simp only [recoverWithFnFn, Out.bind_def] at ho
          obtain ⟨z, h1, h2⟩ := Out.bind_eq_ret.1 ho
          cases z with
          | ok r => exact hf.not_ok hx h1
          | error e' =>
            simp only at h2
            split at h2
            · simp at h2
            · split at h2
              · obtain ⟨_, _, h3⟩ := Out.bind_eq_ret.1 h2
                simp at h3
              · simp at h2
          | recovered r' =>
            simp only at h2
            split at h2
            · simp at h2
            · split at h2
              · obtain ⟨_, _, h3⟩ := Out.bind_eq_ret.1 h2
                simp at h3
              · simp at h2
      · intro hc ins; exact hf.error hx hc ins
      · intro hc ins r hr; exact hf.error_consumed hx hc hr

/-- The simulation is unaffected by running from another context and then setting a context. -/
theorem sim_setCtx {f : ParseFns τ α} (hf : Sim f) (s : List τ) (pos : Nat) (c1 c2 : Ctx τ) :
    SimOut ((f.fast s pos c1).bind fun r => .ret (r.setCtx c2))
      (fun ins rem => (f.fn s pos c1 ins rem).bind fun r => .ret (r.setCtx c2)) := by
  have := sim_post f
    ⟨fun s pos c => (f.fast s pos c).bind fun r => .ret (r.setCtx c2),
     fun s pos c ins rem => (f.fn s pos c ins rem).bind fun r => .ret (r.setCtx c2)⟩
    hf (Simple.setCtx c2) (fun _ => Result.setCtx c2) (fun _ _ _ => rfl) (fun _ _ _ _ _ => rfl)
    (by rintro _ (r | e) <;> rfl)
    (by
      intro _ r o h
      cases r with
      | ok r => exact absurd rfl (h r)
      | _ => simp [Result.setCtx])
    (by intro _ r; simp)
  exact this s pos c1

theorem sim_const_error (e : Err) (hc : e.consumed = false) :
    SimOut (.ret (.error e) : Out (Simple τ α)) (fun _ _ => .ret (.error e)) := by
  refine ⟨by simp, by simp, ?_⟩
  intro h; rw [hc] at h; cases h

theorem sim_closed [BEq τ] : ClosedF τ (fun {_} f => Sim f) where
  pureFn x := by
    intro s pos ctx
    cases x <;> simp [pureFnFns, SimOut]
  unexpected x := fun s pos ctx => sim_const_error _ rfl
  eof := by
    intro s pos ctx
    simp only [eofFns, eofFast]
    split
    · next h => simp [SimOut, eofFn, h]
    · next h =>
      refine ⟨?_, ?_, by simp⟩
      · intro ins rem r; cases rem <;> simp [eofFn, h]
      · intro _ ins; simp [eofFn, h]
  satisfy test := by
    intro s pos ctx
    simp only [satisfyFns, satisfyFast]
    cases h : testAt test s pos with
    | error e => simp [SimOut, satisfyFn, h]
    | ok o =>
      cases o with
      | some t => simp [SimOut, satisfyFn, h]
      | none =>
        simp only [Out.ofExcept_ok, Out.bind_def, Out.bind_ret]
        refine ⟨?_, ?_, by simp⟩
        · intro ins rem r
          cases rem with
          | none => simp [satisfyFn, h]
          | some rem =>
            simp only [satisfyFn, h, Out.ofExcept_ok, Out.bind_def, Out.bind_ret]
            intro hr
            obtain ⟨z, _, h2⟩ := Out.bind_eq_ret.1 hr
            cases z <;> simp at h2
        · intro _ ins; simp [satisfyFn, h]
  sym s l := by
    intro st pos ctx
    simp only [symFns, symFast]
    cases h : symAt s st pos with
    | some t => simp [SimOut, symFn, h]
    | none =>
      refine ⟨?_, ?_, by simp⟩
      · intro ins rem r
        cases rem with
        | none => simp [symFn, h]
        | some rem =>
          simp only [symFn, h, Out.bind_def]
          intro hr
          obtain ⟨z, _, h2⟩ := Out.bind_eq_ret.1 hr
          cases z <;> simp at h2
      · intro _ ins; simp [symFn, h]
  literal s ss _ := by
    intro st pos ctx
    simp only [literalFns, literalFast]
    cases h : startsWith s st pos with
    | true => simp [SimOut, literalFn, h]
    | false =>
      refine ⟨?_, ?_, by simp⟩
      · intro ins rem r
        cases rem with
        | none => simp [literalFn, h]
        | some rem =>
          simp only [literalFn, h, Out.bind_def, Bool.false_eq_true, if_false]
          intro hr
          obtain ⟨z, _, h2⟩ := Out.bind_eq_ret.1 hr
          cases z <;> simp at h2
      · intro _ ins; simp [literalFn, h]
  regexp m := by
    intro st pos ctx
    simp only [regexpFns, regexpFast]
    cases h : m.at st pos with
    | error e => simp [SimOut, regexpFn, h]
    | ok o =>
      cases o with
      | some t => simp [SimOut, regexpFn, h]
      | none =>
        simp only [Out.ofExcept_ok, Out.bind_def, Out.bind_ret]
        refine ⟨?_, ?_, by simp⟩
        · intro ins rem r
          cases rem with
          | none => simp [regexpFn, h]
          | some rem =>
            simp only [regexpFn, h, Out.ofExcept_ok, Out.bind_def, Out.bind_ret]
            intro hr
            obtain ⟨z, _, h2⟩ := Out.bind_eq_ret.1 hr
            cases z <;> simp at h2
        · intro _ ins; simp [regexpFn, h]
  fmap f fn h := sim_fmap f fn h
  alt f g hf hg := sim_alt f g hf hg
  bind f g hf hg := sim_bind f g hf hg
  many f fuel h := fun s pos ctx => sim_manyLoop f h s fuel pos ctx false []
  attempt f h := sim_attempt f h
  label f x h := sim_label f x h
  recover f h := sim_recover f h
  recoverWithFn f fn lbl h := sim_recoverWithFn f fn lbl h
  block f h := fun s pos ctx => sim_setCtx h s pos _ _
  aligned f h := by
    intro s pos ctx
    simp only [alignedFns]
    split
    · exact h s pos _
    · exact sim_const_error _ rfl
  indented f d h := by
    intro s pos ctx
    simp only [indentedFns]
    split
    · exact sim_setCtx h s pos _ _
    · exact sim_const_error _ rfl
  diverge := by intro _ s pos ctx; simp [divergeFns, SimOut]
  undefined := by intro _ s pos ctx; simp [undefinedFns, SimOut]

/-- Every parser: the two functions simulate each other. -/
theorem sim_denote {ρ : Type} {Γ : ρ → Type} [BEq τ] (env : Env τ ρ Γ) (fuel : Nat)
    (p : P τ ρ Γ α) : Sim (denote env fuel p) :=
  sim_closed.denote env fuel p

end Reparsec
