import Verif.Lemmas.StackRun

/-!
# With recovery, on input that is accepted, the height of the parser is enough
-/

namespace Reparsec.Stk

variable {τ α β γ : Type}

/-- A success, or, while alternatives are being tried, a failure that has not consumed anything. -/
def Fine (rem : Option Int) : Simple τ α → Prop
  | .ok _ => True
  | .error e => e.consumed = false ∧ rem = none

/-- Where the plain run `x` is fine `y` is the same. -/
def Acc (rem : Option Int) (x : Out (Simple τ α)) (y : Out (Result τ α)) : Prop :=
  ∀ z, x = .ret z → Fine rem z → y = .ret z.toResult

/-- The same for functions. -/
def Accepts (f : Fn τ α) (g : FastFn τ α) : Prop :=
  ∀ s pos ctx ins rem, Acc rem (g s pos ctx) (f s pos ctx ins rem)

theorem Accepts.of_sim {f : ParseFns τ α} (h : Sim f) : Accepts f.fn f.fast := by
  intro s pos ctx ins rem z hz hf
  cases z with
  | ok r => exact h.ok hz ins rem
  | error e =>
    obtain ⟨hc, rfl⟩ := hf
    exact h.error hz hc ins

theorem Acc.ret {rem : Option Int} (z : Simple τ α) : Acc rem (.ret z) (.ret z.toResult) := by
  intro w hw _
  cases hw; rfl

theorem Acc.bind {rem rem' : Option Int} {x : Out (Simple τ α)} {y : Out (Result τ α)}
    {f : Simple τ α → Out (Simple τ β)} {g : Result τ α → Out (Result τ β)} (h : Acc rem' x y)
    (hf : ∀ z, Fine rem' z → Acc rem (f z) (g z.toResult))
    (hn : ∀ e, ¬ Fine (τ := τ) (α := α) rem' (.error e) → ∀ w, f (.error e) = .ret w →
      ¬ Fine rem w) : Acc rem (x.bind f) (y.bind g) := by
  intro w hw hfw
  cases x with
  | diverge => cases hw
  | raise e => cases hw
  | ret z =>
    by_cases hz : Fine rem' z
    · rw [h z rfl hz]
      exact hf z hz w hw hfw
    · cases z with
      | ok r => exact absurd trivial hz
      | error e => exact absurd hfw (hn e hz w hw)

theorem Accepts.fmap {f g : ParseFns τ α} (fn : α → Except Exn β) (h : Accepts f.fn g.fast) :
    Accepts (fmapFn f fn) (fmapFast g fn) := by
  intro s pos ctx ins rem
  refine (h s pos ctx ins rem).bind (fun z _ => ?_) (fun e he w hw => ?_)
  · cases z with
    | ok r =>
      intro w hw _
      simp only [Simple.fmapM, Simple.toResult, Result.fmapM, Out.bind_def, Out.pure_def] at hw ⊢
      cases hr : r.fmapM fn with
      | diverge => rw [hr] at hw; cases hw
      | raise e => rw [hr] at hw; cases hw
      | ret r' => rw [hr] at hw; cases hw; rfl
    | error e => exact .ret _
  · cases hw; exact he

theorem Accepts.alt {f f' g g' : ParseFns τ α} (h : Accepts f.fn g.fast)
    (h' : Accepts f'.fn g'.fast) : Accepts (altFn f f') (altFast g g') := by
  intro s pos ctx ins rem
  refine (h s pos ctx ins none).bind (fun z hz => ?_) (fun e he w hw => ?_)
  · cases z with
    | ok r => exact .ret _
    | error e =>
      have hc : e.consumed = false := hz.1
      simp only [Simple.toResult, hc, Bool.false_eq_true, if_false]
      refine (h' s pos ctx ins none).bind (fun z hz => ?_) (fun e he w hw => ?_)
      · cases z with
        | ok r =>
          simp only [Simple.toResult]
          split <;> exact .ret _
        | error e' =>
          have hc' : e'.consumed = false := hz.1
          simp only [Simple.toResult, hc', Bool.false_eq_true, if_false]
          intro w hw hfw
          cases hw
          obtain ⟨_, rfl⟩ := hfw
          rfl
      · simp only [Fine, and_true, Bool.not_eq_false] at he
        simp only [he, if_true, Out.ret.injEq] at hw
        subst hw
        simp [Fine, he]
  · simp only [Fine, and_true, Bool.not_eq_false] at he
    simp only [he, if_true, Out.ret.injEq] at hw
    subst hw
    simp [Fine, he]

theorem fine_prepend {rem : Option Int} {z : Simple τ α} {e : List String} {c : Bool}
    (h : Fine rem (z.prependExpected e c)) : Fine (if c then some 0 else rem) z := by
  cases z with
  | ok r => trivial
  | error x =>
    obtain ⟨h1, h2⟩ := h
    simp only [Err.prependExpected_consumed, Bool.or_eq_false_iff] at h1
    simp [Fine, h1, h2]

theorem fine_fmap {rem : Option Int} {z : Simple τ α} {f : α → β} (h : Fine rem (z.fmap f)) :
    Fine rem z := by
  cases z with
  | ok r => trivial
  | error x => exact h

theorem Fine.mono {rem rem' : Option Int} {z : Simple τ α} (h : Fine rem z)
    (hr : rem = none → rem' = none) : Fine rem' z := by
  cases z with
  | ok r => trivial
  | error x => exact ⟨h.1, hr h.2⟩

theorem prepend_toResult (z : Simple τ α) (e : List String) (c : Bool) :
    (z.prependExpected e c).toResult = z.toResult.prependExpected e c := by
  cases z <;> rfl

theorem fmap_toResult (z : Simple τ α) (f : α → β) : (z.fmap f).toResult = z.toResult.fmap f := by
  cases z <;> rfl

theorem setExpected_toResult (z : Simple τ α) (e : List String) :
    (z.setExpected e).toResult = z.toResult.setExpected e := by
  cases z <;> rfl

theorem setCtx_toResult (z : Simple τ α) (c : Ctx τ) :
    (z.setCtx c).toResult = z.toResult.setCtx c := by
  cases z <;> rfl

theorem fine_setExpected {rem : Option Int} {z : Simple τ α} {e : List String} :
    Fine rem (z.setExpected e) ↔ Fine rem z := by
  cases z with
  | ok r => exact Iff.rfl
  | error x => simp [Simple.setExpected, Fine]

theorem fine_setCtx {rem : Option Int} {z : Simple τ α} {c : Ctx τ} :
    Fine rem (z.setCtx c) ↔ Fine rem z := by
  cases z <;> exact Iff.rfl

/-- Changing a result in the same way in both runs. -/
theorem Acc.map {rem : Option Int} {x : Out (Simple τ α)} {y : Out (Result τ α)}
    {f : Simple τ α → Simple τ β} {g : Result τ α → Result τ β} (h : Acc rem x y)
    (hf : ∀ z, Fine rem (f z) → Fine rem z) (hg : ∀ z, (f z).toResult = g z.toResult) :
    Acc rem (x.bind fun z => .ret (f z)) (y.bind fun z => .ret (g z)) := by
  refine h.bind (fun z _ => ?_) (fun e he w hw hfw => ?_)
  · rw [← hg]; exact .ret _
  · cases hw
    exact he (hf _ hfw)

theorem Accepts.bind {f : LFns τ α} {g : ParseFns τ α} {q : α → LFns τ β} {q' : α → ParseFns τ β}
    {m : Nat} (h : Accepts (f (some m)).fn g.fast)
    (hk : ∀ a, Accepts (framed (q a) (some m)).fn (q' a).fast) :
    Accepts (bindFn f q (some m)) (bindFast g q') := by
  intro s pos ctx ins rem
  refine (h s pos ctx ins rem).bind (fun z hz => ?_) (fun e he w hw => ?_)
  · cases z with
    | error e => exact .ret _
    | ok r =>
      simp only [Simple.toResult]
      split
      · next hc =>
        intro w hw hfw
        simp only [Out.bind_def, Out.pure_def] at hw ⊢
        cases hx : (q' r.value).fast s r.pos r.ctx with
        | diverge => rw [hx] at hw; cases hw
        | raise e => rw [hx] at hw; cases hw
        | ret z =>
          rw [hx] at hw; cases hw
          rw [hk r.value s r.pos r.ctx ins (some ins) z hx
            ((fine_prepend hfw).mono (by simp [hc])), prepend_toResult]
          rfl
      · next hc =>
        intro w hw hfw
        simp only [Out.bind_def, Out.pure_def] at hw ⊢
        cases hx : (q' r.value).fast s r.pos r.ctx with
        | diverge => rw [hx] at hw; cases hw
        | raise e => rw [hx] at hw; cases hw
        | ret z =>
          rw [hx] at hw; cases hw
          rw [hk r.value s r.pos r.ctx ins rem z hx
            ((fine_prepend hfw).mono (by simp [hc])), prepend_toResult]
          rfl
  · cases hw; exact he

theorem Accepts.seq {f : LFns τ α} {g : ParseFns τ α} {q : LFns τ β} {q' : ParseFns τ β}
    {merge : α → β → γ} {m : Nat} (h : Accepts (f (some m)).fn g.fast)
    (hk : Accepts (q (some m)).fn q'.fast) :
    Accepts (seqFn f q merge (some m)) (seqFast g q' merge) := by
  intro s pos ctx ins rem
  refine (h s pos ctx ins rem).bind (fun z hz => ?_) (fun e he w hw => ?_)
  · cases z with
    | error e => exact .ret _
    | ok r =>
      simp only [Simple.toResult]
      intro w hw hfw
      simp only [Out.bind_def, Out.pure_def] at hw ⊢
      cases hx : q'.fast s r.pos r.ctx with
      | diverge => rw [hx] at hw; cases hw
      | raise e => rw [hx] at hw; cases hw
      | ret z =>
        rw [hx] at hw; cases hw
        rw [hk s r.pos r.ctx ins _ z hx
          ((fine_fmap (fine_prepend hfw)).mono (by cases r.consumed <;> simp)), prepend_toResult,
          fmap_toResult]
        rfl
  · cases hw; exact he

theorem Accepts.maybe {f g : ParseFns τ α} (h : Accepts f.fn g.fast) :
    Accepts (maybeFn f) (maybeFast g) := by
  intro s pos ctx ins rem
  refine (h s pos ctx ins none).bind (fun z hz => ?_) (fun e he w hw => ?_)
  · cases z with
    | ok r => exact .ret _
    | error e =>
      have hc : e.consumed = false := hz.1
      simp only [Simple.toResult, hc, Bool.false_eq_true, if_false]
      exact .ret (.ok _)
  · simp only [Fine, and_true, Bool.not_eq_false] at he
    simp only [he, if_true, Out.ret.injEq] at hw
    subst hw
    simp [Fine, he]

theorem Accepts.many {f : LFns τ α} {g : ParseFns τ α} {m : Nat}
    (h : Accepts (f (some m)).fn g.fast) (s : List τ) (ins : Int) (rem : Option Int) (n : Nat)
    (pos ctx c v) : Acc rem (manyFastLoop g.fast s n pos ctx c v)
      (manyLoop f s ins n (some m) pos ctx c v) := by
  induction n generalizing pos ctx c v with
  | zero => intro z hz; cases hz
  | succ n ih =>
    refine (h s pos ctx ins none).bind (fun z hz => ?_) (fun e he w hw => ?_)
    · cases z with
      | ok r =>
        simp only [Simple.toResult]
        split
        · exact ih _ _ _ _
        · intro z hz; cases hz
      | error e =>
        have hc : e.consumed = false := hz.1
        simp only [Simple.toResult, hc, Bool.false_eq_true, if_false]
        exact .ret (.ok _)
    · simp only [Fine, and_true, Bool.not_eq_false] at he
      simp only [he, if_true, Out.ret.injEq] at hw
      subst hw
      simp [Fine, he]

theorem Accepts.attempt {f g : ParseFns τ α} (h : Accepts f.fn g.fast) (hs : f.fast = g.fast) :
    Accepts (attemptFn f) (attemptFast g) := by
  intro s pos ctx ins rem
  cases rem with
  | none =>
    simp only [attemptFn, attemptFast, hs, Out.bind_def]
    intro w hw _
    cases hx : g.fast s pos ctx with
    | diverge => rw [hx] at hw; cases hw
    | raise e => rw [hx] at hw; cases hw
    | ret z => rw [hx] at hw; cases z <;> (cases hw; rfl)
  | some rem =>
    intro w hw hfw
    simp only [attemptFast, Out.bind_def] at hw
    cases hx : g.fast s pos ctx with
    | diverge => rw [hx] at hw; cases hw
    | raise e => rw [hx] at hw; cases hw
    | ret z =>
      rw [hx] at hw
      cases z with
      | ok r => cases hw; exact h s pos ctx ins (some rem) _ hx trivial
      | error e => cases hw; exact absurd hfw.2 (by simp)

theorem Accepts.label {f g : ParseFns τ α} (x : String) (h : Accepts f.fn g.fast) :
    Accepts (labelFns f x).fn (labelFns g x).fast :=
  fun s pos ctx ins rem => (h s pos ctx ins rem).map (fun _ => fine_setExpected.1)
    fun z => setExpected_toResult z _

theorem Accepts.recover {f g : ParseFns τ α} (h : Accepts f.fn g.fast) :
    Accepts (recoverFn f) g.fast := by
  intro s pos ctx ins rem w hw hf
  simp only [recoverFn, Out.bind_def, h s pos ctx ins rem w hw hf]
  cases w <;> rfl

theorem Accepts.recoverWith {f g : ParseFns τ α} (x : α) (vs : String) (h : Accepts f.fn g.fast) :
    Accepts (recoverWithFn f x vs) g.fast := by
  intro s pos ctx ins rem w hw hf
  have := h s pos ctx ins rem w hw hf
  cases rem with
  | none => exact this
  | some rem =>
    simp only [Reparsec.recoverWithFn, Out.bind_def, this]
    cases w with
    | ok r => rfl
    | error e => exact absurd hf.2 (by simp)

theorem Accepts.recoverWithFn {f g : ParseFns τ α} (fn : List τ → Nat → Except Exn α)
    (lbl : α → String) (h : Accepts f.fn g.fast) : Accepts (recoverWithFnFn f fn lbl) g.fast := by
  intro s pos ctx ins rem w hw hf
  have := h s pos ctx ins rem w hw hf
  cases rem with
  | none => exact this
  | some rem =>
    simp only [recoverWithFnFn, Out.bind_def, this]
    cases w with
    | ok r => rfl
    | error e => exact absurd hf.2 (by simp)

theorem Accepts.block {f g : ParseFns τ α} (h : Accepts f.fn g.fast) :
    Accepts (blockFns f).fn (blockFns g).fast :=
  fun s pos _ ins rem => (h s pos _ ins rem).map (fun _ => fine_setCtx.1) fun z => setCtx_toResult z _

theorem Accepts.aligned {f g : ParseFns τ α} (h : Accepts f.fn g.fast) :
    Accepts (alignedFns f).fn (alignedFns g).fast := by
  intro s pos ctx ins rem
  simp only [alignedFns]
  split
  · exact h _ _ _ _ _
  · exact .ret (.error _)

theorem Accepts.indented {f g : ParseFns τ α} (d : Int) (h : Accepts f.fn g.fast) :
    Accepts (indentedFns d f).fn (indentedFns d g).fast := by
  intro s pos ctx ins rem
  simp only [indentedFns]
  split
  · exact (h s pos _ ins rem).map (fun _ => fine_setCtx.1) fun z => setCtx_toResult z _
  · exact .ret (.error _)

variable {ρ : Type} {Γ : ρ → Type} [BEq τ]

omit [BEq τ] in
theorem accepts_of_succ {f : LFns τ α} {g : FastFn τ α} {h : Nat}
    (hf : ∀ m, h ≤ m → Accepts (f (some m)).fn g) {m : Nat} (hm : h + 1 ≤ m) :
    Accepts (framed f (some m)).fn g := by
  obtain ⟨m, rfl⟩ : ∃ k, m = k + 1 := ⟨m - 1, by omega⟩
  exact hf m (by omega)

omit [BEq τ] in
theorem accepts_of_succ' {p f : LFns τ α} {g : FastFn τ α} {h : Nat}
    (hf : ∀ m, h ≤ m → Accepts (f (some m)).fn g) {m : Nat} (hm : h + 1 ≤ m) :
    Accepts (framedFn p f (some m)).fn g := by
  obtain ⟨m, rfl⟩ : ∃ k, m = k + 1 := ⟨m - 1, by omega⟩
  exact hf m (by omega)

theorem accepts (env : Env τ ρ Γ) (n : Nat) {p : P τ ρ Γ α} {h : Nat} (hp : Height p h) {m : Nat}
    (hm : h ≤ m) :
    Accepts (denoteWith n (table env n) p (some m)).fn (Reparsec.denote env n p).fast := by
  have prim : ∀ {α : Type} (p : P τ ρ Γ α) (f : ParseFns τ α),
      f = Reparsec.denote env n p → ∀ {m h}, h + 1 ≤ m →
      Accepts (framed (fun _ => f) (some m)).fn (Reparsec.denote env n p).fast := by
    intro α p f hf m h hm
    refine accepts_of_succ (h := h) (fun m _ => ?_) hm
    rw [hf]
    exact .of_sim (sim_denote env n p)
  induction hp generalizing m with
  | pure x => exact prim (.pure x) _ rfl hm
  | pureFn x => exact prim (.pureFn x) _ rfl hm
  | unexpected x => exact prim (.unexpected x) _ rfl hm
  | eof => exact prim .eof _ rfl hm
  | satisfy t => exact prim (.satisfy t) _ rfl hm
  | sym x l => exact prim (.sym x l) _ rfl hm
  | literal x l hx => exact prim (.literal x l hx) _ rfl hm
  | regexp r => exact prim (.regexp r) _ rfl hm
  | fmap fn _ ih => exact accepts_of_succ (fun m hm => (ih hm).fmap fn) hm
  | alt _ _ ihp ihq => exact accepts_of_succ (fun m hm => (ihp hm).alt (ihq hm)) hm
  | @bind _ _ h p k _ _ ihp ihk =>
    exact accepts_of_succ (h := h + 1) (fun m hm => Accepts.bind (ihp (by omega))
      fun a => accepts_of_succ (fun m hm => ihk a hm) hm) hm
  | seqWith merge _ _ ihp ihq => exact accepts_of_succ (fun m hm => (ihp hm).seq (ihq hm)) hm
  | maybe _ ih => exact accepts_of_succ (fun m hm => (ih hm).maybe) hm
  | many _ ih =>
    exact accepts_of_succ (fun m hm s pos ctx ins rem => (ih hm).many s ins rem n pos ctx false []) hm
  | attempt h1 ih =>
    exact accepts_of_succ (fun m hm => (ih hm).attempt (fast_enough n _ _ h1 hm)) hm
  | label x _ ih => exact accepts_of_succ (fun m hm => (ih hm).label x) hm
  | recover _ ih => exact accepts_of_succ' (fun m hm => (ih hm).recover) hm
  | recoverWith x vs _ ih => exact accepts_of_succ' (fun m hm => (ih hm).recoverWith x vs) hm
  | recoverWithFn fn lbl _ ih =>
    exact accepts_of_succ' (fun m hm => (ih hm).recoverWithFn fn lbl) hm
  | block _ ih => exact accepts_of_succ (fun m hm => (ih hm).block) hm
  | aligned _ ih => exact accepts_of_succ (fun m hm => (ih hm).aligned) hm
  | indented d _ ih => exact accepts_of_succ (fun m hm => (ih hm).indented d) hm

end Reparsec.Stk
