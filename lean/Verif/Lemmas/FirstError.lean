import Verif.Lemmas.SoundAll

/-!
# The first error with recovery is the error without recovery

For parsers without `attempt`.
-/

namespace Reparsec

variable {τ α β γ : Type}

/-- The first operation of the list carries the error `e`. -/
def FirstOp (e : Err) (ops : List OpItem) : Prop :=
  ∃ i rest, ops = i :: rest ∧ i.loc = e.loc ∧ i.expected = e.expected ∧ i.consumed = e.consumed

/-- What the recovering function may give when the plain one gives the error `e`; the expected list
of the result itself is only right if `X`. -/
def SameErr (X : Prop) (e : Err) : Result τ α → Prop
  | .ok _ => True
  | .error e' => e' = e
  | .recovered r => r.loc = e.loc ∧ r.consumed = e.consumed ∧
      (∀ x ∈ r.repairs, FirstOp e x.ops) ∧ (X → r.expected = e.expected)

/-- The invariant. `S`: the parser does not start with `recover_with`; `U`: there is none at all. -/
structure FE {s : List τ} (D : LocDisc s) (S U : Prop) (f : ParseFns τ α) : Prop where
  loc : ∀ pos ctx e, pos ≤ s.length → CtxOK D ctx pos → f.fast s pos ctx = .ret (.error e) →
    e.consumed = false → D.rel pos e.loc
  same : ∀ pos ctx e, pos ≤ s.length → CtxOK D ctx pos → f.fast s pos ctx = .ret (.error e) →
    ∀ ins rem r, f.fn s pos ctx ins rem = .ret r →
      SameErr (if e.consumed then U else S) e r

section
variable {s : List τ} {D : LocDisc s} {S U : Prop}

theorem FE.of_no_error {f : ParseFns τ α} (h : ∀ pos ctx e, f.fast s pos ctx ≠ .ret (.error e)) :
    FE D S U f :=
  ⟨fun pos ctx e _ _ h' => absurd h' (h pos ctx e), fun pos ctx e _ _ h' => absurd h' (h pos ctx e)⟩

theorem fe_pureFn (x : Except Exn α) : FE D S U (pureFnFns x) := by
  refine .of_no_error fun pos ctx e h => ?_
  simp only [pureFnFns, Out.bind_def, Out.bind_eq_ret, Out.pure_def, Out.ret.injEq] at h
  obtain ⟨_, _, h⟩ := h; cases h

theorem fe_unexpected (x : String) : FE D S U (unexpectedFns x : ParseFns τ Unit) := by
  constructor
  · intro pos ctx e hp hc h _
    simp only [unexpectedFns, Out.ret.injEq, Simple.error.injEq] at h
    subst h; exact hc.report (Nat.le_refl _) hp
  · intro pos ctx e hp hc h ins rem r hr
    simp only [unexpectedFns, Out.ret.injEq, Simple.error.injEq] at h hr
    subst h hr; rfl

theorem fe_eof : FE D S U (eofFns : ParseFns τ Unit) := by
  constructor
  · intro pos ctx e hp hc h _
    simp only [eofFns, eofFast] at h
    split at h
    · cases h
    · simp only [Out.ret.injEq, Simple.error.injEq] at h
      subst h; exact hc.report (Nat.le_refl _) hp
  · intro pos ctx e hp hc h ins rem r hr
    simp only [eofFns, eofFast] at h
    split at h
    · cases h
    next hne =>
    simp only [Out.ret.injEq, Simple.error.injEq] at h
    subst h
    simp only [eofFns, eofFn, hne, if_false] at hr
    split at hr
    · simp only [Out.ret.injEq] at hr; subst hr; rfl
    · simp only [Out.ret.injEq] at hr
      subst hr
      refine ⟨rfl, rfl, ?_, fun _ => rfl⟩
      simp only [List.mem_singleton]
      rintro _ rfl
      exact ⟨_, _, rfl, rfl, rfl, rfl⟩

theorem fe_satisfy (test : τ → Except Exn Bool) : FE D S U (satisfyFns test) := by
  have inv : ∀ pos ctx e, satisfyFast test s pos ctx = .ret (.error e) →
      testAt test s pos = .ok none ∧ e = { loc := ctx.getLoc s pos } := by
    intro pos ctx e h
    simp only [satisfyFast, Out.bind_def, Out.bind_eq_ret, Out.ofExcept_eq_ret] at h
    obtain ⟨x, h1, h2⟩ := h
    cases x with
    | some t => cases h2
    | none =>
      simp only [Out.ret.injEq, Simple.error.injEq] at h2
      exact ⟨h1, h2.symm⟩
  constructor
  · intro pos ctx e hp hc h _
    obtain ⟨-, rfl⟩ := inv _ _ _ h
    exact hc.report (Nat.le_refl _) hp
  · intro pos ctx e hp hc h ins rem r hr
    obtain ⟨h1, rfl⟩ := inv _ _ _ h
    simp only [satisfyFns, satisfyFn, h1, Out.ofExcept_ok, Out.bind_def, Out.bind_ret] at hr
    cases rem with
    | none => simp only [Out.ret.injEq] at hr; subst hr; rfl
    | some rem =>
      simp only [Out.bind_eq_ret, Out.ofExcept_eq_ret] at hr
      obtain ⟨x, -, hr⟩ := hr
      cases x with
      | none => simp only [Out.ret.injEq] at hr; subst hr; rfl
      | some x =>
        simp only [Out.ret.injEq] at hr
        subst hr
        refine ⟨rfl, rfl, ?_, fun _ => rfl⟩
        simp only [List.mem_singleton]
        rintro _ rfl
        exact ⟨_, _, rfl, rfl, rfl, rfl⟩

theorem fe_regexp (m : Matcher τ α) : FE D S U (regexpFns m) := by
  have inv : ∀ pos ctx e, regexpFast m s pos ctx = .ret (.error e) →
      m.at s pos = .ok none ∧ e = { loc := ctx.getLoc s pos } := by
    intro pos ctx e h
    simp only [regexpFast, Out.bind_def, Out.bind_eq_ret, Out.ofExcept_eq_ret] at h
    obtain ⟨x, h1, h2⟩ := h
    cases x with
    | some t => cases h2
    | none =>
      simp only [Out.ret.injEq, Simple.error.injEq] at h2
      exact ⟨h1, h2.symm⟩
  constructor
  · intro pos ctx e hp hc h _
    obtain ⟨-, rfl⟩ := inv _ _ _ h
    exact hc.report (Nat.le_refl _) hp
  · intro pos ctx e hp hc h ins rem r hr
    obtain ⟨h1, rfl⟩ := inv _ _ _ h
    simp only [regexpFns, regexpFn, h1, Out.ofExcept_ok, Out.bind_def, Out.bind_ret] at hr
    cases rem with
    | none => simp only [Out.ret.injEq] at hr; subst hr; rfl
    | some rem =>
      simp only [Out.bind_eq_ret, Out.ofExcept_eq_ret] at hr
      obtain ⟨x, -, hr⟩ := hr
      cases x with
      | none => simp only [Out.ret.injEq] at hr; subst hr; rfl
      | some x =>
        simp only [Out.ret.injEq] at hr
        subst hr
        refine ⟨rfl, rfl, ?_, fun _ => rfl⟩
        simp only [List.mem_singleton]
        rintro _ rfl
        exact ⟨_, _, rfl, rfl, rfl, rfl⟩

theorem fe_sym [BEq τ] (x : τ) (l : String) : FE D S U (symFns x l) := by
  have inv : ∀ pos ctx e, symFast x [l] s pos ctx = .ret (.error e) →
      symAt x s pos = none ∧ e = { loc := ctx.getLoc s pos, expected := [l] } := by
    intro pos ctx e h
    simp only [symFast] at h
    split at h
    · cases h
    · next h1 => simp only [Out.ret.injEq, Simple.error.injEq] at h; exact ⟨h1, h.symm⟩
  constructor
  · intro pos ctx e hp hc h _
    obtain ⟨-, rfl⟩ := inv _ _ _ h
    exact hc.report (Nat.le_refl _) hp
  · intro pos ctx e hp hc h ins rem r hr
    obtain ⟨h1, rfl⟩ := inv _ _ _ h
    simp only [symFns, symFn, h1] at hr
    cases rem with
    | none => simp only [Out.ret.injEq] at hr; subst hr; rfl
    | some rem =>
      simp only [Out.bind_def, Out.bind_eq_ret, Out.ofExcept_eq_ret] at hr
      obtain ⟨y, -, hr⟩ := hr
      have hreps : ∀ z ∈ (if rem ≠ 0 then [makeInsert rem x pos ctx (ctx.getLoc s pos) l [l]]
          else []), FirstOp { loc := ctx.getLoc s pos, expected := [l] } z.ops := by
        intro z hz
        split at hz
        · simp only [List.mem_singleton] at hz; subst hz; exact ⟨_, _, rfl, rfl, rfl, rfl⟩
        · cases hz
      cases y with
      | none =>
        simp only [Out.ret.injEq] at hr; subst hr
        exact ⟨rfl, rfl, hreps, fun _ => rfl⟩
      | some y =>
        simp only [Out.ret.injEq] at hr
        subst hr
        refine ⟨rfl, rfl, ?_, fun _ => rfl⟩
        intro z hz
        rcases List.mem_append.1 hz with hz | hz
        · exact hreps z hz
        · simp only [List.mem_singleton] at hz; subst hz; exact ⟨_, _, rfl, rfl, rfl, rfl⟩

theorem fe_literal [BEq τ] (x : List τ) (l : String) : FE D S U (literalFns x l) := by
  have inv : ∀ pos ctx e, literalFast x [l] s pos ctx = .ret (.error e) →
      ¬ startsWith x s pos ∧ e = { loc := ctx.getLoc s pos, expected := [l] } := by
    intro pos ctx e h
    simp only [literalFast] at h
    split at h
    · cases h
    · next h1 => simp only [Out.ret.injEq, Simple.error.injEq] at h; exact ⟨h1, h.symm⟩
  constructor
  · intro pos ctx e hp hc h _
    obtain ⟨-, rfl⟩ := inv _ _ _ h
    exact hc.report (Nat.le_refl _) hp
  · intro pos ctx e hp hc h ins rem r hr
    obtain ⟨h1, rfl⟩ := inv _ _ _ h
    simp only [literalFns, literalFn, h1] at hr
    cases rem with
    | none => simp at hr; subst hr; rfl
    | some rem =>
      simp only [Out.bind_def, Out.bind_eq_ret, Out.ofExcept_eq_ret, Bool.false_eq_true,
        if_false] at hr
      obtain ⟨y, -, hr⟩ := hr
      have hreps : ∀ z ∈ (if rem ≠ 0 then [makeInsert rem x pos ctx (ctx.getLoc s pos) l [l]]
          else []), FirstOp { loc := ctx.getLoc s pos, expected := [l] } z.ops := by
        intro z hz
        split at hz
        · simp only [List.mem_singleton] at hz; subst hz; exact ⟨_, _, rfl, rfl, rfl, rfl⟩
        · cases hz
      cases y with
      | none =>
        simp only [Out.ret.injEq] at hr; subst hr
        exact ⟨rfl, rfl, hreps, fun _ => rfl⟩
      | some y =>
        simp only [Out.ret.injEq] at hr
        subst hr
        refine ⟨rfl, rfl, ?_, fun _ => rfl⟩
        intro z hz
        rcases List.mem_append.1 hz with hz | hz
        · exact hreps z hz
        · simp only [List.mem_singleton] at hz; subst hz; exact ⟨_, _, rfl, rfl, rfl, rfl⟩

theorem mem_repairsFmapM {fn : α → Except Exn β} {l : List (Repair τ α)} {l' : List (Repair τ β)}
    (h : repairsFmapM fn l = .ret l') {x : Repair τ β} (hx : x ∈ l') :
    ∃ y ∈ l, y.fmapM fn = .ret x := by
  induction l generalizing l' with
  | nil => simp [repairsFmapM] at h; subst h; cases hx
  | cons r rs ih =>
    simp only [repairsFmapM, Out.bind_def, Out.bind_eq_ret, Out.pure_def, Out.ret.injEq] at h
    obtain ⟨r', h1, rs', h2, rfl⟩ := h
    rcases List.mem_cons.1 hx with rfl | hx
    · exact ⟨r, List.mem_cons_self, h1⟩
    · obtain ⟨y, hy, h⟩ := ih h2 hx
      exact ⟨y, List.mem_cons_of_mem _ hy, h⟩

theorem SameErr.fmapM {X : Prop} {e : Err} {fn : α → Except Exn β} {r : Result τ α} {r' : Result τ β}
    (h : SameErr X e r) (hr : r.fmapM fn = .ret r') : SameErr X e r' := by
  cases r with
  | ok r =>
    simp only [Result.fmapM, Out.bind_def, Out.bind_eq_ret, Out.pure_def, Out.ret.injEq] at hr
    obtain ⟨_, _, rfl⟩ := hr; trivial
  | error e' => simp only [Result.fmapM, Out.ret.injEq] at hr; subst hr; exact h
  | recovered r =>
    simp only [Result.fmapM, Out.bind_def, Out.bind_eq_ret, Out.pure_def, Out.ret.injEq] at hr
    obtain ⟨reps, h1, rfl⟩ := hr
    refine ⟨h.1, h.2.1, fun x hx => ?_, h.2.2.2⟩
    obtain ⟨y, hy, hxy⟩ := mem_repairsFmapM h1 hx
    simp only [Repair.fmapM, Out.bind_def, Out.bind_eq_ret, Out.pure_def, Out.ret.injEq] at hxy
    obtain ⟨_, _, rfl⟩ := hxy
    exact h.2.2.1 y hy

theorem fe_fmap {f : ParseFns τ α} (fn : α → Except Exn β) (h : FE D S U f) :
    FE D S U (fmapFns f fn) := by
  have inv : ∀ pos ctx e, fmapFast f fn s pos ctx = .ret (.error e) →
      f.fast s pos ctx = .ret (.error e) := by
    intro pos ctx e he
    simp only [fmapFast, Out.bind_def, Out.bind_eq_ret] at he
    obtain ⟨x, h1, h2⟩ := he
    cases x with
    | ok r =>
      simp only [Simple.fmapM, Out.bind_def, Out.bind_eq_ret, Out.pure_def, Out.ret.injEq] at h2
      obtain ⟨_, _, h2⟩ := h2; cases h2
    | error e' => simp only [Simple.fmapM, Out.ret.injEq, Simple.error.injEq] at h2; rw [h1, h2]
  constructor
  · intro pos ctx e hp hc he; exact h.loc pos ctx e hp hc (inv _ _ _ he)
  · intro pos ctx e hp hc he ins rem r hr
    simp only [fmapFns, fmapFn, Out.bind_def, Out.bind_eq_ret] at hr
    obtain ⟨r', h1, h2⟩ := hr
    exact (h.same pos ctx e hp hc (inv _ _ _ he) ins rem r' h1).fmapM h2

theorem FirstOp.set {e : Err} {ops : List OpItem} (h : FirstOp e ops) (x : List String) :
    FirstOp (e.setExpected x) (opsSetExpected ops x) := by
  obtain ⟨i, rest, rfl, h1, h2, h3⟩ := h
  refine ⟨_, _, rfl, ?_⟩
  unfold OpItem.setExpected Err.setExpected
  rw [h3]
  split <;> simp_all

theorem FirstOp.prepend {e : Err} {ops : List OpItem} (h : FirstOp e ops) (x : List String)
    (c : Bool) : FirstOp (e.prependExpected x c) (opsPrependExpected ops x c) := by
  obtain ⟨i, rest, rfl, h1, h2, h3⟩ := h
  refine ⟨_, _, rfl, ?_⟩
  unfold OpItem.prependExpected Err.prependExpected
  rw [h3]
  split <;> simp_all

theorem SameErr.set {X Y : Prop} {e : Err} {r : Result τ α} (h : SameErr X e r) (x : List String)
    (hXY : e.consumed = true → Y → X) : SameErr Y (e.setExpected x) (r.setExpected x) := by
  cases r with
  | ok r => trivial
  | error e' =>
    have h : e' = e := h
    subst h; rfl
  | recovered r =>
    refine ⟨?_, ?_, ?_, ?_⟩
    · show r.loc = _
      rw [h.1]; unfold Err.setExpected; split <;> rfl
    · rw [Err.setExpected_consumed]; exact h.2.1
    · intro y hy
      simp only [Recovered.setExpected, List.mem_map] at hy
      obtain ⟨z, hz, rfl⟩ := hy
      exact (h.2.2.1 z hz).set x
    · intro hY
      show (if r.consumed then r.expected else x) = _
      unfold Err.setExpected
      rw [h.2.1]
      cases hc : e.consumed with
      | false => simp
      | true => simpa using h.2.2.2 (hXY hc hY)

theorem SameErr.prepend {X Y : Prop} {e : Err} {r : Result τ α} (h : SameErr X e r)
    (x : List String) (c : Bool) (hXY : Y → X) :
    SameErr Y (e.prependExpected x c) (r.prependExpected x c) := by
  cases r with
  | ok r => trivial
  | error e' =>
    have h : e' = e := h
    subst h; rfl
  | recovered r =>
    refine ⟨?_, ?_, ?_, ?_⟩
    · show r.loc = _
      rw [h.1]; unfold Err.prependExpected; split <;> rfl
    · rw [Err.prependExpected_consumed]
      show (r.consumed || c) = _
      rw [h.2.1]
    · intro y hy
      simp only [Recovered.prependExpected, List.mem_map] at hy
      obtain ⟨z, hz, rfl⟩ := hy
      exact (h.2.2.1 z hz).prepend x c
    · intro hY
      have h4 := h.2.2.2 (hXY hY)
      show (if r.consumed then r.expected else x ++ r.expected) = _
      unfold Err.prependExpected
      rw [h.2.1, h4]
      split <;> rfl

theorem SameErr.mono {X Y : Prop} {e : Err} {r : Result τ α} (h : SameErr X e r) (hXY : Y → X) :
    SameErr Y e r := by
  cases r with
  | ok r => trivial
  | error e' => exact h
  | recovered r => exact ⟨h.1, h.2.1, h.2.2.1, fun y => h.2.2.2 (hXY y)⟩

theorem SameErr.continueParse {X : Prop} {e : Err} {ra : Recovered τ α} {ins : Int}
    {k : α → Nat → Ctx τ → Int → Out (Result τ β)} {merge : α → β → γ} {r : Result τ γ}
    (h : SameErr X e (.recovered ra)) (hr : continueParse ra ins k merge = .ret r) :
    SameErr X e r := by
  obtain ⟨reps, h1, rfl⟩ := continueParse_ret hr
  refine ⟨h.1, h.2.1, fun x hx => ?_, h.2.2.2⟩
  obtain ⟨y, hy, rb, -, hm⟩ := mem_contReps h1 hx
  obtain ⟨i, rest, h2, h3⟩ := h.2.2.1 y hy
  cases rb with
  | ok rb =>
    simp only [contOne, List.mem_singleton] at hm
    subst hm; exact ⟨i, rest, h2, h3⟩
  | error e => cases hm
  | recovered rb =>
    simp only [contOne, List.mem_map] at hm
    obtain ⟨z, -, rfl⟩ := hm
    exact ⟨i, rest ++ opsPrependExpected z.ops y.expected y.consumed,
      by simp only [joinOps, h2, List.cons_append], h3⟩

theorem fe_label {f : ParseFns τ α} (x : String) (h : FE D S U f) : FE D True U (labelFns f x) := by
  have inv : ∀ pos ctx e, (labelFns f x).fast s pos ctx = .ret (.error e) →
      ∃ e', f.fast s pos ctx = .ret (.error e') ∧ e = e'.setExpected [x] := by
    intro pos ctx e he
    simp only [labelFns, Out.bind_def, Out.bind_eq_ret, Out.pure_def, Out.ret.injEq] at he
    obtain ⟨y, h1, h2⟩ := he
    cases y with
    | ok r => cases h2
    | error e' => cases h2; exact ⟨e', h1, rfl⟩
  constructor
  · intro pos ctx e hp hc he hf
    obtain ⟨e', h1, rfl⟩ := inv _ _ _ he
    rw [Err.setExpected_consumed] at hf
    have := h.loc pos ctx e' hp hc h1 hf
    unfold Err.setExpected; split <;> exact this
  · intro pos ctx e hp hc he ins rem r hr
    obtain ⟨e', h1, rfl⟩ := inv _ _ _ he
    simp only [labelFns, Out.bind_def, Out.bind_eq_ret, Out.pure_def, Out.ret.injEq] at hr
    obtain ⟨r', h2, rfl⟩ := hr
    refine (h.same pos ctx e' hp hc h1 ins rem r' h2).set [x] fun hc => ?_
    simp [hc]

theorem fe_recover {f : ParseFns τ α} (h : FE D S U f) : FE D S U (recoverFns f) := by
  refine ⟨h.loc, fun pos ctx e hp hc he ins rem r hr => ?_⟩
  simp only [recoverFns, recoverFn, Out.bind_def, Out.bind_eq_ret] at hr
  obtain ⟨r', h1, h2⟩ := hr
  have h3 := h.same pos ctx e hp hc he ins rem r' h1
  cases r' with
  | ok r => simp only [Out.ret.injEq] at h2; subst h2; trivial
  | error e => simp only [Out.ret.injEq] at h2; subst h2; exact h3
  | recovered r =>
    simp only [Out.ret.injEq] at h2; subst h2
    refine ⟨h3.1, h3.2.1, fun x hx => ?_, h3.2.2.2⟩
    simp only [List.mem_map] at hx
    obtain ⟨y, hy, rfl⟩ := hx
    exact h3.2.2.1 y hy

theorem fe_recoverWithFn {f : ParseFns τ α} (fn : List τ → Nat → Except Exn α) (lbl : α → String)
    (hD : ∀ q l l', D.rel q l → D.rel q l' → l = l') (hS : S)
    (h : FE D S U f) : FE D False U (recoverWithFnFns f fn lbl) := by
  refine ⟨h.loc, fun pos ctx e hp hc he ins rem r hr => ?_⟩
  have hloc : e.consumed = false → ctx.getLoc s pos = e.loc := fun hx =>
    hD _ _ _ (hc.report (Nat.le_refl _) hp) (h.loc pos ctx e hp hc he hx)
  have hm : ∀ {r : Result τ α}, (e.consumed = true ∨ ∃ e', r = .error e') →
      SameErr (if e.consumed then U else S) e r →
      SameErr (if e.consumed then U else False) e r := by
    intro r hr h
    rcases hr with hr | ⟨e', rfl⟩
    · simpa [hr] using h
    · exact h
  cases rem with
  | none =>
    have h3 := h.same pos ctx e hp hc he ins none r hr
    refine h3.mono ?_
    cases e.consumed <;> simp
  | some rem =>
    simp only [recoverWithFnFns, recoverWithFnFn, Out.bind_def, Out.bind_eq_ret] at hr
    obtain ⟨r', h1, h2⟩ := hr
    have h3 := h.same pos ctx e hp hc he ins (some rem) r' h1
    cases r' with
    | ok r => simp only [Out.ret.injEq] at h2; subst h2; trivial
    | error e' =>
      have h3 : e' = e := h3
      subst h3
      simp only at h2
      split at h2
      · simp only [Out.ret.injEq] at h2; subst h2; rfl
      next hcon =>
      have hcon : e'.consumed = false := by simpa using hcon
      split at h2
      · simp only [Out.bind_eq_ret, Out.ofExcept_eq_ret, Out.ret.injEq] at h2
        obtain ⟨x, -, rfl⟩ := h2
        refine ⟨hloc hcon, hcon.symm, ?_, by simp [hcon]⟩
        simp only [List.mem_singleton]
        rintro _ rfl
        exact ⟨_, _, rfl, hloc hcon, rfl, hcon.symm⟩
      · simp only [Out.ret.injEq] at h2; subst h2; rfl
    | recovered r' =>
      simp only at h2
      split at h2
      · next hcon =>
        simp only [Out.ret.injEq] at h2; subst h2
        exact hm (.inl (h3.2.1 ▸ hcon)) h3
      next hcon =>
      have hcon : e.consumed = false := by rw [← h3.2.1]; simpa using hcon
      split at h2
      · simp only [Out.bind_eq_ret, Out.ofExcept_eq_ret, Out.ret.injEq] at h2
        obtain ⟨x, -, rfl⟩ := h2
        refine ⟨hloc hcon, hcon.symm, ?_, by simp [hcon]⟩
        simp only [List.mem_cons]
        rintro _ (rfl | hx)
        · refine ⟨_, _, rfl, hloc hcon, ?_, hcon.symm⟩
          exact h3.2.2.2 (by simpa [hcon] using hS)
        · exact h3.2.2.1 _ hx
      · simp only [Out.ret.injEq] at h2; subst h2
        refine h3.mono ?_
        cases e.consumed <;> simp

theorem fe_setCtx {f : ParseFns τ α} {c1 c2 : Ctx τ} {pos : Nat} {X : Prop} {e : Err}
    {ins : Int} {rem : Option Int} {r : Result τ α}
    (h : ∀ r, f.fn s pos c1 ins rem = .ret r → SameErr X e r)
    (hr : (f.fn s pos c1 ins rem).bind (fun r => .ret (r.setCtx c2)) = .ret r) : SameErr X e r := by
  simp only [Out.bind_eq_ret, Out.ret.injEq] at hr
  obtain ⟨r', h1, rfl⟩ := hr
  have := h r' h1
  cases r' with
  | ok r => trivial
  | error e' => exact this
  | recovered r =>
    refine ⟨this.1, this.2.1, fun x hx => ?_, this.2.2.2⟩
    simp only [List.mem_map] at hx
    obtain ⟨y, hy, rfl⟩ := hx
    exact this.2.2.1 y hy

theorem fast_setCtx {f : ParseFns τ α} {c1 c2 : Ctx τ} {pos : Nat} {e : Err}
    (h : (f.fast s pos c1).bind (fun r => .ret (r.setCtx c2)) = .ret (.error e)) :
    f.fast s pos c1 = .ret (.error e) := by
  simp only [Out.bind_eq_ret, Out.ret.injEq] at h
  obtain ⟨r', h1, h2⟩ := h
  cases r' with
  | ok r => cases h2
  | error e' => cases h2; exact h1

theorem fe_block {f : ParseFns τ α} (h : FE D S U f) : FE D S U (blockFns f) := by
  constructor
  · intro pos ctx e hp hc he
    exact h.loc pos _ e hp ((hc.updateLoc (Nat.le_refl _) hp).setMark _) (fast_setCtx he)
  · intro pos ctx e hp hc he ins rem r hr
    exact fe_setCtx (fun r hr => h.same pos _ e hp ((hc.updateLoc (Nat.le_refl _) hp).setMark _)
      (fast_setCtx he) ins rem r hr) hr

theorem fe_aligned {f : ParseFns τ α} (hl : D.layout) (h : FE D S U f) :
    FE D S U (alignedFns f) := by
  constructor
  · intro pos ctx e hp hc he
    simp only [alignedFns] at he
    split at he
    · exact h.loc pos _ e hp (hc.updateLoc (Nat.le_refl _) hp) he
    · simp only [Out.ret.injEq, Simple.error.injEq] at he
      subst he
      intro _; exact (hc.here hp hl).1
  · intro pos ctx e hp hc he ins rem r hr
    simp only [alignedFns] at he hr
    split at he
    · next hm =>
      rw [if_pos hm] at hr
      exact h.same pos _ e hp (hc.updateLoc (Nat.le_refl _) hp) he ins rem r hr
    · next hm =>
      rw [if_neg hm] at hr
      simp only [Out.ret.injEq, Simple.error.injEq] at he hr
      subst he hr; rfl

theorem fe_indented {f : ParseFns τ α} (d : Int) (hl : D.layout) (h : FE D S U f) :
    FE D S U (indentedFns d f) := by
  constructor
  · intro pos ctx e hp hc he
    simp only [indentedFns] at he
    split at he
    · exact h.loc pos _ e hp ((hc.updateLoc (Nat.le_refl _) hp).setMark _) (fast_setCtx he)
    · simp only [Out.ret.injEq, Simple.error.injEq] at he
      subst he
      intro _; exact (hc.here hp hl).1
  · intro pos ctx e hp hc he ins rem r hr
    simp only [indentedFns] at he hr
    split at he
    · next hm =>
      rw [if_pos hm] at hr
      exact fe_setCtx (fun r hr => h.same pos _ e hp
        ((hc.updateLoc (Nat.le_refl _) hp).setMark _) (fast_setCtx he) ins rem r hr) hr
    · next hm =>
      rw [if_neg hm] at hr
      simp only [Out.ret.injEq, Simple.error.injEq] at he hr
      subst he hr; rfl

theorem fe_bind {f : ParseFns τ α} {g : α → ParseFns τ β} {Sf : Prop} {Sg : α → Prop}
    (sim : Sim f) (frame : Framed f)
    (hctx : ∀ pos ctx r, pos ≤ s.length → CtxOK D ctx pos → f.fast s pos ctx = .ret (.ok r) →
      CtxOK D r.ctx r.pos)
    (hU : U → ∀ a, Sg a) (hSf : S → Sf)
    (hSg : S → ∀ pos ctx r, pos ≤ s.length → f.fast s pos ctx = .ret (.ok r) →
      r.consumed = false → Sg r.value)
    (hf : FE D Sf U f) (hg : ∀ a, FE D (Sg a) U (g a)) : FE D S U (bindFns f g) := by
  have inv : ∀ pos ctx e, bindFast f g s pos ctx = .ret (.error e) →
      f.fast s pos ctx = .ret (.error e) ∨ ∃ r e', f.fast s pos ctx = .ret (.ok r) ∧
        (g r.value).fast s r.pos r.ctx = .ret (.error e') ∧
        e = e'.prependExpected r.expected r.consumed := by
    intro pos ctx e he
    simp only [bindFast, Out.bind_def, Out.bind_eq_ret] at he
    obtain ⟨x, h1, h2⟩ := he
    cases x with
    | error e' => simp only [Out.ret.injEq, Simple.error.injEq] at h2; subst h2; exact .inl h1
    | ok r =>
      simp only [Out.bind_eq_ret, Out.pure_def, Out.ret.injEq] at h2
      obtain ⟨y, h2, h3⟩ := h2
      cases y with
      | ok _ => cases h3
      | error e' => cases h3; exact .inr ⟨r, e', h1, h2, rfl⟩
  have okf : ∀ {pos ctx r}, pos ≤ s.length → f.fast s pos ctx = .ret (.ok r) →
      OkFrame s pos ctx r := fun {pos ctx r} hp h =>
    frame s pos ctx 0 none (.ok r) hp (sim.ok h 0 none)
  constructor
  · intro pos ctx e hp hc he hcon
    rcases inv _ _ _ he with h1 | ⟨r, e', h1, h2, rfl⟩
    · exact hf.loc pos ctx e hp hc h1 hcon
    · have ho := okf hp h1
      rw [Err.prependExpected_consumed, Bool.or_eq_false_iff] at hcon
      have hpos : r.pos = pos := by
        have := ho.consumed; rw [hcon.2] at this
        have := ho.lo; simp at *; omega
      have := (hg r.value).loc r.pos r.ctx e' ho.hi (hctx _ _ _ hp hc h1) h2 hcon.1
      rw [hpos] at this
      unfold Err.prependExpected; split <;> exact this
  · intro pos ctx e hp hc he ins rem r hr
    simp only [bindFns, bindFn, Out.bind_def, Out.bind_eq_ret] at hr
    obtain ⟨ra, h3, hr⟩ := hr
    rcases inv _ _ _ he with h1 | ⟨ro, e', h1, h2, rfl⟩
    · have h4 := hf.same pos ctx e hp hc h1 ins rem ra h3
      cases ra with
      | ok r => exact absurd h3 (sim.not_ok h1)
      | error e' =>
        simp only [Out.ret.injEq] at hr; subst hr; exact h4
      | recovered ra =>
        refine (h4.continueParse hr).mono ?_
        cases e.consumed
        · simpa using hSf
        · simp
    · rw [sim.ok h1] at h3
      simp only [Out.ret.injEq] at h3
      subst h3
      have ho := okf hp h1
      have key : ∃ rem', ∃ rb, (g ro.value).fn s ro.pos ro.ctx ins rem' = .ret rb ∧
          r = rb.prependExpected ro.expected ro.consumed := by
        simp only at hr
        split at hr <;>
        · simp only [Out.bind_eq_ret, Out.pure_def, Out.ret.injEq] at hr
          obtain ⟨rb, h, rfl⟩ := hr
          exact ⟨_, rb, h, rfl⟩
      obtain ⟨rem', rb, h4, rfl⟩ := key
      have h5 := (hg ro.value).same ro.pos ro.ctx e' ho.hi (hctx _ _ _ hp hc h1) h2 ins rem' rb h4
      refine h5.prepend _ _ ?_
      rw [Err.prependExpected_consumed]
      cases hc1 : e'.consumed <;> cases hc2 : ro.consumed <;> simp
      · exact fun hs => hSg hs pos ctx ro hp h1 hc2
      · exact fun hu => hU hu _

theorem fe_alt {f g : ParseFns τ α} {Sf Sg : Prop} (simf : Sim f) (simg : Sim g)
    (hD : ∀ q l l', D.rel q l → D.rel q l' → l = l')
    (hf : FE D Sf U f) (hg : FE D Sg U g) : FE D True U (altFns f g) := by
  have inv : ∀ pos ctx e, altFast f g s pos ctx = .ret (.error e) →
      (f.fast s pos ctx = .ret (.error e) ∧ e.consumed = true) ∨
      ∃ ea, f.fast s pos ctx = .ret (.error ea) ∧ ea.consumed = false ∧
        ∃ eb, g.fast s pos ctx = .ret (.error eb) ∧
          ((eb.consumed = true ∧ e = eb) ∨
           (eb.consumed = false ∧ e = { loc := ea.loc, expected := ea.expected ++ eb.expected })) := by
    intro pos ctx e he
    simp only [altFast, Out.bind_def, Out.bind_eq_ret] at he
    obtain ⟨x, h1, h2⟩ := he
    cases x with
    | ok r => cases h2
    | error ea =>
      simp only at h2
      split at h2
      · next hc => cases h2; exact .inl ⟨h1, hc⟩
      next hc =>
      simp only [Out.bind_eq_ret] at h2
      obtain ⟨y, h3, h4⟩ := h2
      cases y with
      | ok r => simp only at h4; split at h4 <;> cases h4
      | error eb =>
        simp only at h4
        refine .inr ⟨ea, h1, by simpa using hc, eb, h3, ?_⟩
        split at h4
        · next hc => cases h4; exact .inl ⟨hc, rfl⟩
        · next hc => cases h4; exact .inr ⟨by simpa using hc, rfl⟩
  constructor
  · intro pos ctx e hp hc he hcon
    rcases inv _ _ _ he with ⟨h1, h2⟩ | ⟨ea, h1, h2, eb, h3, ⟨h4, rfl⟩ | ⟨h4, rfl⟩⟩
    · rw [h2] at hcon; cases hcon
    · rw [h4] at hcon; cases hcon
    · exact hf.loc pos ctx ea hp hc h1 h2
  · intro pos ctx e hp hc he ins rem r hr
    rcases inv _ _ _ he with ⟨h1, h2⟩ | ⟨ea, h1, h2, eb, h3, h4⟩
    · simp only [altFns, altFn, Out.bind_def, Out.bind_eq_ret] at hr
      obtain ⟨ra, h3, h4⟩ := hr
      have h5 := hf.same pos ctx e hp hc h1 ins none ra h3
      cases ra with
      | ok r => exact absurd h3 (simf.not_ok h1)
      | error ea =>
        have h5' : ea = e := h5
        subst h5'
        simp only [h2, if_true, Out.ret.injEq] at h4
        subst h4; rfl
      | recovered ra =>
        have h6 : ra.consumed = true := h5.2.1.trans h2
        simp only [h6, if_true, Out.ret.injEq] at h4
        subst h4
        refine h5.mono ?_; simp [h2]
    · simp only [altFns, altFn, Out.bind_def, simf.error h1 h2, Out.bind_ret, h2,
        Bool.false_eq_true, if_false, altSecond, Out.bind_eq_ret] at hr
      obtain ⟨rb, h5, h6⟩ := hr
      have h7 := hg.same pos ctx eb hp hc h3 ins none rb h5
      rcases h4 with ⟨h4, rfl⟩ | ⟨h4, rfl⟩
      · cases rb with
        | ok r => exact absurd h5 (simg.not_ok h3)
        | error e' =>
          have h7 : e' = e := h7
          subst h7
          simp only [h4, if_true, Out.ret.injEq] at h6
          subst h6; rfl
        | recovered rb =>
          have h8 : rb.consumed = true := h7.2.1.trans h4
          simp only [h8, if_true, Out.ret.injEq] at h6
          subst h6
          refine h7.mono ?_; simp [h4]
      · rw [simg.error h3 h4] at h5
        simp only [Out.ret.injEq] at h5
        subst h5
        simp only [h4, Bool.false_eq_true, if_false] at h6
        have hloc : eb.loc = ea.loc := hD _ _ _ (hg.loc pos ctx eb hp hc h3 h4)
          (hf.loc pos ctx ea hp hc h1 h2)
        cases rem with
        | none => simp only [altRecover, Out.ret.injEq] at h6; subst h6; rfl
        | some rem =>
          simp only [altRecover, Out.bind_def, Out.bind_eq_ret] at h6
          obtain ⟨rra, h8, rrb, h9, h10⟩ := h6
          have ha := hf.same pos ctx ea hp hc h1 ins (some rem) rra h8
          have hb := hg.same pos ctx eb hp hc h3 ins (some rem) rrb h9
          -- what `set_expected` makes of one side
          have fix : ∀ (e : Err) (ra : Recovered τ α) {X : Prop}, e.consumed = false →
              e.loc = ea.loc → SameErr X e (.recovered ra) →
              SameErr True { loc := ea.loc, expected := ea.expected ++ eb.expected }
                (.recovered (ra.setExpected (ea.expected ++ eb.expected))) := by
            intro e ra X he1 he2 hx
            have := hx.set (Y := True) (ea.expected ++ eb.expected) (by simp [he1])
            have h : e.setExpected (ea.expected ++ eb.expected) =
                { loc := ea.loc, expected := ea.expected ++ eb.expected } := by
              unfold Err.setExpected; cases e; simp_all
            rwa [h] at this
          simp only [Bool.false_eq_true, if_false]
          cases rra with
          | ok r => exact absurd h8 (simf.not_ok h1)
          | error ea' =>
            cases rrb with
            | ok r => exact absurd h9 (simg.not_ok h3)
            | error eb' => simp only [Out.ret.injEq] at h10; subst h10; rfl
            | recovered rrb =>
              simp only [Out.ret.injEq] at h10; subst h10
              exact fix eb rrb h4 hloc hb
          | recovered rra =>
            cases rrb with
            | ok r => exact absurd h9 (simg.not_ok h3)
            | error eb' =>
              simp only [Out.ret.injEq] at h10; subst h10
              exact fix ea rra h2 rfl ha
            | recovered rrb =>
              simp only [Out.ret.injEq] at h10; subst h10
              have fa := fix ea rra h2 rfl ha
              have fb := fix eb rrb h4 hloc hb
              have hca : rra.consumed = false := ha.2.1.trans h2
              have hcb : rrb.consumed = false := hb.2.1.trans h4
              refine ⟨?_, ?_, ?_, ?_⟩
              · simpa [Recovered.setExpected, joinRepairs, hca, hcb] using ha.1
              · simp [Recovered.setExpected, joinRepairs, hca, hcb]
              · intro x hx
                simp only [Recovered.setExpected, List.mem_map] at hx
                obtain ⟨y, hy, rfl⟩ := hx
                have hy' : y ∈ rra.repairs ∨ y ∈ rrb.repairs := by
                  have : (joinRepairs rra rrb).repairs = joinReps rra rrb := by
                    unfold joinRepairs; simp [hca, hcb]
                  rw [this] at hy
                  unfold joinReps at hy
                  split at hy <;>
                  · rcases List.mem_append.1 hy with hy | hy
                    · exact .inl hy
                    · exact .inr (List.mem_filter.1 hy).1
                rcases hy' with hy' | hy'
                · exact fa.2.2.1 _ (List.mem_map.2 ⟨y, hy', rfl⟩)
                · exact fb.2.2.1 _ (List.mem_map.2 ⟨y, hy', rfl⟩)
              · intro _
                simp [Recovered.setExpected, joinRepairs, hca, hcb]

theorem fe_many {f : ParseFns τ α} (sim : Sim f) (frame : Framed f)
    (hctx : ∀ pos ctx r, pos ≤ s.length → CtxOK D ctx pos → f.fast s pos ctx = .ret (.ok r) →
      CtxOK D r.ctx r.pos)
    (h : FE D S U f) (fuel : Nat) : FE D True U (manyFns fuel f) := by
  have key : ∀ fuel pos ctx c v e, pos ≤ s.length → CtxOK D ctx pos →
      manyFastLoop f.fast s fuel pos ctx c v = .ret (.error e) → e.consumed = true ∧
      ∀ ins r, manyLoop f.fn s ins fuel pos ctx c v = .ret r → SameErr U e r := by
    intro fuel
    induction fuel with
    | zero => intro pos ctx c v e _ _ he; cases he
    | succ n ih =>
      intro pos ctx c v e hp hc he
      simp only [manyFastLoop, Out.bind_def, Out.bind_eq_ret] at he
      obtain ⟨x, h1, h2⟩ := he
      cases x with
      | ok r =>
        simp only at h2
        split at h2
        · next hcon =>
          have ho : OkFrame s pos ctx r := frame s pos ctx 0 none (.ok r) hp (sim.ok h1 0 none)
          obtain ⟨h3, h4⟩ := ih r.pos r.ctx true _ e ho.hi (hctx _ _ _ hp hc h1) h2
          refine ⟨h3, fun ins r' hr => ?_⟩
          simp only [manyLoop, sim.ok h1, Out.bind_def, Out.bind_ret, hcon, if_true] at hr
          exact h4 ins r' hr
        · cases h2
      | error e' =>
        simp only at h2
        split at h2
        · next hcon =>
          cases h2
          refine ⟨hcon, fun ins r hr => ?_⟩
          simp only [manyLoop, Out.bind_def, Out.bind_eq_ret] at hr
          obtain ⟨ra, h3, h4⟩ := hr
          have h5 := h.same pos ctx e hp hc h1 ins none ra h3
          simp only [hcon, if_true] at h5
          cases ra with
          | ok r => exact absurd h3 (sim.not_ok h1)
          | error e' =>
            have h6 : e' = e := h5
            subst h6
            simp only [hcon, if_true, Out.ret.injEq] at h4
            subst h4; exact h5
          | recovered ra => exact h5.continueParse h4
        · cases h2
  constructor
  · intro pos ctx e hp hc he hcon
    rw [(key fuel pos ctx false [] e hp hc he).1] at hcon; cases hcon
  · intro pos ctx e hp hc he ins rem r hr
    obtain ⟨h1, h2⟩ := key fuel pos ctx false [] e hp hc he
    simpa [h1] using h2 ins r hr

end

end Reparsec
