import Verif.Lemmas.EffectsErase
import Verif.Props.Modes

/-!
# C61, C62: callbacks with side effects

C61: recovery does not change what the user's callbacks do to input that is accepted, and before the
first error.  C62: callbacks that write state, but whose results do not depend on it, may be taken as
functions, so that everything proved for functions holds for them.
-/

namespace Reparsec.Eff

variable {σ τ ρ : Type} {Γ : ρ → Type} {α : Type} [BEq τ]

/-! ### Exactly one of the three outcomes -/

section
variable {env : Env σ τ ρ Γ} {p : P σ τ ρ Γ α} {s : List τ} {o : Opts τ} {w : World σ}

theorem parse_le (env : Env σ τ ρ Γ) (p : P σ τ ρ Γ α) (s : List τ) (b : Bool) (k : Int)
    (gl : Loc → List τ → Nat → Loc) {n n' : Nat} (h : n ≤ n') :
    ActLe (parse env n p s b k gl) (parse env n' p s b k gl) := by
  unfold parse
  split
  · exact (denote_le env h p).2 _ _ _ _ _
  · exact ((denote_le env h p).1 _ _ _).bind fun _ => .refl _

theorem parse_plain_eq (env : Env σ τ ρ Γ) (p : P σ τ ρ Γ α) (s : List τ) (n : Nat)
    (gl : Loc → List τ → Nat → Loc) (w : World σ) :
    parse env n p s (plain gl).recover (plain gl).maxInsertions (plain gl).getLoc w =
      ((denote env n p).fast s 0 (initCtx gl) w).bind fun r => pure r.toResult := rfl

theorem parse_recovering_eq (env : Env σ τ ρ Γ) (p : P σ τ ρ Γ α) (s : List τ) (n : Nat) (k : Int)
    (gl : Loc → List τ → Nat → Loc) (w : World σ) :
    parse env n p s (recovering k gl).recover (recovering k gl).maxInsertions
      (recovering k gl).getLoc w = (denote env n p).fn s 0 (initCtx gl) k (some k) w := rfl

/-- A call of `parse` ends in `x`. -/
theorem ends_le {n : Nat} {x : Run σ (Result τ α)}
    (h : parse env n p s o.recover o.maxInsertions o.getLoc w = x) (hx : x ≠ .diverge) {n' : Nat}
    (hn : n ≤ n') : parse env n' p s o.recover o.maxInsertions o.getLoc w = x := by
  rw [((parse_le env p s _ _ _ hn) w).eq (by rw [h]; exact hx), h]

/-- Two outcomes of the same call are the same. -/
theorem ends_unique {n n' : Nat} {x y : Run σ (Result τ α)}
    (h : parse env n p s o.recover o.maxInsertions o.getLoc w = x) (hx : x ≠ .diverge)
    (h' : parse env n' p s o.recover o.maxInsertions o.getLoc w = y) (hy : y ≠ .diverge) : x = y := by
  rw [← ends_le h hx (Nat.le_max_left n n'), ← ends_le h' hy (Nat.le_max_right n n')]

theorem ret_unique {r r' : Result τ α} {w1 w2 : World σ} (h : Returns env p s o w r w1)
    (h' : Returns env p s o w r' w2) : r = r' ∧ w1 = w2 := by
  obtain ⟨n, h⟩ := h; obtain ⟨n', h'⟩ := h'
  have := ends_unique h (by simp) h' (by simp)
  cases this; exact ⟨rfl, rfl⟩

theorem raise_unique {e e' : Exn} {w1 w2 : World σ} (h : Raises env p s o w e w1)
    (h' : Raises env p s o w e' w2) : e = e' ∧ w1 = w2 := by
  obtain ⟨n, h⟩ := h; obtain ⟨n', h'⟩ := h'
  have := ends_unique h (by simp) h' (by simp)
  cases this; exact ⟨rfl, rfl⟩

theorem ret_not_raise {r : Result τ α} {e : Exn} {w1 w2 : World σ} (h : Returns env p s o w r w1)
    (h' : Raises env p s o w e w2) : False := by
  obtain ⟨n, h⟩ := h; obtain ⟨n', h'⟩ := h'
  have := ends_unique h (by simp) h' (by simp)
  cases this

theorem ends_cases (env : Env σ τ ρ Γ) (p : P σ τ ρ Γ α) (s : List τ) (o : Opts τ) (w : World σ) :
    (∃ r w', Returns env p s o w r w') ∨ (∃ e w', Raises env p s o w e w') ∨
      Hangs env p s o w := by
  by_cases h : ∃ n, parse env n p s o.recover o.maxInsertions o.getLoc w ≠ .diverge
  · obtain ⟨n, h⟩ := h
    cases hx : parse env n p s o.recover o.maxInsertions o.getLoc w with
    | diverge => exact absurd hx h
    | raise e w' => exact .inr (.inl ⟨e, w', n, hx⟩)
    | ret r w' => exact .inl ⟨r, w', n, hx⟩
  · refine .inr (.inr fun n => ?_)
    by_cases h' : parse env n p s o.recover o.maxInsertions o.getLoc w = .diverge
    · exact h'
    · exact absurd ⟨n, h'⟩ h

end

/-! ### A parser with a symbol table

`many(sym("d") >> letter.fmap(declare) | satisfy(declared)) << eof()`: `d` declares the letter after
it, and other letters must have been declared.  The user's state is the list of declared letters. -/

namespace Sample

/-- `def declare(c): table.append(c)` -/
def declare : Callback (List Char) Char Unit := ⟨"declare", fun c t => (.ok (), t ++ [c])⟩

/-- `lambda c: c in table` -/
def declared : Callback (List Char) Char Bool := ⟨"declared", fun c t => (.ok (t.contains c), t)⟩

/-- `lambda c: c in table`, and raises for digits -/
def isLetter : Callback (List Char) Char Bool := ⟨"letter", fun c t =>
  (if c.isDigit then .error (.user "digit") else .ok (c.isAlpha), t)⟩

def noEnv : Env (List Char) Char Empty (fun _ => Unit) := fun i => i.elim

def skip : Callback (List Char) Char Unit := ⟨"skip", fun _ t => (.ok (), t)⟩

def item : P (List Char) Char Empty (fun _ => Unit) Unit :=
  .alt (.seqWith (.sym 'd' "'d'") (.fmap (.satisfy isLetter) declare) fun _ b => b)
    (.fmap (.satisfy declared) skip)

def prog : P (List Char) Char Empty (fun _ => Unit) (List Unit) :=
  .seqWith (.many item) .eof fun a _ => a

/-- An empty table, and no calls so far. -/
def start : World (List Char) := ⟨[], []⟩

/-- The names of the calls, and the state afterwards. -/
def trace {α : Type} : Run (List Char) α → Option (List String × List Char)
  | .diverge => none
  | .raise _ w => some (w.calls.map Called.name, w.state)
  | .ret _ w => some (w.calls.map Called.name, w.state)

/-- `dxx`: declares `x`, and uses it. -/
example : trace (parse noEnv 30 prog "dxx".toList false 5 defaultGetLoc start)
    = some (["letter", "declare", "declared", "skip"], ['x']) := rfl

/-- `dxy`: `y` has not been declared. -/
example : trace (parse noEnv 30 prog "dxy".toList false 5 defaultGetLoc start)
    = some (["letter", "declare", "declared"], ['x']) := rfl

/-- `d(x`: with recovery, `(` is skipped and `x` declared, after what is done without. -/
example : trace (parse noEnv 30 prog "d(x".toList false 5 defaultGetLoc start)
    = some (["letter"], []) := rfl
example : trace (parse noEnv 30 prog "d(x".toList true 5 defaultGetLoc start)
    = some (["letter", "letter", "declare"], ['x']) := rfl

end Sample

/-! ### C61 -/

/-- C61. If plain parsing gives a value, recovering gives the same value, in the same world: the
callbacks were called the same number of times, in the same order, with the same effect. -/
theorem C61_accepted_same_effects (env : Env σ τ ρ Γ) (p : P σ τ ρ Γ α) (s : List τ)
    (gl : Loc → List τ → Nat → Loc) (k : Int) (fmt : Loc → String) {w w' : World σ}
    {r : Result τ α} {b : Bool} {v : α} (h : Returns env p s (plain gl) w r w')
    (hv : r.unwrap fmt b = .ok v) : Returns env p s (recovering k gl) w r w' := by
  obtain ⟨n, h⟩ := h
  simp only [parse_plain_eq, Run.bind_eq_ret, Act.pure_apply, Run.ret.injEq] at h
  obtain ⟨x, w1, h1, rfl, rfl⟩ := h
  cases x with
  | error e => simp [Simple.toResult, Result.unwrap] at hv
  | ok o =>
    refine ⟨n, ?_⟩
    simp only [parse_recovering_eq]
    exact (sim_denote env n p).ok h1 _ _

example : ∃ r w', Returns Sample.noEnv Sample.prog "dxx".toList (plain defaultGetLoc) Sample.start
    r w' ∧ r.unwrap defaultFmtLoc false = .ok [(), ()] ∧ w'.state = ['x'] :=
  ⟨_, _, ⟨30, rfl⟩, rfl, rfl⟩

/-- C61, converse. If recovering gives a value and no error (`unwrap()` without `recover=True`),
plain parsing gives the same value in the same world. -/
theorem C61_no_error_same_effects (env : Env σ τ ρ Γ) (p : P σ τ ρ Γ α) (s : List τ)
    (gl : Loc → List τ → Nat → Loc) (k : Int) (fmt : Loc → String) {w w' : World σ}
    {r : Result τ α} {v : α} (h : Returns env p s (recovering k gl) w r w')
    (hv : r.unwrap fmt false = .ok v) : Returns env p s (plain gl) w r w' := by
  obtain ⟨n, h⟩ := h
  simp only [parse_recovering_eq] at h
  cases r with
  | error e => simp [Result.unwrap] at hv
  | recovered rr =>
    exfalso
    unfold Result.unwrap at hv
    split at hv <;> simp at *
    split at hv <;> simp at *
  | ok o =>
    refine ⟨n, ?_⟩
    simp only [parse_plain_eq]
    cases hx : (denote env n p).fast s 0 (initCtx gl) w with
    | diverge => rw [(sim_denote env n p).diverge hx] at h; cases h
    | raise e w1 => rw [(sim_denote env n p).raise hx] at h; cases h
    | ret x w1 =>
      cases x with
      | ok r => rw [(sim_denote env n p).ok hx] at h; cases h; rfl
      | error e => exact absurd h ((sim_denote env n p).not_ok hx)

example : ∃ r w', Returns Sample.noEnv Sample.prog "dxx".toList (recovering 5 defaultGetLoc)
    Sample.start r w' ∧ r.unwrap defaultFmtLoc false = .ok [(), ()] ∧ w'.state = ['x'] :=
  ⟨_, _, ⟨30, rfl⟩, rfl, rfl⟩

/-- C61: an exception of a callback (or of the library, other than `ParseError`) in plain parsing is
raised by recovering too, in the same world. -/
theorem C61_exception_same_effects (env : Env σ τ ρ Γ) (p : P σ τ ρ Γ α) (s : List τ)
    (gl : Loc → List τ → Nat → Loc) (k : Int) {w w' : World σ} {e : Exn}
    (h : Raises env p s (plain gl) w e w') : Raises env p s (recovering k gl) w e w' := by
  obtain ⟨n, h⟩ := h
  refine ⟨n, ?_⟩
  simp only [parse_plain_eq] at h
  simp only [parse_recovering_eq]
  cases hx : (denote env n p).fast s 0 (initCtx gl) w with
  | diverge => simp [hx] at h
  | ret x w1 => simp [hx] at h
  | raise e' w1 =>
    simp only [hx, Run.bind_raise, Run.raise.injEq] at h
    obtain ⟨rfl, rfl⟩ := h
    exact (sim_denote env n p).raise hx _ _

example : ∃ w', Raises Sample.noEnv Sample.prog "dxxd1".toList (plain defaultGetLoc) Sample.start
    (.user "digit") w' ∧ w'.state = ['x'] := ⟨_, ⟨30, rfl⟩, rfl⟩

/-- C61: if plain parsing does not return, neither does recovering. -/
theorem C61_hangs (env : Env σ τ ρ Γ) (p : P σ τ ρ Γ α) (s : List τ)
    (gl : Loc → List τ → Nat → Loc) (k : Int) {w : World σ}
    (h : Hangs env p s (plain gl) w) : Hangs env p s (recovering k gl) w := by
  intro n
  have h := h n
  simp only [parse_plain_eq] at h
  simp only [parse_recovering_eq]
  cases hx : (denote env n p).fast s 0 (initCtx gl) w with
  | raise e w1 => simp [hx] at h
  | ret x w1 => simp [hx] at h
  | diverge => exact (sim_denote env n p).diverge hx _ _

/-- A `Delay` object defined as itself. -/
def Sample.loopEnv : Env (List Char) Char Unit (fun _ => Unit) := fun _ => some (.label (.ref ()) "e")

example : Hangs Sample.loopEnv (.ref () : P (List Char) Char Unit (fun _ => Unit) Unit) []
    (plain defaultGetLoc) Sample.start := by
  have : ∀ n, (table Sample.loopEnv n () : ParseFns (List Char) Char Unit) = divergeFns := by
    intro n
    induction n with
    | zero => rfl
    | succ n ih =>
      show labelFns (table Sample.loopEnv n ()) "e" = divergeFns
      rw [ih]; rfl
  intro n
  show ((table Sample.loopEnv n ()).fast [] 0 _ _).bind _ = _
  rw [this]; rfl

/-- C61: if plain parsing fails, in world `w'`, recovering does everything to the world that plain
parsing does, and only then, maybe, more: the calls recorded in `w'` come first, in the same order
and each finding the same state, whether recovering returns or raises. -/
theorem C61_failure_effects_first (env : Env σ τ ρ Γ) (p : P σ τ ρ Γ α) (s : List τ)
    (gl : Loc → List τ → Nat → Loc) (k : Int) (fmt : Loc → String) {w w' : World σ}
    {r : Result τ α} {b : Bool} {pe : ParseError} (h : Returns env p s (plain gl) w r w')
    (he : r.unwrap fmt b = .error pe) :
    (∀ r' w'', Returns env p s (recovering k gl) w r' w'' →
      (∃ pe', r'.unwrap fmt false = .error pe') ∧ ∃ more, w''.calls = w'.calls ++ more) ∧
    (∀ e w'', Raises env p s (recovering k gl) w e w'' → ∃ more, w''.calls = w'.calls ++ more) := by
  have key : ∀ n x, parse env n p s true k gl w = x → x ≠ .diverge → x.After w' := by
    intro n x hx hne
    obtain ⟨m, hm⟩ := h
    have hm' := ends_le (o := plain gl) hm (by simp) (Nat.le_max_left m n)
    have hx' := ends_le (o := recovering k gl) hx hne (Nat.le_max_right m n)
    simp only [parse_plain_eq, Run.bind_eq_ret, Act.pure_apply, Run.ret.injEq] at hm'
    obtain ⟨y, w1, h1, rfl, rfl⟩ := hm'
    simp only [parse_recovering_eq] at hx'
    cases y with
    | ok o => simp [Simple.toResult, Result.unwrap] at he
    | error e => rw [← hx']; exact (sim_denote env _ p).after h1 _ _
  constructor
  · rintro r' w'' ⟨n, hn⟩
    refine ⟨?_, ?_⟩
    · cases hu : r'.unwrap fmt false with
      | error pe' => exact ⟨pe', rfl⟩
      | ok v =>
        have h1 := C61_no_error_same_effects env p s gl k fmt ⟨n, hn⟩ hu
        obtain ⟨rfl, rfl⟩ := ret_unique h h1
        cases r with
        | ok o => simp [Result.unwrap] at he
        | error e => simp [Result.unwrap] at hu
        | recovered rr =>
          unfold Result.unwrap at hu
          split at hu <;> simp at *
          split at hu <;> simp at *
    · obtain ⟨more, hm⟩ := key n _ hn (by simp)
      exact ⟨more, hm.symm⟩
  · rintro e w'' ⟨n, hn⟩
    obtain ⟨more, hm⟩ := key n _ hn (by simp)
    exact ⟨more, hm.symm⟩

example : ∃ r w' r' w'', Returns Sample.noEnv Sample.prog "d(x".toList (plain defaultGetLoc)
    Sample.start r w' ∧ (∃ pe, r.unwrap defaultFmtLoc false = .error pe) ∧
    Returns Sample.noEnv Sample.prog "d(x".toList (recovering 5 defaultGetLoc) Sample.start r' w'' ∧
    w'.state = [] ∧ w''.state = ['x'] :=
  ⟨_, _, _, _, ⟨30, rfl⟩, ⟨_, rfl⟩, ⟨30, rfl⟩, rfl, rfl⟩

/-! ### C62 -/

/-- C62. If the results of the callbacks do not depend on the state, `parse` returns `r` iff it
returns `r` with the callbacks taken as functions; whatever the mode, the state at the beginning and
what the callbacks do to it. -/
theorem C62_returns {env : Env σ τ ρ Γ} {p : P σ τ ρ Γ α} (he : EnvSteady env) (hp : AllSteady p)
    (s : List τ) (o : Opts τ) (st : σ) (w : World σ) (r : Result τ α) :
    (∃ w', Returns env p s o w r w') ↔ Reparsec.Returns (eraseEnv st env) (erase st p) s o r := by
  constructor
  · rintro ⟨w', n, h⟩
    refine ⟨n, ?_⟩
    rw [← does_parse st he n hp s _ _ _ w, h]; rfl
  · rintro ⟨n, h⟩
    rw [← does_parse st he n hp s _ _ _ w] at h
    cases hx : parse env n p s o.recover o.maxInsertions o.getLoc w with
    | diverge => rw [hx] at h; cases h
    | raise e w' => rw [hx] at h; cases h
    | ret a w' => rw [hx] at h; cases h; exact ⟨w', n, hx⟩

/-- C62: the same for exceptions. -/
theorem C62_raises {env : Env σ τ ρ Γ} {p : P σ τ ρ Γ α} (he : EnvSteady env) (hp : AllSteady p)
    (s : List τ) (o : Opts τ) (st : σ) (w : World σ) (e : Exn) :
    (∃ w', Raises env p s o w e w') ↔ Reparsec.Raises (eraseEnv st env) (erase st p) s o e := by
  constructor
  · rintro ⟨w', n, h⟩
    refine ⟨n, ?_⟩
    rw [← does_parse st he n hp s _ _ _ w, h]; rfl
  · rintro ⟨n, h⟩
    rw [← does_parse st he n hp s _ _ _ w] at h
    cases hx : parse env n p s o.recover o.maxInsertions o.getLoc w with
    | diverge => rw [hx] at h; cases h
    | raise e w' => rw [hx] at h; cases h; exact ⟨w', n, hx⟩
    | ret a w' => rw [hx] at h; cases h

/-- C62: and for not returning. -/
theorem C62_hangs {env : Env σ τ ρ Γ} {p : P σ τ ρ Γ α} (he : EnvSteady env) (hp : AllSteady p)
    (s : List τ) (o : Opts τ) (st : σ) (w : World σ) :
    Hangs env p s o w ↔ Reparsec.Hangs (eraseEnv st env) (erase st p) s o := by
  constructor
  · intro h n
    rw [← does_parse st he n hp s _ _ _ w, h n]; rfl
  · intro h n
    have h := h n
    rw [← does_parse st he n hp s _ _ _ w] at h
    cases hx : parse env n p s o.recover o.maxInsertions o.getLoc w with
    | diverge => rfl
    | raise e w' => rw [hx] at h; cases h
    | ret a w' => rw [hx] at h; cases h

/-- C62, consequence: what a call of `parse` returns does not depend on earlier calls, or on what
else happened to the state. -/
theorem C62_repeatable {env : Env σ τ ρ Γ} {p : P σ τ ρ Γ α} (he : EnvSteady env)
    (hp : AllSteady p) (s : List τ) (o : Opts τ) (w1 w2 : World σ) (r : Result τ α) :
    (∃ w', Returns env p s o w1 r w') ↔ (∃ w', Returns env p s o w2 r w') :=
  (C62_returns he hp s o w1.state w1 r).trans (C62_returns he hp s o w1.state w2 r).symm

/-- C62, consequence: adding side effects to callbacks (logging, counting, ...) does not change what
`parse` returns. `p` and `q` are the same parser, but for what their callbacks do to the state (which
need not even be the same state). -/
theorem C62_instrumented {σ' : Type} {env : Env σ τ ρ Γ} {env' : Env σ' τ ρ Γ} {p : P σ τ ρ Γ α}
    {q : P σ' τ ρ Γ α} (he : EnvSteady env) (hp : AllSteady p) (he' : EnvSteady env')
    (hq : AllSteady q) (st : σ) (st' : σ') (henv : eraseEnv st env = eraseEnv st' env')
    (hpq : erase st p = erase st' q) (s : List τ) (o : Opts τ) (w : World σ) (w' : World σ')
    (r : Result τ α) :
    (∃ w1, Returns env p s o w r w1) ↔ (∃ w1, Returns env' q s o w' r w1) := by
  rw [C62_returns he hp s o st w r, C62_returns he' hq s o st' w' r, henv, hpq]

omit [BEq τ] in
theorem ofP_steady (p : Reparsec.P τ ρ Γ α) : AllSteady (ofP p) := by
  induction p with
  | pure => exact .pure
  | pureFn => exact .pureFn fun _ _ _ => rfl
  | unexpected => exact .unexpected
  | eof => exact .eof
  | satisfy => exact .satisfy fun _ _ _ => rfl
  | sym => exact .sym
  | literal => exact .literal
  | regexp => exact .regexp
  | fmap _ _ ih => exact .fmap ih fun _ _ _ => rfl
  | alt _ _ ih ih' => exact .alt ih ih'
  | bind _ _ ih ih' => exact .bind ih (fun _ _ _ => rfl) ih'
  | seqWith _ _ _ ih ih' => exact .seqWith ih ih'
  | maybe _ ih => exact .maybe ih
  | many _ ih => exact .many ih
  | attempt _ ih => exact .attempt ih
  | label _ _ ih => exact .label ih
  | recover _ ih => exact .recover ih
  | recoverWith _ _ _ ih => exact .recoverWith ih
  | recoverWithFn _ _ _ ih => exact .recoverWithFn ih fun _ _ _ => rfl
  | block _ ih => exact .block ih
  | aligned _ ih => exact .aligned ih
  | indented _ _ ih => exact .indented ih
  | ref => exact .ref

omit [BEq τ] in
theorem erase_ofP (p : Reparsec.P τ ρ Γ α) : erase () (ofP p) = p := by
  induction p with
  | bind p k ih ih' =>
    simp only [ofP, erase, ih, quiet, plainFn]
    congr 1
    funext a; exact ih' a
  | satisfy test => rfl
  | fmap p fn ih => simp only [ofP, erase, ih]; rfl
  | _ => simp_all [ofP, erase, quiet, plainFn]

omit [BEq τ] in
theorem ofEnv_steady (env : Reparsec.Env τ ρ Γ) : EnvSteady (ofEnv env) := by
  intro i p h
  simp only [ofEnv, Option.map_eq_some_iff] at h
  obtain ⟨q, _, rfl⟩ := h
  exact ofP_steady q

omit [BEq τ] in
theorem eraseEnv_ofEnv (env : Reparsec.Env τ ρ Γ) : eraseEnv () (ofEnv env) = env := by
  funext i
  simp only [eraseEnv, ofEnv, Option.map_map]
  cases env i with
  | none => rfl
  | some p => simp [erase_ofP]

/-- C62: the model with side effects extends the one without: every parser whose callbacks are
functions is a parser with callbacks, and behaves in the same way as one. -/
theorem C62_extends (env : Reparsec.Env τ ρ Γ) (p : Reparsec.P τ ρ Γ α) (s : List τ) (o : Opts τ)
    (w : World Unit) :
    (∀ r, Reparsec.Returns env p s o r ↔ ∃ w', Returns (ofEnv env) (ofP p) s o w r w') ∧
    (∀ e, Reparsec.Raises env p s o e ↔ ∃ w', Raises (ofEnv env) (ofP p) s o w e w') ∧
    (Reparsec.Hangs env p s o ↔ Hangs (ofEnv env) (ofP p) s o w) := by
  have he := ofEnv_steady env
  have hp := ofP_steady p
  refine ⟨fun r => ?_, fun e => ?_, ?_⟩
  · rw [C62_returns he hp s o () w r, eraseEnv_ofEnv, erase_ofP]
  · rw [C62_raises he hp s o () w e, eraseEnv_ofEnv, erase_ofP]
  · rw [C62_hangs he hp s o () w, eraseEnv_ofEnv, erase_ofP]

/-! The hypotheses are met by a parser that counts the letters it reads. -/

namespace Sample

def count : Callback Nat Char Char := ⟨"count", fun c n => (.ok c, n + 1)⟩

def noEnvN : Env Nat Char Empty (fun _ => Unit) := fun i => i.elim

/-- `many(sym("a").fmap(count)) << eof()` -/
def counting : P Nat Char Empty (fun _ => Unit) (List Char) :=
  .seqWith (.many (.fmap (.sym 'a' "'a'") count)) .eof fun a _ => a

theorem counting_steady : AllSteady counting :=
  .seqWith (.many (.fmap .sym fun _ _ _ => rfl)) .eof

theorem noEnvN_steady : EnvSteady noEnvN := fun i => i.elim

example : ∃ r w', Returns noEnvN counting "aaa".toList (plain defaultGetLoc) ⟨4, []⟩ r w' ∧
    r.unwrap defaultFmtLoc false = .ok ['a', 'a', 'a'] ∧ w'.state = 7 := ⟨_, _, ⟨30, rfl⟩, rfl, rfl⟩

/-- While the results of a symbol table do depend on the state: the same parser on the same input
accepts it or not. -/
example : (∃ r w', Returns noEnv prog "x".toList (plain defaultGetLoc) ⟨['x'], []⟩ r w' ∧
      r.unwrap defaultFmtLoc false = .ok [()]) ∧
    (∃ r w' pe, Returns noEnv prog "x".toList (plain defaultGetLoc) ⟨[], []⟩ r w' ∧
      r.unwrap defaultFmtLoc false = .error pe) :=
  ⟨⟨_, _, ⟨30, rfl⟩, rfl⟩, ⟨_, _, _, ⟨30, rfl⟩, rfl⟩⟩

end Sample

end Reparsec.Eff
