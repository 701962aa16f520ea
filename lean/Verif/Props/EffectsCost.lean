import Verif.Lemmas.EffectsCost
import Verif.Props.EffectsEval
import Mathlib.Data.Fintype.Card
import Mathlib.Data.Fintype.EquivFin
import Mathlib.Data.Finset.Lattice.Fold

/-!
# C64: without recovery parsing ends, and calls callbacks at most linearly often
-/

namespace Reparsec.Eff

variable {σ τ ρ : Type} {Γ : ρ → Type} {α β : Type}

section
variable [BEq τ]

/-- `p.parse(s, ..)`, called in world `w`, returns or raises, having called callbacks at most `k`
times. -/
def EndsWithin (env : Env σ τ ρ Γ) (p : P σ τ ρ Γ α) (s : List τ) (o : Opts τ) (w : World σ)
    (k : Nat) : Prop :=
  ∃ w' : World σ, ((∃ r, Returns env p s o w r w') ∨ ∃ e, Raises env p s o w e w') ∧
    w'.calls.length ≤ w.calls.length + k

theorem comesTo_ends {env : Env σ τ ρ Γ} {p : P σ τ ρ Γ α} {s : List τ}
    {gl : Loc → List τ → Nat → Loc} {rel : Nat → Loc → Prop} {w w' : World σ} {o : Outcome α}
    (h : ComesTo env p s gl rel w o w') :
    (∃ r, Returns env p s (plain gl) w r w') ∨ ∃ e, Raises env p s (plain gl) w e w' := by
  cases o with
  | accepts v j x => obtain ⟨r, h, -⟩ := h; exact .inl ⟨_, h⟩
  | fails x =>
    cases x with
    | rejects q x b => obtain ⟨r, h, -⟩ := h; exact .inl ⟨_, h⟩
    | raises e => exact .inr ⟨e, h⟩

/-- **C64**, termination: if no chain of `Delay` objects, each of which may call the next one before
anything is consumed, goes on forever, then `p.parse(s)` returns or raises, whatever the callbacks do
to the state and however their results depend on it, with every `get_loc`. -/
theorem C64_terminates (env : Env σ τ ρ Γ) (hwf : WellFounded fun j i => LeftCalls env i j)
    (p : P σ τ ρ Γ α) (s : List τ) (gl : Loc → List τ → Nat → Loc) (w : World σ) :
    ∃ w', (∃ r, Returns env p s (plain gl) w r w') ∨ ∃ e, Raises env p s (plain gl) w e w' := by
  obtain ⟨n, hn⟩ := ends_all (s := s) hwf s.length 0 (by omega) (Nat.zero_le _) p (initCtx gl) w
  rcases comesTo_cases (p := p) (env := env) (anyDisc gl s) ⟨rfl, trivial⟩ (.inl trivial) w with
    h | ⟨o, w', -, h⟩
  · have := h n
    rw [parse_plain_eq] at this
    exact absurd this (by cases hx : (denote env n p).fast s 0 (initCtx gl) w <;> simp_all [anyDisc, Run.bind])
  · exact ⟨w', comesTo_ends h⟩

theorem wf_of_no_left_recursion [Finite ρ] (env : Env σ τ ρ Γ) (h : ∀ i, ¬ LeftReaches env i i) :
    WellFounded fun j i => LeftCalls env i j := by
  have : IsTrans ρ fun j i => LeftReaches env i j := ⟨fun a b c h1 h2 => by
    induction h2 with
    | one h => exact .step h h1
    | step h _ ih => exact .step h (ih h1)⟩
  have : Std.Irrefl fun j i => LeftReaches env i j := ⟨h⟩
  have hwf := Finite.wellFounded_of_trans_of_irrefl fun j i => LeftReaches env i j
  exact Subrelation.wf (fun h => .one h) hwf

/-- **C64**: for a grammar of finitely many `Delay` objects without left recursion and without `bind`,
in which `attempt` is used only around parsers that read a fixed amount of input, there is a constant
`K` such that on every input, in every state and with every `get_loc`, `p.parse(s)` returns or raises,
having called the callbacks (predicates, functions of `fmap`, ...) at most `K * (len(s) + 1)` times. -/
theorem C64_linear [Finite ρ] (env : Env σ τ ρ Γ) (h : ∀ i, ¬ LeftReaches env i i)
    (p : P σ τ ρ Γ α) (hp : Predictive env p) :
    ∃ K, ∀ (s : List τ) (gl : Loc → List τ → Nat → Loc) (w : World σ),
      EndsWithin env p s (plain gl) w (K * (s.length + 1)) := by
  have hwf := wf_of_no_left_recursion env h
  obtain ⟨a, ha⟩ := exists_bounds hwf (fun a p => p.before env a) fun a a' p h => before_congr p h
  obtain ⟨b, hb⟩ := exists_bounds hwf (fun b p => p.first env a b) fun b b' p h => first_congr p h
  obtain ⟨K0, hK0⟩ : ∃ K0, ∀ x q, env x = some q → q.rate env a b ≤ K0 := by
    have := Fintype.ofFinite ρ
    let f : ρ → Nat := fun x => match env x with
      | none => 0
      | some q => q.rate env a b
    refine ⟨Finset.univ.sup f, fun x q hx => ?_⟩
    have := Finset.le_sup (f := f) (Finset.mem_univ x)
    simpa [f, hx] using this
  refine ⟨K0 + p.rate env a b + p.before env a, fun s gl w => ?_⟩
  obtain ⟨w', hw⟩ := C64_terminates env hwf p s gl w
  rcases comesTo_cases (p := p) (env := env) (anyDisc gl s) ⟨rfl, trivial⟩ (.inl trivial) w with
    hh | ⟨o, w', h1, h2⟩
  · rcases hw with ⟨r, n, hr⟩ | ⟨e, n, hr⟩
    · exact absurd (hr.symm.trans (hh n)) (by simp)
    · exact absurd (hr.symm.trans (hh n)) (by simp)
  · refine ⟨w', comesTo_ends h2, ?_⟩
    have hr := first_le_rate (env := env) a b p
    have := eval_within (K := K0 + p.rate env a b + p.before env a) ha hb
      (fun x q hx => by have := hK0 x q hx; omega) hp.2 h1 (Nat.zero_le _) hp.1 (by omega)
    generalize hK : K0 + p.rate env a b + p.before env a = K at this ⊢
    have e1 : K * (s.length + 1) = K * s.length + K := by rw [Nat.mul_add, Nat.mul_one]
    cases o with
    | accepts v j x =>
      obtain ⟨-, g2, g3, g4⟩ := this
      rcases Nat.lt_or_ge 0 j with hj | hj
      · have := g4 hj
        have : K * (j - 0) ≤ K * s.length := Nat.mul_le_mul_left _ (by omega)
        omega
      · have := g3 (by omega); omega
    | fails f =>
      cases f with
      | rejects q x d =>
        cases d
        · have : w'.calls.length ≤ _ := this
          omega
        · have : w'.calls.length ≤ _ + _ + K * (s.length - 0) := this
          rw [Nat.sub_zero] at this
          omega
      | raises e =>
        have : w'.calls.length ≤ _ + _ + K * (s.length - 0) := this
        rw [Nat.sub_zero] at this
        omega

end

/-! ### Samples -/

namespace Sample

theorem sym_reads [BEq τ] {env : Env σ τ ρ Γ} {s : List τ} {col : Nat → Nat → Prop}
    {p : P σ τ ρ Γ α} {m i : Nat} {w w' : World σ} {o : Outcome α}
    (h : Eval env s col p m i w o w') :
    match p with
    | .sym _ _ => ∀ v j x, o = .accepts v j x → j = i + 1
    | _ => True := by
  cases h with
  | sym => intro v j x h; cases h; rfl
  | symNot => intro v j x h; cases h
  | _ => trivial

/-- `sym` never succeeds on nothing. -/
theorem sym_not_empty [BEq τ] {env : Env σ τ ρ Γ} {x : τ} {l : String} {a : τ} :
    ¬ CanBeEmpty env (.sym x l) a := by
  rintro ⟨s, col, m, i, w, y, w', -, h⟩
  have := sym_reads h _ _ _ rfl
  omega

def digit : Callback Nat Char Bool := ⟨"digit", fun c n => (.ok c.isDigit, n + 1)⟩

/-- `e = (sym("(") >> e << sym(")")) | (attempt(sym("a") >> sym("b")) | satisfy(digit))`; the
predicate counts its calls. -/
def body : P Nat Char Unit (fun _ => Char) Char :=
  .alt (.seqWith (.seqWith (.sym '(' "'('") (.ref ()) fun _ b => b) (.sym ')' "')'") fun a _ => a)
    (.alt (.attempt (.seqWith (.sym 'a' "'a'") (.sym 'b' "'b'") fun _ b => b)) (.satisfy digit))

def env : Env Nat Char Unit (fun _ => Char) := fun _ => some body

theorem no_left_recursion : ∀ i, ¬ LeftReaches env i i := by
  have : ∀ i j, ¬ LeftCalls env i j := by
    rintro i j ⟨q, hq, h⟩
    cases hq
    rcases h with ((h | ⟨⟨a, ha⟩, -⟩) | ⟨⟨a, ha⟩, h⟩) | (h | ⟨-, h⟩) | h
    · exact h
    · exact sym_not_empty ha
    · exact h
    · exact h
    · exact h
    · exact h
  intro i h
  cases h with
  | one h => exact this _ _ h
  | step h _ => exact this _ _ h

example : ∃ K, ∀ (s : List Char) (gl : Loc → List Char → Nat → Loc) (w : World Nat),
    EndsWithin env (.ref ()) s (plain gl) w (K * (s.length + 1)) :=
  C64_linear env no_left_recursion _ ⟨trivial, fun i q h => by
    cases h; exact ⟨⟨⟨trivial, trivial⟩, trivial⟩, ⟨trivial, trivial⟩, trivial⟩⟩

/-- `((1))`: two nested pairs, the predicate is called once. -/
example : ∃ r w', Returns env (.ref ()) "((1))".toList (plain defaultGetLoc) ⟨0, []⟩ r w' ∧
    r.unwrap defaultFmtLoc false = .ok '1' ∧ w'.calls.length = 1 := ⟨_, _, ⟨30, rfl⟩, rfl, rfl⟩

end Sample

/-! ### `attempt` around more than a fixed amount of input -/

namespace Exponential

def isX : Callback Unit Char Bool := ⟨"isX", fun c _ => (.ok (c == 'x'), ())⟩

def opened (close : Char) : P Unit Char Unit (fun _ => Char) Char :=
  .attempt (.seqWith (.seqWith (.sym '(' "'('") (.ref ()) fun _ b => b) (.sym close "close")
    fun a _ => a)

/-- `e = attempt(sym("(") >> e << sym(")")) | (attempt(sym("(") >> e << sym("]")) | satisfy(isX))` -/
def env : Env Unit Char Unit (fun _ => Char) := fun _ =>
  some (.alt (opened ')') (.alt (opened ']') (.satisfy isX)))

/-- `((( ... (x`, with `n` opening parentheses. -/
def input (n : Nat) : List Char := List.replicate n '(' ++ ['x']

theorem input_open {n i : Nat} (h : i < n) : (input n)[i]? = some '(' := by
  simp [input, List.getElem?_append, h]

theorem input_x (n : Nat) : (input n)[n]? = some 'x' := by simp [input]

theorem input_end (n : Nat) : (input n)[n + 1]? = none := by simp [input]

theorem isX_calls (c : Char) (w : World Unit) :
    ∃ w', Calls isX c w (.ok (c == 'x')) w' ∧ w'.calls.length = w.calls.length + 1 :=
  ⟨_, .mk rfl, by simp⟩

/-- An opening parenthesis that is not closed. -/
theorem opened_rejects {n i : Nat} {close : Char} (hi : i < n) {w w1 : World Unit}
    {o : Outcome Char} {col : Nat → Nat → Prop}
    (h : Eval env (input n) col (.ref ()) 0 (i + 1) w o w1)
    (ho : (i + 1 = n ∧ ∃ v x, o = .accepts v (n + 1) x) ∨
      ∃ q x, o = .fails (.rejects q x false)) :
    ∃ q x, Eval env (input n) col (opened close) 0 i w (.fails (.rejects q x false)) w1 := by
  have hsym : Eval env (input n) col (.sym '(' "'('") 0 i w (.accepts '(' (i + 1) []) w :=
    .sym (input_open hi) rfl
  rcases ho with ⟨rfl, v, x, rfl⟩ | ⟨q, x, rfl⟩
  · have h1 := Eval.seq (merge := fun _ b => b) hsym h
    have h2 : Eval env (input (i + 1)) col (.sym close "close") 0 (i + 1 + 1) w1
        (.fails (.rejects (i + 1 + 1) ["close"] false)) w1 :=
      .symNot fun t ht => by rw [input_end] at ht; cases ht
    have h3 := Eval.attempt (Eval.seq (merge := fun a _ => a) h1 h2)
    exact ⟨_, _, h3⟩
  · have h1 := Eval.seq (merge := fun _ b => b) hsym h
    have h3 := Eval.attempt (Eval.seqFails (q := .sym close "close") (merge := fun a _ => a) h1)
    exact ⟨_, _, h3⟩

theorem doubles (n : Nat) (col : Nat → Nat → Prop) : ∀ (k i : Nat), i + k = n → ∀ w : World Unit,
    ∃ o w', Eval env (input n) col (.ref ()) 0 i w o w' ∧
      w.calls.length + 2 ^ k ≤ w'.calls.length ∧
      ((k = 0 ∧ ∃ v x, o = .accepts v (n + 1) x) ∨ ∃ q x, o = .fails (.rejects q x false)) := by
  intro k
  induction k with
  | zero =>
    intro i hi w
    have hi : i = n := by omega
    subst hi
    have hno : ∀ close, Eval env (input i) col (opened close) 0 i w
        (.fails (.rejects i ["'('"] false)) w := fun close =>
      .attempt (.seqFails (.seqFails (.symNot fun t ht => by rw [input_x] at ht; cases ht; rfl)))
    obtain ⟨w', h1, h2⟩ := isX_calls 'x' w
    have := Eval.ref (env := env) (x := ()) rfl
      (.altSecond (hno ')') (.altSecond (hno ']') (.satisfy (input_x i) h1)))
    exact ⟨_, w', this, by simp [h2], .inl ⟨rfl, _, _, rfl⟩⟩
  | succ k ih =>
    intro i hi w
    obtain ⟨o1, w1, h1, c1, ho1⟩ := ih (i + 1) (by omega) w
    obtain ⟨o2, w2, h2, c2, ho2⟩ := ih (i + 1) (by omega) w1
    obtain ⟨q1, x1, g1⟩ := opened_rejects (i := i) (close := ')') (by omega) h1
      (ho1.imp_left fun h => ⟨by omega, h.2⟩)
    obtain ⟨q2, x2, g2⟩ := opened_rejects (i := i) (close := ']') (by omega) h2
      (ho2.imp_left fun h => ⟨by omega, h.2⟩)
    obtain ⟨w3, h3, c3⟩ := isX_calls '(' w2
    have := Eval.ref (env := env) (x := ()) rfl
      (.altSecond g1 (.altSecond g2 (.satisfyNot (input_open (by omega)) h3)))
    exact ⟨_, w3, this, by rw [Nat.pow_succ]; omega, .inr ⟨_, _, rfl⟩⟩

end Exponential

/-- C64: the condition on `attempt` is needed. With `e = attempt(sym("(") >> e << sym(")")) |
(attempt(sym("(") >> e << sym("]")) | satisfy(isX))`, which is not left-recursive, parsing `n` opening
parentheses and an `x` calls `isX` at least `2 ** n` times. -/
theorem C64_attempt_exponential (n : Nat) :
    ∃ r w', Returns Exponential.env (.ref ()) (List.replicate n '(' ++ ['x']) (plain defaultGetLoc)
      ⟨(), []⟩ r w' ∧ 2 ^ n ≤ w'.calls.length := by
  obtain ⟨o, w', h, hc, ho⟩ := Exponential.doubles n (fun _ c => c = 0) n 0 (by omega) ⟨(), []⟩
  have := (C63_default _ _ _).2 h
  rcases ho with ⟨-, v, x, rfl⟩ | ⟨q, x, rfl⟩
  · obtain ⟨r, hr, -⟩ := this; exact ⟨_, w', hr, by simpa using hc⟩
  · obtain ⟨r, hr, -⟩ := this; exact ⟨_, w', hr, by simpa using hc⟩

end Reparsec.Eff
