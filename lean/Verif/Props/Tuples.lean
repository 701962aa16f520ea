import Verif.Model.Tuples
import Verif.Lemmas.Chain
import Verif.Props.Iteration
import Verif.Props.Language
import Verif.Props.Samples

/-!
# C73: `then` builds flat tuples of up to eight values, `apply` passes them as arguments
-/

namespace Reparsec

variable {τ ρ : Type} {Γ : ρ → Type} {A : Type}

/-! ### Specification -/

/-- Without recovery the parsers read, one after the other, the values `vs` from `pos` to `pos'`. -/
inductive ReadsAll [BEq τ] (env : Env τ ρ Γ) (s : List τ) : List (PyParser τ ρ Γ A) → Nat → Ctx τ →
    List (PyVal A) → Nat → Ctx τ → Prop
  | nil {pos ctx} : ReadsAll env s [] pos ctx [] pos ctx
  | cons {p ps pos ctx v pos₁ ctx₁ vs pos' ctx'} : Reads env p.p s pos ctx v pos₁ ctx₁ →
      ReadsAll env s ps pos₁ ctx₁ vs pos' ctx' → ReadsAll env s (p :: ps) pos ctx (v :: vs) pos' ctx'

/-- The values `vs` can be derived from the input, one after the other, with the given edits. -/
inductive DerAll [BEq τ] (env : Env τ ρ Γ) (s : List τ) (col : Nat → Nat → Prop) (m : Nat) :
    List (PyParser τ ρ Γ A) → Nat → List Step → List (PyVal A) → Nat → Prop
  | nil {i} : DerAll env s col m [] i [] [] i
  | cons {p ps i es v l es' vs j} : Der env s col p.p m i es v l →
      DerAll env s col m ps l es' vs j → DerAll env s col m (p :: ps) i (es ++ es') (v :: vs) j

/-! ### Lemmas -/

section
variable [BEq τ] {env : Env τ ρ Γ} {s : List τ}

theorem ReadsAll.snoc {ps : List (PyParser τ ρ Γ A)} {p : PyParser τ ρ Γ A} {pos pos₁ pos' : Nat}
    {ctx ctx₁ ctx' : Ctx τ} {vs : List (PyVal A)} {v : PyVal A} (h : ReadsAll env s ps pos ctx vs pos₁ ctx₁)
    (h' : Reads env p.p s pos₁ ctx₁ v pos' ctx') :
    ReadsAll env s (ps ++ [p]) pos ctx (vs ++ [v]) pos' ctx' := by
  induction h with
  | nil => exact .cons h' .nil
  | cons h _ ih => exact .cons h (ih h')

theorem ReadsAll.snoc_inv {ps : List (PyParser τ ρ Γ A)} {p : PyParser τ ρ Γ A} {pos pos' : Nat}
    {ctx ctx' : Ctx τ} {vs : List (PyVal A)} (h : ReadsAll env s (ps ++ [p]) pos ctx vs pos' ctx') :
    ∃ ws w pos₁ ctx₁, vs = ws ++ [w] ∧ ReadsAll env s ps pos ctx ws pos₁ ctx₁ ∧
      Reads env p.p s pos₁ ctx₁ w pos' ctx' := by
  induction ps generalizing pos ctx vs with
  | nil =>
    cases h with
    | cons h h' => cases h' with | nil => exact ⟨[], _, _, _, rfl, .nil, h⟩
  | cons q ps ih =>
    cases h with
    | cons h h' =>
      obtain ⟨ws, w, pos₁, ctx₁, rfl, h1, h2⟩ := ih h'
      exact ⟨_ :: ws, w, pos₁, ctx₁, rfl, .cons h h1, h2⟩

theorem ReadsAll.length {ps : List (PyParser τ ρ Γ A)} {pos pos' : Nat} {ctx ctx' : Ctx τ}
    {vs : List (PyVal A)} (h : ReadsAll env s ps pos ctx vs pos' ctx') : vs.length = ps.length := by
  induction h with
  | nil => rfl
  | cons _ _ ih => simp [ih]

theorem DerAll.snoc {col : Nat → Nat → Prop} {m : Nat} {ps : List (PyParser τ ρ Γ A)} {p : PyParser τ ρ Γ A}
    {i l j : Nat} {es es' : List Step} {vs : List (PyVal A)} {v : PyVal A} (h : DerAll env s col m ps i es vs l)
    (h' : Der env s col p.p m l es' v j) : DerAll env s col m (ps ++ [p]) i (es ++ es') (vs ++ [v]) j := by
  induction h with
  | nil => have := DerAll.cons h' .nil; simpa using this
  | cons h _ ih => rw [List.append_assoc]; exact .cons h (ih h')

theorem DerAll.length {col : Nat → Nat → Prop} {m : Nat} {ps : List (PyParser τ ρ Γ A)} {i j : Nat}
    {es : List Step} {vs : List (PyVal A)} (h : DerAll env s col m ps i es vs j) : vs.length = ps.length := by
  induction h with
  | nil => rfl
  | cons _ _ ih => simp [ih]

/-- `t` is the tuple parser for `ps`. -/
structure IsTuple (env : Env τ ρ Γ) (ps : List (PyParser τ ρ Γ A)) (t : PyParser τ ρ Γ A) : Prop where
  cls : t.cls = .tuple ps.length
  reads : ∀ s pos ctx v pos' ctx', pos ≤ s.length →
    (Reads env t.p s pos ctx v pos' ctx' ↔ ∃ vs, v = .tuple vs ∧ ReadsAll env s ps pos ctx vs pos' ctx')
  der : ∀ s col m i es v j, Der env s col t.p m i es v j →
    ∃ vs, v = .tuple vs ∧ DerAll env s col m ps i es vs j

theorem IsTuple.two {p q : PyParser τ ρ Γ A} (cls : p.cls = .single) :
    ∃ t, p.then_ q = .ok t ∧ IsTuple env [p, q] t := by
  refine ⟨_, by rw [PyParser.then_, cls], rfl, fun s pos ctx v pos' ctx' hp => ?_, fun s col m i es v j h => ?_⟩
  · rw [C15_success_iff hp]
    constructor
    · rintro ⟨a, b, pos₁, ctx₁, h1, h2, rfl⟩
      exact ⟨_, rfl, .cons h1 (.cons h2 .nil)⟩
    · rintro ⟨vs, rfl, h⟩
      cases h with
      | cons h1 h => cases h with
        | cons h2 h => cases h with
          | nil => exact ⟨_, _, _, _, h1, h2, rfl⟩
  · obtain ⟨es1, es2, a, b, l, rfl, rfl, h1, h2⟩ := h.inv
    refine ⟨_, rfl, ?_⟩
    have := DerAll.cons h1 (DerAll.cons h2 .nil)
    simpa using this

theorem IsTuple.next {ps : List (PyParser τ ρ Γ A)} {t q : PyParser τ ρ Γ A} (ht : IsTuple env ps t)
    (h8 : ps.length < 8) : ∃ t', t.then_ q = .ok t' ∧ IsTuple env (ps ++ [q]) t' := by
  refine ⟨_, by rw [PyParser.then_, ht.cls]; exact if_pos h8, by simp,
    fun s pos ctx v pos' ctx' hp => ?_, fun s col m i es v j h => ?_⟩
  · rw [C15_success_iff hp]
    constructor
    · rintro ⟨a, b, pos₁, ctx₁, h1, h2, rfl⟩
      obtain ⟨vs, rfl, h3⟩ := (ht.reads _ _ _ _ _ _ hp).1 h1
      exact ⟨_, rfl, ReadsAll.snoc h3 h2⟩
    · rintro ⟨vs, rfl, h⟩
      obtain ⟨ws, w, pos₁, ctx₁, rfl, h1, h2⟩ := h.snoc_inv
      exact ⟨_, _, _, _, (ht.reads _ _ _ _ _ _ hp).2 ⟨ws, rfl, h1⟩, h2, rfl⟩
  · obtain ⟨es1, es2, a, b, l, rfl, rfl, h1, h2⟩ := h.inv
    obtain ⟨vs, rfl, h3⟩ := ht.der _ _ _ _ _ _ _ h1
    exact ⟨_, rfl, DerAll.snoc h3 h2⟩

theorem IsTuple.all {ps qs : List (PyParser τ ρ Γ A)} {t : PyParser τ ρ Γ A} (ht : IsTuple env ps t)
    (h8 : ps.length + qs.length ≤ 8) : ∃ t', t.thenAll qs = .ok t' ∧ IsTuple env (ps ++ qs) t' := by
  induction qs generalizing ps t with
  | nil => exact ⟨t, rfl, by simpa using ht⟩
  | cons q qs ih =>
    simp only [List.length_cons] at h8
    obtain ⟨t1, h1, h2⟩ := ht.next (q := q) (by omega)
    obtain ⟨t2, h3, h4⟩ := ih h2 (by simp; omega)
    exact ⟨t2, by rw [PyParser.thenAll, h1]; exact h3, by simpa using h4⟩

theorem isTuple {p q : PyParser τ ρ Γ A} {qs : List (PyParser τ ρ Γ A)} (cls : p.cls = .single)
    (h8 : qs.length ≤ 6) : ∃ t, p.thenAll (q :: qs) = .ok t ∧ IsTuple env (p :: q :: qs) t := by
  obtain ⟨t1, h1, h2⟩ := IsTuple.two (env := env) (q := q) cls
  obtain ⟨t2, h3, h4⟩ := h2.all (qs := qs) (by simp; omega)
  exact ⟨t2, by rw [PyParser.thenAll, h1]; exact h3, h4⟩

/-! ### The claims -/

/-- **C73**: `p.then(q1)....then(qn)`, with two to eight parsers in all, succeeds with a value if and only if the
parsers succeed one after the other, and the value is the flat tuple of their values, in order. -/
theorem C73_flat (env : Env τ ρ Γ) (p q : PyParser τ ρ Γ A) (qs : List (PyParser τ ρ Γ A))
    (cls : p.cls = .single) (h8 : (p :: q :: qs).length ≤ 8) :
    ∃ t, p.thenAll (q :: qs) = .ok t ∧ t.cls = .tuple (p :: q :: qs).length ∧
      ∀ s pos ctx v pos' ctx', pos ≤ s.length →
        (Reads env t.p s pos ctx v pos' ctx' ↔
          ∃ vs, v = .tuple vs ∧ ReadsAll env s (p :: q :: qs) pos ctx vs pos' ctx') := by
  obtain ⟨t, h1, h2⟩ := isTuple (env := env) (q := q) (qs := qs) cls (by simp at h8; omega)
  exact ⟨t, h1, h2.cls, h2.reads⟩

/-- C73: `apply(fn)` calls `fn` with these values as arguments. -/
theorem C73_apply (env : Env τ ρ Γ) (p q : PyParser τ ρ Γ A) (qs : List (PyParser τ ρ Γ A))
    (cls : p.cls = .single) (h8 : (p :: q :: qs).length ≤ 8)
    (fn : List (PyVal A) → Except Exn (PyVal A)) :
    ∃ t r, p.thenAll (q :: qs) = .ok t ∧ t.apply fn = .ok r ∧ r.cls = .single ∧
      ∀ s pos ctx v pos' ctx', pos ≤ s.length →
        (Reads env r.p s pos ctx v pos' ctx' ↔
          ∃ vs, fn vs = .ok v ∧ ReadsAll env s (p :: q :: qs) pos ctx vs pos' ctx') := by
  obtain ⟨t, h1, h2⟩ := isTuple (env := env) (q := q) (qs := qs) cls (by simp at h8; omega)
  refine ⟨t, _, h1, by rw [PyParser.apply, h2.cls], rfl, fun s pos ctx v pos' ctx' hp => ?_⟩
  have key : Reads env (.fmap t.p fun t => fn t.star) s pos ctx v pos' ctx' ↔
      ∃ a, Reads env t.p s pos ctx a pos' ctx' ∧ fn a.star = .ok v := reads_fmap
  constructor
  · intro h
    obtain ⟨a, h3, h4⟩ := key.1 h
    obtain ⟨vs, rfl, h5⟩ := (h2.reads _ _ _ _ _ _ hp).1 h3
    exact ⟨vs, h4, h5⟩
  · rintro ⟨vs, h4, h5⟩
    exact key.2 ⟨.tuple vs, (h2.reads _ _ _ _ _ _ hp).2 ⟨vs, rfl, h5⟩, h4⟩

omit [BEq τ] in
/-- C73: there is no tuple of nine: `Tuple8` has no `then`. -/
theorem C73_nine (p q : PyParser τ ρ Γ A) (qs : List (PyParser τ ρ Γ A)) (cls : p.cls = .single)
    (h9 : 8 < (p :: q :: qs).length) : p.thenAll (q :: qs) = .error PyParser.noAttribute := by
  have key : ∀ (qs : List (PyParser τ ρ Γ A)) (n : Nat) (t : PyParser τ ρ Γ A), t.cls = .tuple n → n ≤ 8 →
      8 < n + qs.length → t.thenAll qs = .error PyParser.noAttribute := by
    intro qs
    induction qs with
    | nil => intro n t _ h h'; simp at h'; omega
    | cons q qs ih =>
      intro n t ht h h'
      simp only [List.length_cons] at h'
      rw [PyParser.thenAll, PyParser.then_, ht]
      by_cases h8 : n < 8
      · simp only [h8, if_true]
        exact ih (n + 1) _ rfl (by omega) (by omega)
      · simp only [h8, if_false]; rfl
  rw [PyParser.thenAll, PyParser.then_, cls]
  exact key qs 2 _ rfl (by decide) (by simp at h9; omega)

/-- C73: only tuple parsers have `apply`; and `+` makes no tuple parser, so that `(p + q).then(r)` is a pair, the
first component of which is a pair. -/
theorem C73_add (env : Env τ ρ Γ) (p q r : PyParser τ ρ Γ A) :
    (∀ fn, (p.add q).apply fn = .error PyParser.noAttribute) ∧
    ∃ t, (p.add q).then_ r = .ok t ∧ t.cls = .tuple 2 ∧
      ∀ s pos ctx v pos' ctx', pos ≤ s.length →
        (Reads env t.p s pos ctx v pos' ctx' ↔
          ∃ a b c, v = .tuple [.tuple [a, b], c] ∧ ReadsAll env s [p, q, r] pos ctx [a, b, c] pos' ctx') := by
  refine ⟨fun _ => rfl, ?_⟩
  obtain ⟨t, h1, h2⟩ := IsTuple.two (env := env) (p := p.add q) (q := r) rfl
  refine ⟨t, h1, h2.cls, fun s pos ctx v pos' ctx' hp => ?_⟩
  rw [h2.reads _ _ _ _ _ _ hp]
  constructor
  · rintro ⟨vs, rfl, h⟩
    cases h with
    | cons h3 h => cases h with
      | cons h4 h => cases h with
        | nil =>
          obtain ⟨a, b, pos₁, ctx₁, h5, h6, rfl⟩ := (C15_success_iff hp).1 h3
          exact ⟨a, b, _, rfl, .cons h5 (.cons h6 (.cons h4 .nil))⟩
  · rintro ⟨a, b, c, rfl, h⟩
    cases h with
    | cons h3 h => cases h with
      | cons h4 h => cases h with
        | cons h5 h => cases h with
          | nil => exact ⟨_, rfl, .cons ((C15_success_iff hp).2 ⟨_, _, _, _, h3, h4, rfl⟩) (.cons h5 .nil)⟩

/-- C73, in both modes: every value that the result of parsing with `p.then(q1)....then(qn)` holds, also that
of every candidate repair, is a flat tuple with as many components as there are parsers, each of which can be
derived by its parser from its part of the (edited) input. So `apply` never passes a wrong number of arguments. -/
theorem C73_values (p q : PyParser τ ρ Γ A) (qs : List (PyParser τ ρ Γ A))
    (cls : p.cls = .single) {t : PyParser τ ρ Γ A} (ht : p.thenAll (q :: qs) = .ok t)
    {opts : Opts τ} {r : Result τ (PyVal A)} (h : Returns env t.p s opts r) :
    ∀ v ∈ r.values, ∃ vs, v = .tuple vs ∧ vs.length = (p :: q :: qs).length ∧
      ∃ es j, DerAll env s anyCol 0 (p :: q :: qs) 0 es vs j := by
  have h8 : qs.length ≤ 6 := by
    by_cases h8 : qs.length ≤ 6
    · exact h8
    · rw [C73_nine p q qs cls (by simp; omega)] at ht; cases ht
  obtain ⟨t', h1, h2⟩ := isTuple (env := env) (q := q) (qs := qs) cls h8
  rw [h1] at ht
  cases ht
  intro v hv
  suffices hs : ∃ es j, Der env s anyCol t.p 0 0 es v j by
    obtain ⟨es, j, hd⟩ := hs
    obtain ⟨vs, rfl, h3⟩ := h2.der _ _ _ _ _ _ _ hd
    exact ⟨vs, rfl, h3.length, es, j, h3⟩
  obtain ⟨rc, k, gl⟩ := opts
  cases rc with
  | false =>
    rcases sound_plain (anyDisc gl s) (anyDisc_ctx gl) (.inl trivial) h with ⟨o, rfl, ho⟩ | ⟨e, rfl, -⟩
    · cases List.mem_singleton.1 hv; exact ⟨_, _, ho.der⟩
    · cases hv
  | true =>
    have hr := sound_recovering (anyDisc gl s) (anyDisc_ctx gl) (.inl trivial) h
    cases r with
    | ok o => cases List.mem_singleton.1 hv; exact ⟨_, _, OkSound.der hr⟩
    | error e => cases hv
    | recovered rr =>
      obtain ⟨x, hx, rfl⟩ := List.mem_map.1 hv
      obtain ⟨es, hes⟩ := RecSound.reps hr x hx
      exact ⟨_, _, hes.der⟩

end

/-! ### Samples -/

namespace Samples

/-- `sym(c)`, with its value as a Python value. -/
def pySym (c : Char) : PyParser Char Empty (fun _ => Unit) Char :=
  ⟨.single, .map (.sym c s!"'{c}'") PyVal.atom⟩

/-- `a.then(b).then(c)` and `a.then(b).then(c).apply(lambda a, b, c: (c, b, a))`, `tests/test_tuples.py`. -/
def abc : PyParser Char Empty (fun _ => Unit) Char :=
  match (pySym 'a').thenAll [pySym 'b', pySym 'c'] with
  | .ok t => t
  | .error _ => pySym 'a'

def cba : PyParser Char Empty (fun _ => Unit) Char :=
  match abc.apply fun vs => .ok (.tuple vs.reverse) with
  | .ok t => t
  | .error _ => pySym 'a'

example : (match parse noEnv 5 abc.p "abc".toList false 5 defaultGetLoc with
    | .ret r => r.values
    | _ => []) = [.tuple [.atom 'a', .atom 'b', .atom 'c']] := rfl

example : (match parse noEnv 5 cba.p "abc".toList false 5 defaultGetLoc with
    | .ret r => r.values
    | _ => []) = [.tuple [.atom 'c', .atom 'b', .atom 'a']] := rfl

/-- with recovery: `b` is inserted -/
example : (match parse noEnv 5 abc.p "ac".toList true 5 defaultGetLoc with
    | .ret r => r.values
    | _ => []) = [.tuple [.atom 'a', .atom 'b', .atom 'c']] := rfl

end Samples

end Reparsec
