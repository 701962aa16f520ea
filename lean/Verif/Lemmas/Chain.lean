import Verif.Spec.Grammar
import Verif.Model.Parser

/-!
# Grammars piece by piece

Inversion of `Lang`, and `chainl1` as a left recursion, both for words (`Lang`) and for positions (`Der`).
-/

namespace Reparsec

variable {τ ρ : Type} {Γ : ρ → Type} {α β γ : Type} [BEq τ]

/-- What a word of each kind of grammar consists of. -/
def LangInv (env : Env τ ρ Γ) : {α : Type} → P τ ρ Γ α → List τ → α → Prop
  | _, .pure x, w, v => w = [] ∧ v = x
  | _, .literal x _ _, w, v => (x == w) = true ∧ v = x
  | _, .sym x _, w, v => w = [v] ∧ (v == x) = true
  | _, .satisfy test, w, v => w = [v] ∧ test v = .ok true
  | _, .regexp mt, w, v => ∃ s i j, i ≤ j ∧ j ≤ s.length ∧ mt.run s i = some (j, .ok (some v)) ∧
      w = slice s i j
  | _, .fmap p fn, w, b => ∃ a, Lang env p w a ∧ fn a = .ok b
  | _, .alt p q, w, v => Lang env p w v ∨ Lang env q w v
  | _, .seqWith p q m, w, v => ∃ u u' a b, w = u ++ u' ∧ v = m a b ∧ Lang env p u a ∧ Lang env q u' b
  | _, .bind p k, w, v => ∃ u u' a, w = u ++ u' ∧ Lang env p u a ∧ Lang env (k a) u' v
  | _, .maybe p, w, v => (w = [] ∧ v = none) ∨ ∃ x, v = some x ∧ Lang env p w x
  | _, .many p, w, vs => (w = [] ∧ vs = []) ∨
      ∃ u u' x xs, w = u ++ u' ∧ vs = x :: xs ∧ Lang env p u x ∧ Lang env (.many p) u' xs
  | _, .attempt p, w, v => Lang env p w v
  | _, .label p _, w, v => Lang env p w v
  | _, .recover p, w, v => Lang env p w v
  | _, .recoverWith p _ _, w, v => Lang env p w v
  | _, .recoverWithFn p _ _, w, v => Lang env p w v
  | _, .block p, w, v => Lang env p w v
  | _, .aligned p, w, v => Lang env p w v
  | _, .indented _ p, w, v => Lang env p w v
  | _, .ref x, w, v => ∃ q, env x = some q ∧ Lang env q w v
  | _, .unexpected _, _, _ => False
  | _, .eof, w, _ => w = []
  | _, .pureFn x, w, v => w = [] ∧ x = .ok v

theorem Lang.inv {env : Env τ ρ Γ} {p : P τ ρ Γ α} {w : List τ} {v : α} (h : Lang env p w v) :
    LangInv env p w v := by
  cases h with
  | pure => exact ⟨rfl, rfl⟩
  | pureFn h => exact ⟨rfl, h⟩
  | eof => exact rfl
  | satisfy h => exact ⟨rfl, h⟩
  | sym h => exact ⟨rfl, h⟩
  | literal h => exact ⟨h, rfl⟩
  | regexp h1 h2 h3 => exact ⟨_, _, _, h1, h2, h3, rfl⟩
  | fmap h1 h2 => exact ⟨_, h1, h2⟩
  | altL h => exact .inl h
  | altR h => exact .inr h
  | bind h1 h2 => exact ⟨_, _, _, rfl, h1, h2⟩
  | seqWith h1 h2 => exact ⟨_, _, _, _, rfl, rfl, h1, h2⟩
  | maybeNone => exact .inl ⟨rfl, rfl⟩
  | maybeSome h => exact .inr ⟨_, rfl, h⟩
  | manyNil => exact .inl ⟨rfl, rfl⟩
  | manyCons h1 h2 => exact .inr ⟨_, _, _, _, rfl, rfl, h1, h2⟩
  | attempt h => exact h
  | label h => exact h
  | recover h => exact h
  | recoverWith h => exact h
  | recoverWithFn h => exact h
  | block h => exact h
  | aligned h => exact h
  | indented h => exact h
  | ref h1 h2 => exact ⟨_, h1, h2⟩

theorem lang_seql {env : Env τ ρ Γ} {p : P τ ρ Γ α} {q : P τ ρ Γ β} {w : List τ} {v : α} :
    Lang env (.seql p q) w v ↔ ∃ u u' b, w = u ++ u' ∧ Lang env p u v ∧ Lang env q u' b := by
  constructor
  · intro h
    obtain ⟨u, u', a, b, rfl, rfl, h1, h2⟩ := h.inv
    exact ⟨u, u', b, rfl, h1, h2⟩
  · rintro ⟨u, u', b, rfl, h1, h2⟩
    exact .seqWith (merge := fun a _ => a) h1 h2

theorem lang_seqr {env : Env τ ρ Γ} {p : P τ ρ Γ α} {q : P τ ρ Γ β} {w : List τ} {v : β} :
    Lang env (.seqr p q) w v ↔ ∃ u u' a, w = u ++ u' ∧ Lang env p u a ∧ Lang env q u' v := by
  constructor
  · intro h
    obtain ⟨u, u', a, b, rfl, rfl, h1, h2⟩ := h.inv
    exact ⟨u, u', a, rfl, h1, h2⟩
  · rintro ⟨u, u', a, rfl, h1, h2⟩
    exact .seqWith (merge := fun _ b => b) h1 h2

theorem lang_many_ind {env : Env τ ρ Γ} {p : P τ ρ Γ α} {M : List τ → List α → Prop}
    (nil : M [] [])
    (cons : ∀ u x u' xs, Lang env p u x → Lang env (.many p) u' xs → M u' xs → M (u ++ u') (x :: xs))
    {w : List τ} {vs : List α} (h : Lang env (.many p) w vs) : M w vs := by
  induction vs generalizing w with
  | nil =>
    rcases h.inv with ⟨rfl, -⟩ | ⟨u, u', x, xs, rfl, hx, h1, h2⟩
    · exact nil
    · cases hx
  | cons y ys ih =>
    rcases h.inv with ⟨rfl, hx⟩ | ⟨u, u', x, xs, rfl, hx, h1, h2⟩
    · cases hx
    · cases hx
      exact cons _ _ _ _ h1 h2 (ih h2)

/-- A word of `chainl1(arg, op)` is an argument, or a word of the chain, an operator and an argument. -/
theorem lang_chainl1 {env : Env τ ρ Γ} {arg : P τ ρ Γ α} {op : P τ ρ Γ (α → α → Except Exn α)}
    {R : List τ → α → Prop} (first : ∀ w a, Lang env arg w a → R w a)
    (step : ∀ w a wo f w' b c, R w a → Lang env op wo f → Lang env arg w' b → f a b = .ok c →
      R (w ++ (wo ++ w')) c) {w : List τ} {v : α} (h : Lang env (.chainl1 arg op) w v) : R w v := by
  obtain ⟨⟨a, items⟩, h1, h2⟩ := h.inv
  obtain ⟨u, u', a', items', rfl, he, h1, h3⟩ := h1.inv
  simp only [Prod.mk.injEq] at he
  obtain ⟨rfl, rfl⟩ := he
  have key : ∀ u a v, R u a → P.chainlReduce a items = .ok v → R (u ++ u') v := by
    refine lang_many_ind (M := fun w' items => ∀ u a v, R u a →
      P.chainlReduce a items = .ok v → R (u ++ w') v) ?_ ?_ h3
    · intro u a v hr hv
      simp only [P.chainlReduce, Except.ok.injEq] at hv
      subst hv
      simpa using hr
    · rintro uo ⟨f, b⟩ u' xs hi - ih u a v hr hv
      obtain ⟨wo, w', f', b', rfl, he, ho, hb⟩ := hi.inv
      simp only [Prod.mk.injEq] at he
      obtain ⟨rfl, rfl⟩ := he
      simp only [P.chainlReduce] at hv
      split at hv
      · cases hv
      · next c hc =>
        have := ih _ _ _ (step _ _ _ _ _ _ _ hr ho hb hc) hv
        simpa using this
  exact key _ _ _ (first _ _ h1) h2

/-! ### Positions -/

section
variable {env : Env τ ρ Γ} {s : List τ} {col : Nat → Nat → Prop}

/-- What a derivation, possibly with edits, is for some kinds of parsers. -/
def DerInv (env : Env τ ρ Γ) (s : List τ) (col : Nat → Nat → Prop) (m i : Nat) (es : List Step)
    (j : Nat) : {α : Type} → P τ ρ Γ α → α → Prop
  | _, .regexp mt, v => ∃ k, i ≤ k ∧ (es = [] → k = i) ∧ mt.run s k = some (j, .ok (some v))
  | _, .satisfy test, v => v ∈ s ∧ test v = .ok true ∧ (es = [] → j = i + 1)
  | _, .sym _ _, _ => es = [] → j = i + 1
  | _, .fmap p fn, b => ∃ a, Der env s col p m i es a j ∧ fn a = .ok b
  | _, .alt p q, v => Der env s col p m i es v j ∨ Der env s col q m i es v j
  | _, .seqWith p q mg, v => ∃ es1 es2 a b l, es = es1 ++ es2 ∧ v = mg a b ∧
      Der env s col p m i es1 a l ∧ Der env s col q m l es2 b j
  | _, .many p, vs => (es = [] ∧ vs = [] ∧ j = i) ∨ ∃ es1 es2 v vs' l, es = es1 ++ es2 ∧ vs = v :: vs' ∧
      Der env s col p m i es1 v l ∧ Der env s col (.many p) m l es2 vs' j
  | _, .maybe p, v => (es = [] ∧ v = none ∧ j = i) ∨ ∃ x, v = some x ∧ Der env s col p m i es x j
  | _, .label p _, v => Der env s col p m i es v j
  | _, .attempt p, v => Der env s col p m i es v j
  | _, .ref x, v => ∃ q, env x = some q ∧ Der env s col q m i es v j
  | _, .eof, _ => es = [] → i = s.length ∧ j = s.length
  | _, .aligned p, v => col i m ∧ Der env s col p m i es v j
  | _, .indented d p, v => ∃ c : Nat, col i c ∧ (m : Int) + d = c ∧ Der env s col p c i es v j
  | _, .literal x _ _, v => es = [] → v = x ∧ x.isPrefixOf (s.drop i) = true ∧ j = i + x.length
  | _, .recover p, v => ∃ es', es = es'.map Step.asked ∧ Der env s col p m i es' v j
  | _, .recoverWith p _ _, v => es = [] → Der env s col p m i [] v j
  | _, _, _ => True

theorem Der.inv {p : P τ ρ Γ α} {m i : Nat} {es : List Step} {v : α} {j : Nat}
    (h : Der env s col p m i es v j) : DerInv env s col m i es j p v := by
  cases h with
  | satisfy h1 h2 => exact ⟨List.mem_of_getElem? h1, h2, fun _ => rfl⟩
  | satisfySkip _ h1 h2 => exact ⟨List.mem_of_getElem? h1, h2, fun h => (by cases h)⟩
  | sym => exact fun _ => rfl
  | symSkip => exact fun h => (by cases h)
  | symInsert => exact fun h => (by cases h)
  | regexp h => exact ⟨i, Nat.le_refl _, fun _ => rfl, h⟩
  | regexpSkip h1 _ h => exact ⟨_, Nat.le_of_lt h1, fun h => (by cases h), h⟩
  | fmap h1 h2 => exact ⟨_, h1, h2⟩
  | altL h => exact .inl h
  | altR h => exact .inr h
  | seqWith h1 h2 => exact ⟨_, _, _, _, _, rfl, rfl, h1, h2⟩
  | manyNil => exact .inl ⟨rfl, rfl, rfl⟩
  | manyCons h1 h2 => exact .inr ⟨_, _, _, _, _, rfl, rfl, h1, h2⟩
  | maybeNone => exact .inl ⟨rfl, rfl, rfl⟩
  | maybeSome h => exact .inr ⟨_, rfl, h⟩
  | label h => exact h
  | attempt h => exact h
  | ref h1 h2 => exact ⟨_, h1, h2⟩
  | eof => exact fun _ => ⟨rfl, rfl⟩
  | eofSkip => exact fun h => (by cases h)
  | aligned h1 h2 => exact ⟨h1, h2⟩
  | indented h1 h2 h3 => exact ⟨_, h1, h2, h3⟩
  | literal h => exact fun _ => ⟨rfl, h, rfl⟩
  | literalSkip => exact fun h => (by cases h)
  | literalInsert => exact fun h => (by cases h)
  | recover h => exact ⟨_, rfl, h⟩
  | recoverWith h => exact fun he => he ▸ h
  | recoverWithInsert => exact fun h => (by cases h)
  | _ => trivial

/-- `chainl1(arg, op)` read from `i` to `j`, without edits. -/
def ChainDer (env : Env τ ρ Γ) (s : List τ) (col : Nat → Nat → Prop) (arg : P τ ρ Γ α)
    (op : P τ ρ Γ (α → α → Except Exn α)) (m i : Nat) (v : α) (j : Nat) : Prop :=
  ∃ a l items, Der env s col arg m i [] a l ∧ Der env s col (.many (.seq op arg)) m l [] items j ∧
    P.chainlReduce a items = .ok v

theorem der_many_snoc {p : P τ ρ Γ α} {m : Nat} {vs : List α} : ∀ {i l j : Nat} {v : α},
    Der env s col (.many p) m i [] vs l → Der env s col p m l [] v j →
    Der env s col (.many p) m i [] (vs ++ [v]) j := by
  induction vs with
  | nil =>
    intro i l j v h1 h2
    rcases h1.inv with ⟨-, -, rfl⟩ | ⟨_, _, _, _, _, -, h, -⟩
    · exact .manyCons (es := []) (es' := []) h2 .manyNil
    · cases h
  | cons x xs ih =>
    intro i l j v h1 h2
    rcases h1.inv with ⟨-, h, -⟩ | ⟨es1, es2, y, ys, n, he, h, h3, h4⟩
    · cases h
    · cases h
      obtain ⟨rfl, rfl⟩ := List.append_eq_nil_iff.1 he.symm
      exact .manyCons (es := []) (es' := []) h3 (ih h4 h2)

omit [BEq τ] in
theorem chainlReduce_snoc {f : α → α → Except Exn α} {b : α} :
    ∀ {items : List ((α → α → Except Exn α) × α)} {a v c : α},
    P.chainlReduce a items = .ok v → f v b = .ok c → P.chainlReduce a (items ++ [(f, b)]) = .ok c := by
  intro items
  induction items with
  | nil =>
    intro a v c h1 h2
    simp only [P.chainlReduce, Except.ok.injEq] at h1
    subst h1
    simp [P.chainlReduce, h2]
  | cons x items ih =>
    intro a v c h1 h2
    obtain ⟨g, y⟩ := x
    simp only [P.chainlReduce, List.cons_append] at h1 ⊢
    split at h1
    · cases h1
    · exact ih h1 h2

theorem ChainDer.first {arg : P τ ρ Γ α} {op : P τ ρ Γ (α → α → Except Exn α)} {m i j : Nat} {v : α}
    (h : Der env s col arg m i [] v j) : ChainDer env s col arg op m i v j :=
  ⟨v, j, [], h, .manyNil, rfl⟩

theorem ChainDer.step {arg : P τ ρ Γ α} {op : P τ ρ Γ (α → α → Except Exn α)} {m i j l n : Nat}
    {v b c : α} {f : α → α → Except Exn α} (h : ChainDer env s col arg op m i v j)
    (ho : Der env s col op m j [] f l) (hb : Der env s col arg m l [] b n) (hf : f v b = .ok c) :
    ChainDer env s col arg op m i c n := by
  obtain ⟨a, l', items, h1, h2, h3⟩ := h
  exact ⟨a, l', items ++ [(f, b)], h1,
    der_many_snoc h2 (.seqWith (es := []) (es' := []) (merge := Prod.mk) ho hb),
    chainlReduce_snoc h3 hf⟩

theorem ChainDer.der {arg : P τ ρ Γ α} {op : P τ ρ Γ (α → α → Except Exn α)} {m i j : Nat} {v : α}
    (h : ChainDer env s col arg op m i v j) : Der env s col (.chainl1 arg op) m i [] v j := by
  obtain ⟨a, l, items, h1, h2, h3⟩ := h
  exact .fmap (.seqWith (es := []) (es' := []) (merge := Prod.mk) h1 h2) h3

end

end Reparsec
