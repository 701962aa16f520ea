import Verif.Lemmas.Stack
import Verif.Props.Termination

/-!
# With a limited stack every run ends

The `Delay` objects are replaced by their definitions, as often as there are frames: what is left is a
parser without `Delay` objects, which ends (C22).
-/

namespace Reparsec

variable {τ ρ : Type} {Γ : ρ → Type} {α : Type}

/-- The parser with other parsers in place of the `Delay` objects. -/
def P.inline (f : (i : ρ) → P τ ρ Γ (Γ i)) : {α : Type} → P τ ρ Γ α → P τ ρ Γ α
  | _, .pure x => .pure x
  | _, .pureFn x => .pureFn x
  | _, .unexpected x => .unexpected x
  | _, .eof => .eof
  | _, .satisfy test => .satisfy test
  | _, .sym s l => .sym s l
  | _, .literal s ss h => .literal s ss h
  | _, .regexp m => .regexp m
  | _, .fmap p fn => .fmap (p.inline f) fn
  | _, .alt p q => .alt (p.inline f) (q.inline f)
  | _, .bind p fn => .bind (p.inline f) fun a => (fn a).inline f
  | _, .seqWith p q merge => .seqWith (p.inline f) (q.inline f) merge
  | _, .maybe p => .maybe (p.inline f)
  | _, .many p => .many (p.inline f)
  | _, .attempt p => .attempt (p.inline f)
  | _, .label p x => .label (p.inline f) x
  | _, .recover p => .recover (p.inline f)
  | _, .recoverWith p x vs => .recoverWith (p.inline f) x vs
  | _, .recoverWithFn p fn lbl => .recoverWithFn (p.inline f) fn lbl
  | _, .block p => .block (p.inline f)
  | _, .aligned p => .aligned (p.inline f)
  | _, .indented delta p => .indented delta (p.inline f)
  | _, .ref i => f i

theorem denoteWith_inline [BEq τ] (n : Nat) (t : (i : ρ) → ParseFns τ (Γ i))
    (f : (i : ρ) → P τ ρ Γ (Γ i)) (p : P τ ρ Γ α) :
    denoteWith n t (p.inline f) = denoteWith n (fun i => denoteWith n t (f i)) p := by
  induction p with
  | pure | pureFn | unexpected | eof | satisfy | sym | literal | regexp | ref => rfl
  | fmap p fn ih => simp only [P.inline, denoteWith, ih]
  | alt p q ihp ihq => simp only [P.inline, denoteWith, ihp, ihq]
  | bind p k ihp ihk => simp only [P.inline, denoteWith, ihp, ihk]
  | seqWith p q merge ihp ihq => simp only [P.inline, denoteWith, ihp, ihq]
  | maybe p ih | many p ih | attempt p ih | label p x ih | recover p ih | recoverWith p x vs ih
  | recoverWithFn p fn lbl ih | block p ih | aligned p ih | indented delta p ih =>
    simp only [P.inline, denoteWith, ih]

theorem inline_notRef {f : (i : ρ) → P τ ρ Γ (Γ i)} (hf : ∀ i, (f i).All P.notRef)
    (p : P τ ρ Γ α) : (p.inline f).All P.notRef := by
  induction p with
  | pure | pureFn | unexpected | eof | satisfy | sym | literal | regexp => trivial
  | ref i => exact hf i
  | fmap p fn ih => exact ⟨trivial, ih⟩
  | alt p q ihp ihq => exact ⟨trivial, ihp, ihq⟩
  | bind p k ihp ihk => exact ⟨trivial, ihp, ihk⟩
  | seqWith p q merge ihp ihq => exact ⟨trivial, ihp, ihq⟩
  | maybe p ih | many p ih | attempt p ih | label p x ih | recover p ih | recoverWith p x vs ih
  | recoverWithFn p fn lbl ih | block p ih | aligned p ih | indented delta p ih =>
    exact ⟨trivial, ih⟩

/-- The definition of a `Delay` object, unrolled `d` times. -/
def unrolled (env : Env τ ρ Γ) : Nat → (i : ρ) → P τ ρ Γ (Γ i)
  | 0, _ => .pureFn (.error Stk.recursionError)
  | d + 1, i =>
    match env i with
    | none => .pureFn (.error undefinedExn)
    | some p => p.inline (unrolled env d)

theorem unrolled_notRef (env : Env τ ρ Γ) (d : Nat) (i : ρ) : (unrolled env d i).All P.notRef := by
  induction d generalizing i with
  | zero => trivial
  | succ d ih =>
    simp only [unrolled]
    cases env i with
    | none => trivial
    | some p => exact inline_notRef ih p

namespace Stk

/-- The first run may be out of stack, the second out of fuel. -/
def unrollSlack (d : Nat) : Slack := ⟨false, true, true, some d⟩

theorem Fits.bound {d : Nat} {x y : Frames} (h : Fits (unrollSlack d) x y) :
    ∃ e, x = some e ∧ e ≤ d := h.2 d rfl

theorem table_unrolled [BEq τ] (env : Env τ ρ Γ) (t : (i : ρ) → ParseFns τ (Γ i)) (n d : Nat)
    (i : ρ) : RelL (unrollSlack d) (table env (n + d) i)
      (fun _ => Reparsec.denoteWith n t (unrolled env d i)) := by
  induction d generalizing i with
  | zero =>
    intro x y hd
    obtain ⟨e, rfl, he⟩ := hd.bound
    obtain rfl : e = 0 := by omega
    have : ∀ f : LFns τ (Γ i), RelFns (unrollSlack 0) (framed f (some 0))
        (Reparsec.denoteWith n t (unrolled env 0 i)) :=
      fun f => ⟨fun _ _ _ => .inr (.inl ⟨rfl, rfl⟩), fun _ _ _ _ _ => .inr (.inl ⟨rfl, rfl⟩)⟩
    cases n with
    | zero => exact this _
    | succ n =>
      simp only [table]
      cases env i with
      | none => exact this _
      | some p => exact this _
  | succ d ih =>
    intro x y hd
    obtain ⟨e, rfl, he⟩ := hd.bound
    cases e with
    | zero =>
      have : ∀ f : LFns τ (Γ i), RelFns (unrollSlack (d + 1)) (framed f (some 0))
          (Reparsec.denoteWith n t (unrolled env (d + 1) i)) :=
        fun f => ⟨fun _ _ _ => .inr (.inl ⟨rfl, rfl⟩), fun _ _ _ _ _ => .inr (.inl ⟨rfl, rfl⟩)⟩
      rw [show n + (d + 1) = (n + d) + 1 from rfl]
      simp only [table]
      cases env i with
      | none => exact this _
      | some p => exact this _
    | succ e =>
      rw [show n + (d + 1) = (n + d) + 1 from rfl]
      simp only [table, unrolled]
      cases env i with
      | none =>
        cases e with
        | zero => exact ⟨fun _ _ _ => .inr (.inl ⟨rfl, rfl⟩), fun _ _ _ _ _ => .inr (.inl ⟨rfl, rfl⟩)⟩
        | succ e => exact ⟨fun _ _ _ => .refl _, fun _ _ _ _ _ => .refl _⟩
      | some p =>
        simp only
        have h := denoteWith_rel (k := unrollSlack d) (n := n + d) (n' := n)
          (.inr (.inr ⟨rfl, by omega⟩)) ih p (some e) none
          ⟨.inr ⟨rfl, .inl rfl⟩, fun m hm => ⟨e, rfl, by cases hm; omega⟩⟩
        rw [denoteWith_none, ← denoteWith_inline] at h
        exact ⟨fun _ _ _ => h.1 _ _ _, fun _ _ _ _ _ => h.2 _ _ _ _ _⟩

theorem parse_ends [BEq τ] (env : Env τ ρ Γ) (d : Nat) (p : P τ ρ Γ α) (s : List τ) (o : Opts τ) :
    ∃ n, parse env n (some d) p s o.recover o.maxInsertions o.getLoc ≠ .diverge := by
  have hall := inline_notRef (unrolled_notRef env d) p
  have hh := C22_terminates env (p.inline (unrolled env d)) hall s o
  obtain ⟨n, hn⟩ : ∃ n, Reparsec.parse env n (p.inline (unrolled env d)) s o.recover
      o.maxInsertions o.getLoc ≠ .diverge := by
    rcases hh with ⟨r, n, hr⟩ | ⟨e, n, hr⟩
    · exact ⟨n, by rw [hr]; simp⟩
    · exact ⟨n, by rw [hr]; simp⟩
  refine ⟨n + d, fun hd => hn ?_⟩
  have h : RelL (unrollSlack d) (denote env (n + d) p)
      (fun _ => Reparsec.denote env n (p.inline (unrolled env d))) := by
    intro x y hd
    have h := denoteWith_rel (k := unrollSlack d) (n := n + d) (n' := n)
      (.inr (.inr ⟨rfl, by omega⟩)) (table_unrolled env (Reparsec.table env n) n d) p x none
      ⟨.inr ⟨rfl, .inl rfl⟩, hd.2⟩
    rw [denoteWith_none, ← denoteWith_inline] at h
    exact h
  have hr : Rel (unrollSlack d) (parse env (n + d) (some d) p s o.recover o.maxInsertions o.getLoc)
      (Reparsec.parse env n (p.inline (unrolled env d)) s o.recover o.maxInsertions o.getLoc) := by
    have : Reparsec.parse env n (p.inline (unrolled env d)) s o.recover o.maxInsertions o.getLoc =
      call (fun d' =>
        if o.recover then
          (framed (fun _ => Reparsec.denote env n (p.inline (unrolled env d))) d').fn s 0
            (initCtx o.getLoc) o.maxInsertions (some o.maxInsertions)
        else do
          let r ← (framed (fun _ => Reparsec.denote env n (p.inline (unrolled env d))) d').fast s 0
            (initCtx o.getLoc)
          return r.toResult) none := rfl
    rw [this]
    refine Rel.call (fun x y hd => ?_)
      ⟨.inr ⟨rfl, .inl rfl⟩, fun m hm => ⟨d, rfl, by cases hm; omega⟩⟩
    have h := h.framed x y hd
    cases o.recover with
    | true => exact h.2 _ _ _ _ _
    | false => exact (h.1 _ _ _).bind fun _ => .refl _
  rw [hd] at hr
  rcases hr with ⟨h, _⟩ | ⟨_, h⟩ | ⟨_, h⟩ | h
  · cases h
  · cases h
  · exact h
  · exact h.symm

end Stk

end Reparsec
