import Verif.Lemmas.RaceAll
import Verif.Lemmas.RaceLe
import Verif.Lemmas.FirstErrorAll

/-!
# Running a parser while `Delay` objects change: exactness
-/

namespace Reparsec.Race

open Eff (Lo LoFns Does DoesFns Steady plainFn)

variable {τ ρ : Type} {Γ : ρ → Type} {α β γ : Type} {ι : Type}

section
variable [BEq τ]

theorem lo_denote {seen : Nat → Delays τ ρ Γ} {D : Env τ ρ Γ}
    (hs : ∀ n i, (seen n).fns i = undefinedP ∨ Made true D i ((seen n).fns i)) (n : Nat)
    {e c : P τ ρ Γ α} (h : Exp true D e c) :
    LoFns (Eff.denoteWith n (table seen n) (embed c)) (Reparsec.denote D n e) := by
  induction n using Nat.strongRecOn generalizing α with
  | ind n ihn =>
  induction h with
  | late i =>
    cases n with
    | zero => exact ⟨fun _ _ _ => .diverge, fun _ _ _ _ _ => .diverge⟩
    | succ n =>
      have key : ∀ k, LoFns (Eff.denoteWith n (table seen n) (embed ((seen k).fns i)))
          (Reparsec.denote D (n + 1) (.ref i)) := by
        intro k
        rcases hs k i with h | ⟨e, he, hx⟩
        · rw [h]
          exact ⟨fun _ _ _ _ => .inl rfl, fun _ _ _ _ _ _ => .inl rfl⟩
        · show LoFns _ (Reparsec.table D (n + 1) i)
          simp only [Reparsec.table, he]
          exact ihn n (by omega) hx
      exact ⟨fun s pos ctx w => (key w.state).fast s pos ctx (tick w),
        fun s pos ctx ins rem w => (key w.state).fn s pos ctx ins rem (tick w)⟩
  | undef i h => exact ⟨fun _ _ _ _ => .inl rfl, fun _ _ _ _ _ _ => .inl rfl⟩
  | @early i e c h h' ih =>
    cases n with
    | zero => exact ⟨fun _ _ _ => .diverge, fun _ _ _ _ _ => .diverge⟩
    | succ n =>
      have h2 := Reparsec.denote_le D (Nat.le_succ n) e
      show LoFns _ (Reparsec.table D (n + 1) i)
      simp only [Reparsec.table, h]
      exact ⟨fun s pos ctx => (ih.fast s pos ctx).weaken (h2.1 s pos ctx),
        fun s pos ctx ins rem => (ih.fn s pos ctx ins rem).weaken (h2.2 s pos ctx ins rem)⟩
  | pure | unexpected | eof | sym | literal | regexp => exact .of_does (Eff.does_lift _)
  | pureFn x => exact .of_does (Eff.does_pureFn (steady_steady _) 0)
  | satisfy test => exact .of_does (Eff.does_satisfy (steady_steady _) 0)
  | fmap fn _ ih => exact Eff.lo_fmap ih (steady_steady _) 0
  | alt _ _ ihp ihq => exact Eff.lo_alt ihp ihq
  | bind _ _ ihp ihk =>
    refine Eff.lo_bind ihp fun a => ⟨fun s pos ctx => ?_, fun s pos ctx ins rem => ?_⟩
    · exact fun w => (ihk a).fast s pos ctx _
    · exact fun w => (ihk a).fn s pos ctx ins rem _
  | seqWith m _ _ ihp ihq => exact Eff.lo_seq ihp ihq m
  | maybe _ ih => exact Eff.lo_maybe ih
  | many _ ih => exact Eff.lo_many ih n
  | attempt _ ih => exact Eff.lo_attempt ih
  | label x _ ih => exact Eff.lo_label ih x
  | recover _ ih => exact Eff.lo_recover ih
  | recoverWith x vs _ ih => exact Eff.lo_recoverWith ih x vs
  | recoverWithFn fn lbl _ ih => exact Eff.lo_recoverWithFn ih (steady_steady _) 0 lbl
  | block _ ih => exact Eff.lo_block ih
  | aligned _ ih => exact Eff.lo_aligned ih
  | indented d _ ih => exact Eff.lo_indented ih d

theorem lo_parse {seen : Nat → Delays τ ρ Γ} {D : Env τ ρ Γ}
    (hs : ∀ n i, (seen n).fns i = undefinedP ∨ Made true D i ((seen n).fns i)) (n : Nat)
    {e : P τ ρ Γ α} {o : Obj τ ρ Γ α} (h : Exp true D e o.call) (s : List τ) (b : Bool) (k : Int)
    (gl : Loc → List τ → Nat → Loc) :
    parse seen n o s b k gl = .raise undefinedExn ∨
      (Reparsec.parse D n e s b k gl).Le (parse seen n o s b k gl) := by
  unfold parse Reparsec.parse
  have hd := lo_denote hs n h
  cases b with
  | true => simpa [outcome_eq, denote] using hd.fn s 0 (initCtx gl) k (some k) ⟨0, []⟩
  | false =>
    simp only [outcome_eq, Bool.false_eq_true, if_false]
    rcases hd.fast s 0 (initCtx gl) ⟨0, []⟩ with h' | h'
    · exact .inl (by simp only [denote, h']; rfl)
    · exact .inr (Out.Le.bind h' fun _ => .refl _)

/-! ### Fuel -/

theorem table_le (seen : Nat → Delays τ ρ Γ) {n n' : Nat} (hn : n ≤ n') (i : ρ) :
    Eff.FnsLe (table seen n i) (table seen n' i) := by
  induction n generalizing n' i with
  | zero => exact ⟨fun _ _ _ _ => .inl rfl, fun _ _ _ _ _ _ => .inl rfl⟩
  | succ n ih =>
    cases n' with
    | zero => omega
    | succ n' =>
      have key := fun k => Eff.denoteWith_le (show n ≤ n' by omega) (fun i => ih (n' := n') (by omega) i)
        (embed ((seen k).fns i))
      exact ⟨fun s pos ctx w => (key w.state).1 s pos ctx (tick w),
        fun s pos ctx ins rem w => (key w.state).2 s pos ctx ins rem (tick w)⟩

theorem outcome_le {σ : Type} {x y : Run σ α} (h : x.Le y) : (outcome x).Le (outcome y) := by
  rcases h with h | h
  · subst h; exact .inl rfl
  · subst h; exact .inr rfl

theorem parse_le (seen : Nat → Delays τ ρ Γ) {n n' : Nat} (hn : n ≤ n') (o : Obj τ ρ Γ α)
    (s : List τ) (b : Bool) (k : Int) (gl : Loc → List τ → Nat → Loc) :
    (parse seen n o s b k gl).Le (parse seen n' o s b k gl) := by
  have h := Eff.denoteWith_le hn (Race.table_le seen hn) (embed o.call)
  unfold parse
  split
  · exact outcome_le (h.2 _ _ _ _ _ _)
  · exact Out.Le.bind (outcome_le (h.1 _ _ _ _)) fun _ => .refl _

/-! ### `Delay` objects that do not change -/

theorem does_denote {X : ρ → Prop} {seen : Nat → Delays τ ρ Γ} {σ : Store τ ρ Γ}
    (hs : ∀ n i, X i → (seen n).fns i = (σ i).getD undefinedP)
    (hc : ∀ i c, X i → σ i = some c → c.All (refIn X)) (n : Nat) {c : P τ ρ Γ α}
    (h : c.All (refIn X)) :
    DoesFns (Eff.denoteWith n (table seen n) (embed c)) (Reparsec.denote σ n c) := by
  induction n using Nat.strongRecOn generalizing α with
  | ind n ihn =>
  induction c with
  | ref i =>
    cases n with
    | zero => exact ⟨fun _ _ _ => .diverge, fun _ _ _ _ _ => .diverge⟩
    | succ n =>
      have key : ∀ k, DoesFns (Eff.denoteWith n (table seen n) (embed ((seen k).fns i)))
          (Reparsec.denote σ (n + 1) (.ref i)) := by
        intro k
        rw [hs k i h]
        show DoesFns _ (Reparsec.table σ (n + 1) i)
        simp only [Reparsec.table]
        cases hi : σ i with
        | none => exact ⟨fun _ _ _ _ => rfl, fun _ _ _ _ _ _ => rfl⟩
        | some c => exact ihn n (by omega) (hc i c h hi)
      exact ⟨fun s pos ctx w => (key w.state).fast s pos ctx (tick w),
        fun s pos ctx ins rem w => (key w.state).fn s pos ctx ins rem (tick w)⟩
  | pure | unexpected | eof | sym | literal | regexp => exact Eff.does_lift _
  | pureFn x => exact Eff.does_pureFn (steady_steady _) 0
  | satisfy test => exact Eff.does_satisfy (steady_steady _) 0
  | fmap p fn ih => exact Eff.does_fmap (ih h.2) (steady_steady _) 0
  | alt p q ihp ihq => exact Eff.does_alt (ihp h.2.1) (ihq h.2.2)
  | bind p k ihp ihk =>
    refine Eff.does_bind (ihp h.2.1) fun a => ⟨fun s pos ctx => ?_, fun s pos ctx ins rem => ?_⟩
    · exact fun w => (ihk a (h.2.2 a)).fast s pos ctx _
    · exact fun w => (ihk a (h.2.2 a)).fn s pos ctx ins rem _
  | seqWith p q m ihp ihq => exact Eff.does_seq (ihp h.2.1) (ihq h.2.2) m
  | maybe p ih => exact Eff.does_maybe (ih h.2)
  | many p ih => exact Eff.does_many (ih h.2) n
  | attempt p ih => exact Eff.does_attempt (ih h.2)
  | label p x ih => exact Eff.does_label (ih h.2) x
  | recover p ih => exact Eff.does_recover (ih h.2)
  | recoverWith p x vs ih => exact Eff.does_recoverWith (ih h.2) x vs
  | recoverWithFn p fn lbl ih => exact Eff.does_recoverWithFn (ih h.2) (steady_steady _) 0 lbl
  | block p ih => exact Eff.does_block (ih h.2)
  | aligned p ih => exact Eff.does_aligned (ih h.2)
  | indented d p ih => exact Eff.does_indented (ih h.2) d

theorem does_parse {X : ρ → Prop} {seen : Nat → Delays τ ρ Γ} {σ : Store τ ρ Γ}
    (hs : ∀ n i, X i → (seen n).fns i = (σ i).getD undefinedP)
    (hc : ∀ i c, X i → σ i = some c → c.All (refIn X)) (n : Nat) {o : Obj τ ρ Γ α}
    (h : o.call.All (refIn X)) (s : List τ) (b : Bool) (k : Int)
    (gl : Loc → List τ → Nat → Loc) :
    parse seen n o s b k gl = Reparsec.parse σ n o.call s b k gl := by
  have hd := does_denote hs hc n h
  unfold parse Reparsec.parse
  simp only [outcome_eq, denote]
  split
  · exact hd.fn _ _ _ _ _ _
  · rw [hd.fast s 0 (initCtx gl) ⟨0, []⟩]; rfl

end

/-! ### Restricting to some `Delay` objects -/

open Classical in
/-- The definitions of the `Delay` objects in `X`. -/
noncomputable def only (X : ρ → Prop) (D : Env τ ρ Γ) : Env τ ρ Γ := fun i => if X i then D i else none

theorem _root_.Reparsec.Exp.only {X : ρ → Prop} {D : Env τ ρ Γ}
    (hD : ∀ i e, X i → D i = some e → e.All (refIn X)) {e c : P τ ρ Γ α} (h : Exp false D e c)
    (he : e.All (refIn X)) : Exp false (only X D) e c ∧ c.All (refIn X) := by
  induction h with
  | late i => exact ⟨.late i, he⟩
  | undef i h => cases h
  | @early i e c h _ ih =>
    obtain ⟨h1, h2⟩ := ih (hD i _ he h)
    exact ⟨.early (by simp only [Race.only]; rw [if_pos (show X i from he)]; exact h) h1, h2⟩
  | pure x => exact ⟨.pure x, he⟩
  | pureFn x => exact ⟨.pureFn x, he⟩
  | unexpected x => exact ⟨.unexpected x, he⟩
  | eof => exact ⟨.eof, he⟩
  | satisfy test => exact ⟨.satisfy test, he⟩
  | sym s l => exact ⟨.sym s l, he⟩
  | literal s ss h => exact ⟨.literal s ss h, he⟩
  | regexp m => exact ⟨.regexp m, he⟩
  | fmap fn _ ih => exact ⟨.fmap fn (ih he.2).1, trivial, (ih he.2).2⟩
  | alt _ _ ihp ihq => exact ⟨.alt (ihp he.2.1).1 (ihq he.2.2).1, trivial, (ihp he.2.1).2, (ihq he.2.2).2⟩
  | bind _ _ ihp ihk =>
    exact ⟨.bind (ihp he.2.1).1 fun a => (ihk a (he.2.2 a)).1, trivial, (ihp he.2.1).2,
      fun a => (ihk a (he.2.2 a)).2⟩
  | seqWith m _ _ ihp ihq =>
    exact ⟨.seqWith m (ihp he.2.1).1 (ihq he.2.2).1, trivial, (ihp he.2.1).2, (ihq he.2.2).2⟩
  | maybe _ ih => exact ⟨.maybe (ih he.2).1, trivial, (ih he.2).2⟩
  | many _ ih => exact ⟨.many (ih he.2).1, trivial, (ih he.2).2⟩
  | attempt _ ih => exact ⟨.attempt (ih he.2).1, trivial, (ih he.2).2⟩
  | label x _ ih => exact ⟨.label x (ih he.2).1, trivial, (ih he.2).2⟩
  | recover _ ih => exact ⟨.recover (ih he.2).1, trivial, (ih he.2).2⟩
  | recoverWith x vs _ ih => exact ⟨.recoverWith x vs (ih he.2).1, trivial, (ih he.2).2⟩
  | recoverWithFn fn lbl _ ih => exact ⟨.recoverWithFn fn lbl (ih he.2).1, trivial, (ih he.2).2⟩
  | block _ ih => exact ⟨.block (ih he.2).1, trivial, (ih he.2).2⟩
  | aligned _ ih => exact ⟨.aligned (ih he.2).1, trivial, (ih he.2).2⟩
  | indented d _ ih => exact ⟨.indented d (ih he.2).1, trivial, (ih he.2).2⟩

section
variable [BEq τ]

/-- Only the `Delay` objects that can be reached matter. -/
theorem denote_congr {X : ρ → Prop} {D D' : Env τ ρ Γ} (hX : ∀ i, X i → D' i = D i)
    (hD : ∀ i e, X i → D i = some e → e.All (refIn X)) (n : Nat) {e : P τ ρ Γ α}
    (he : e.All (refIn X)) : Reparsec.denote D' n e = Reparsec.denote D n e := by
  induction n using Nat.strongRecOn generalizing α with
  | ind n ihn =>
  induction e with
  | ref i =>
    cases n with
    | zero => rfl
    | succ n =>
      show Reparsec.table D' (n + 1) i = Reparsec.table D (n + 1) i
      simp only [Reparsec.table, hX i he]
      cases hi : D i with
      | none => rfl
      | some e => exact ihn n (by omega) (hD i e he hi)
  | pure | unexpected | eof | sym | literal | regexp | pureFn | satisfy => rfl
  | bind p k ihp ihk =>
    have h1 := ihp he.2.1
    have h2 := funext fun a => ihk a (he.2.2 a)
    simp only [Reparsec.denote] at h1 h2 ⊢
    simp only [Reparsec.denoteWith, h1, h2]
  | alt p q ihp ihq =>
    have h1 := ihp he.2.1
    have h2 := ihq he.2.2
    simp only [Reparsec.denote] at h1 h2 ⊢
    simp only [Reparsec.denoteWith, h1, h2]
  | seqWith p q m ihp ihq =>
    have h1 := ihp he.2.1
    have h2 := ihq he.2.2
    simp only [Reparsec.denote] at h1 h2 ⊢
    simp only [Reparsec.denoteWith, h1, h2]
  | fmap p _ ih | maybe p ih | many p ih | attempt p ih | label p _ ih | recover p ih
  | recoverWith p _ _ ih | recoverWithFn p _ _ ih | block p ih | aligned p ih
  | indented d p ih =>
    have h1 := ih he.2
    simp only [Reparsec.denote] at h1 ⊢
    simp only [Reparsec.denoteWith, h1]

end

end Reparsec.Race
