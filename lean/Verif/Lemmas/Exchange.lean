import Verif.Spec.Exchange
import Verif.Lemmas.Conv
import Verif.Lemmas.Yields

/-!
# Exchanging parts: refinement is a congruence
-/

namespace Reparsec

variable {τ ρ : Type} {Γ : ρ → Type} {α β : Type} [BEq τ]

omit [BEq τ] in
theorem Conv.of_yields {x : Nat → Out α} {o : Out α} (hx : Mono x) (h : o ≠ .diverge → Yields x o) : Conv x o :=
  fun ho => (h ho).eventually hx ho

omit [BEq τ] in
theorem Conv.yields {x : Nat → Out α} {o : Out α} (h : Conv x o) (ho : o ≠ .diverge) : Yields x o := by
  obtain ⟨N, hN⟩ := h ho
  exact .of_eq ho (hN N (Nat.le_refl _))

theorem follows_iff {env env' : Env τ ρ Γ} {p q : P τ ρ Γ α} :
    Follows env env' p q ↔ ∀ n, ConvFns (fun m => denote env' m q) (denote env n p) := by
  constructor
  · refine fun h n => ⟨fun s pos ctx => ?_, fun s pos ctx ins rem => ?_⟩
    · exact .of_yields (mono_fast env' q s pos ctx) fun ho => h.plain _ _ _ _ (.of_eq (n := n) ho rfl) ho
    · exact .of_yields (mono_fn env' q s pos ctx ins rem) fun ho => h.recovering _ _ _ _ _ _ (.of_eq (n := n) ho rfl) ho
  · refine fun h => ⟨fun s pos ctx o ho hd => ?_, fun s pos ctx ins rem o ho hd => ?_⟩
    · obtain ⟨n, hn⟩ := Yields.eventually (mono_fast env p s pos ctx) hd ho
      have := (h n).fast s pos ctx
      rw [hn n (Nat.le_refl _)] at this
      exact this.yields hd
    · obtain ⟨n, hn⟩ := Yields.eventually (mono_fn env p s pos ctx ins rem) hd ho
      have := (h n).fn s pos ctx ins rem
      rw [hn n (Nat.le_refl _)] at this
      exact this.yields hd

theorem Follows.trans {e1 e2 e3 : Env τ ρ Γ} {p q r : P τ ρ Γ α} (h : Follows e1 e2 p q) (h' : Follows e2 e3 q r) :
    Follows e1 e3 p r :=
  ⟨fun _ _ _ _ ho hd => h'.plain _ _ _ _ (h.plain _ _ _ _ ho hd) hd,
   fun _ _ _ _ _ _ ho hd => h'.recovering _ _ _ _ _ _ (h.recovering _ _ _ _ _ _ ho hd) hd⟩

omit [BEq τ] in
theorem exchanged_mono {R S : (α : Type) → P τ ρ Γ α → P τ ρ Γ α → Prop}
    (h : ∀ α p q, R α p q → S α p q) {p q : P τ ρ Γ α} (hp : Exchanged R p q) : Exchanged S p q := by
  induction hp with
  | keep p => exact .keep p
  | part hr => exact .part (h _ _ _ hr)
  | fmap fn _ ih => exact .fmap fn ih
  | alt _ _ ih ih' => exact .alt ih ih'
  | bind _ _ ih ih' => exact .bind ih ih'
  | seqWith m _ _ ih ih' => exact .seqWith m ih ih'
  | maybe _ ih => exact .maybe ih
  | many _ ih => exact .many ih
  | attempt _ ih => exact .attempt ih
  | label x _ ih => exact .label x ih
  | recover _ ih => exact .recover ih
  | recoverWith x v _ ih => exact .recoverWith x v ih
  | recoverWithFn f l _ ih => exact .recoverWithFn f l ih
  | block _ ih => exact .block ih
  | aligned _ ih => exact .aligned ih
  | indented d _ ih => exact .indented d ih

/-- If a run with `n` units of fuel is followed for every part, then for the whole. -/
theorem exchanged_conv {env env' : Env τ ρ Γ} {n : Nat}
    (hk : ∀ (α : Type) (p : P τ ρ Γ α), ConvFns (fun m => denote env' m p) (denote env n p))
    {p q : P τ ρ Γ α}
    (h : Exchanged (fun _ p q => ConvFns (fun m => denote env' m q) (denote env n p)) p q) :
    ConvFns (fun m => denote env' m q) (denote env n p) := by
  induction h with
  | keep p => exact hk _ p
  | part h => exact h
  | fmap fn _ ih => exact ih.fmap fn
  | alt _ _ ih ih' => exact ih.alt ih'
  | bind _ _ ih ih' => exact ih.bind ih'
  | seqWith m _ _ ih ih' => exact ih.seqWith m ih'
  | maybe _ ih => exact ih.maybe
  | many _ ih => exact ih.many n
  | attempt _ ih => exact ih.attempt
  | label x _ ih => exact ih.label x
  | recover _ ih => exact ih.recover
  | recoverWith x v _ ih => exact ih.recoverWith x v
  | recoverWithFn f l _ ih => exact ih.recoverWithFn f l
  | block _ ih => exact ih.block
  | aligned _ ih => exact ih.aligned
  | indented d _ ih => exact ih.indented d

theorem follows_refl (env : Env τ ρ Γ) (p : P τ ρ Γ α) : Follows env env p p :=
  ⟨fun _ _ _ _ h _ => h, fun _ _ _ _ _ _ h _ => h⟩

theorem follows_exchanged {env : Env τ ρ Γ} {p q : P τ ρ Γ α} (h : Exchanged (fun _ p q => Follows env env p q) p q) :
    Follows env env p q := by
  rw [follows_iff]
  intro n
  exact exchanged_conv (fun _ p => follows_iff.1 (follows_refl env p) n)
    (exchanged_mono (fun _ _ _ h => follows_iff.1 h n) h)

/-- A parser is built from `Delay` objects. -/
theorem convWith {env' : Env τ ρ Γ} (n : Nat) (tbl : (i : ρ) → ParseFns τ (Γ i))
    (ht : ∀ i, ConvFns (fun m => denote env' m (.ref i)) (tbl i)) (p : P τ ρ Γ α) :
    ConvFns (fun m => denote env' m p) (denoteWith n tbl p) := by
  induction p with
  | ref i => exact ht i
  | fmap p fn ih => exact ih.fmap fn
  | alt p q ih ih' => exact ih.alt ih'
  | bind p f ih ih' => exact ih.bind ih'
  | seqWith p q m ih ih' => exact ih.seqWith m ih'
  | maybe p ih => exact ih.maybe
  | many p ih => exact ih.many n
  | attempt p ih => exact ih.attempt
  | label p x ih => exact ih.label x
  | recover p ih => exact ih.recover
  | recoverWith p x v ih => exact ih.recoverWith x v
  | recoverWithFn p f l ih => exact ih.recoverWithFn f l
  | block p ih => exact ih.block
  | aligned p ih => exact ih.aligned
  | indented d p ih => exact ih.indented d
  | _ => exact ConvFns.refl _

/-- New definitions follow the old ones, if the old ones are followed by the new ones, run with the new definitions. -/
theorem follows_defs {env env' : Env τ ρ Γ}
    (h : ExchangedDefs (fun _ p q => Follows env' env' p q) env env') (p : P τ ρ Γ α) : Follows env env' p p := by
  rw [follows_iff]
  have key : ∀ n i, ConvFns (fun m => denote env' m (.ref i)) (table env n i) := by
    intro n
    induction n with
    | zero => exact fun i => ⟨fun _ _ _ => .diverge, fun _ _ _ _ _ => .diverge⟩
    | succ n ih =>
      intro i
      refine ConvFns.succ ?_
      rcases h i with ⟨h1, h2⟩ | ⟨q, q', h1, h2, hq⟩
      · simp only [denote, denoteWith, table, h1, h2]
        exact .refl _
      · have e1 : table env (n + 1) i = denote env n q := by simp only [denote, table, h1]
        have e2 : ∀ m, denote env' (m + 1) (.ref i) = denote env' m q' := by
          intro m; simp only [denote, denoteWith, table, h2]
        simp only [e1, e2]
        have hf : Follows env' env' q q' := follows_exchanged hq
        have hc : ConvFns (fun m => denote env' m q) (denote env n q) := convWith n _ ih q
        refine ⟨fun s pos ctx ho => ?_, fun s pos ctx ins rem ho => ?_⟩
        · obtain ⟨N, hN⟩ := hc.fast s pos ctx ho
          have hN : (denote env' N q).fast s pos ctx = _ := hN N (Nat.le_refl _)
          have := (follows_iff.1 hf N).fast s pos ctx
          rw [hN] at this
          exact this ho
        · obtain ⟨N, hN⟩ := hc.fn s pos ctx ins rem ho
          have hN : (denote env' N q).fn s pos ctx ins rem = _ := hN N (Nat.le_refl _)
          have := (follows_iff.1 hf N).fn s pos ctx ins rem
          rw [hN] at this
          exact this ho
  exact fun n => convWith n _ (key n) p

omit [BEq τ] in
theorem exchanged_symm {R : (α : Type) → P τ ρ Γ α → P τ ρ Γ α → Prop} {p q : P τ ρ Γ α} (hp : Exchanged R p q) :
    Exchanged (fun α p q => R α q p) q p := by
  induction hp with
  | keep p => exact .keep p
  | part hr => exact .part hr
  | fmap fn _ ih => exact .fmap fn ih
  | alt _ _ ih ih' => exact .alt ih ih'
  | bind _ _ ih ih' => exact .bind ih ih'
  | seqWith m _ _ ih ih' => exact .seqWith m ih ih'
  | maybe _ ih => exact .maybe ih
  | many _ ih => exact .many ih
  | attempt _ ih => exact .attempt ih
  | label x _ ih => exact .label x ih
  | recover _ ih => exact .recover ih
  | recoverWith x v _ ih => exact .recoverWith x v ih
  | recoverWithFn f l _ ih => exact .recoverWithFn f l ih
  | block _ ih => exact .block ih
  | aligned _ ih => exact .aligned ih
  | indented d _ ih => exact .indented d ih

omit [BEq τ] in
theorem exchangedDefs_symm {R : (α : Type) → P τ ρ Γ α → P τ ρ Γ α → Prop} {env env' : Env τ ρ Γ}
    (h : ExchangedDefs R env env') : ExchangedDefs (fun α p q => R α q p) env' env := by
  intro i
  rcases h i with ⟨h1, h2⟩ | ⟨p, p', h1, h2, h3⟩
  · exact .inl ⟨h2, h1⟩
  · exact .inr ⟨p', p, h2, h1, exchanged_symm h3⟩

omit [BEq τ] in
theorem exchangedDefs_mono {R S : (α : Type) → P τ ρ Γ α → P τ ρ Γ α → Prop} {env env' : Env τ ρ Γ}
    (hs : ∀ α p q, R α p q → S α p q) (h : ExchangedDefs R env env') : ExchangedDefs S env env' := by
  intro i
  rcases h i with h | ⟨p, p', h1, h2, h3⟩
  · exact .inl h
  · exact .inr ⟨p, p', h1, h2, exchanged_mono hs h3⟩

theorem Same.follows {env : Env τ ρ Γ} {p q : P τ ρ Γ α} (h : Same env p q) : Follows env env p q :=
  ⟨fun _ _ _ _ h' _ => (h.plain _ _ _ _).1 h', fun _ _ _ _ _ _ h' _ => (h.recovering _ _ _ _ _ _).1 h'⟩

omit [BEq τ] in
theorem Yields.iff {x y : Nat → Out α} (hx : ∀ o, Yields x o → o ≠ .diverge → Yields y o)
    (hy : ∀ o, Yields y o → o ≠ .diverge → Yields x o) (o : Out α) : Yields x o ↔ Yields y o := by
  by_cases ho : o = .diverge
  · subst ho
    constructor
    · intro h n
      by_cases hn : y n = .diverge
      · exact hn
      · obtain ⟨m, hm⟩ : ∃ m, x m = y n := by
          have h1 := hy _ (.of_eq (n := n) hn rfl) hn
          cases hy' : y n with
          | diverge => exact absurd hy' hn
          | raise e => rw [hy'] at h1; exact h1
          | ret a => rw [hy'] at h1; exact h1
        exact absurd ((h m).symm.trans hm).symm hn
    · intro h n
      by_cases hn : x n = .diverge
      · exact hn
      · obtain ⟨m, hm⟩ : ∃ m, y m = x n := by
          have h1 := hx _ (.of_eq (n := n) hn rfl) hn
          cases hx' : x n with
          | diverge => exact absurd hx' hn
          | raise e => rw [hx'] at h1; exact h1
          | ret a => rw [hx'] at h1; exact h1
        exact absurd ((h m).symm.trans hm).symm hn
  · exact ⟨fun h => hx o h ho, fun h => hy o h ho⟩

theorem Follows.same {env : Env τ ρ Γ} {p q : P τ ρ Γ α} (h : Follows env env p q) (h' : Follows env env q p) :
    Same env p q :=
  ⟨fun s pos ctx o => Yields.iff (h.plain s pos ctx) (h'.plain s pos ctx) o,
   fun s pos ctx ins rem o => Yields.iff (h.recovering s pos ctx ins rem) (h'.recovering s pos ctx ins rem) o⟩

theorem Follows.parse {env env' : Env τ ρ Γ} {p q : P τ ρ Γ α} (h : Follows env env' p q) (s : List τ) (o : Opts τ) :
    (∀ r, Returns env p s o r → Returns env' q s o r) ∧ ∀ e, Raises env p s o e → Raises env' q s o e := by
  unfold Returns Raises Reparsec.parse
  cases hb : o.recover with
  | true =>
    simp only [if_true]
    exact ⟨fun r hr => h.recovering s 0 (initCtx o.getLoc) o.maxInsertions (some o.maxInsertions) (.ret r) hr (by simp),
      fun e he => h.recovering s 0 (initCtx o.getLoc) o.maxInsertions (some o.maxInsertions) (.raise e) he (by simp)⟩
  | false =>
    simp only [Bool.false_eq_true, if_false, Out.bind_def, Out.bind_eq_ret, Out.pure_def, Out.ret.injEq]
    constructor
    · rintro r ⟨n, x, h1, h2⟩
      obtain ⟨n', h3⟩ := h.plain s 0 (initCtx o.getLoc) (.ret x) ⟨n, h1⟩ (by simp)
      exact ⟨n', x, h3, h2⟩
    · rintro e ⟨n, h1⟩
      cases hx : (denote env n p).fast s 0 (initCtx o.getLoc) with
      | diverge => rw [hx] at h1; cases h1
      | ret a => rw [hx] at h1; cases h1
      | raise e' =>
        rw [hx] at h1; cases h1
        obtain ⟨n', h3⟩ := h.plain s 0 (initCtx o.getLoc) (.raise e) ⟨n, hx⟩ (by simp)
        have h3 : (denote env' n' q).fast s 0 (initCtx o.getLoc) = _ := h3
        exact ⟨n', by rw [h3]; rfl⟩

/-- Unfolded definitions follow the definitions. -/
theorem follows_unfold {env env' : Env τ ρ Γ} (h : ExchangedDefs (Unfolds env) env env') {p q : P τ ρ Γ α}
    (hp : Exchanged (Unfolds env) p q) : Follows env env' p q := by
  rw [follows_iff]
  have key : ∀ n i, ConvFns (fun m => denote env' m (.ref i)) (table env n i) ∧
      ∀ p, env i = some p → ConvFns (fun m => denote env' m p) (table env n i) := by
    intro n
    induction n with
    | zero =>
      exact fun i => ⟨⟨fun _ _ _ => .diverge, fun _ _ _ _ _ => .diverge⟩,
        fun p _ => ⟨fun _ _ _ => .diverge, fun _ _ _ _ _ => .diverge⟩⟩
    | succ n ih =>
      intro i
      rcases h i with ⟨h1, h2⟩ | ⟨q, q', h1, h2, hq⟩
      · refine ⟨ConvFns.succ ?_, fun p hp => by rw [h1] at hp; cases hp⟩
        simp only [denote, denoteWith, table, h1, h2]
        exact .refl _
      · have e1 : table env (n + 1) i = denote env n q := by simp only [denote, table, h1]
        have e2 : ∀ m, denote env' (m + 1) (.ref i) = denote env' m q' := by
          intro m; simp only [denote, denoteWith, table, h2]
        have hk : ∀ (β : Type) (p : P τ ρ Γ β), ConvFns (fun m => denote env' m p) (denote env n p) :=
          fun β p => convWith n _ (fun i => (ih i).1) p
        rw [e1]
        constructor
        · refine ConvFns.succ ?_
          simp only [e2]
          refine exchanged_conv hk (exchanged_mono ?_ hq)
          rintro _ _ _ ⟨hj⟩
          exact (ih _).2 _ hj
        · intro p hp
          rw [h1] at hp; cases hp
          exact hk _ _
  intro n
  refine exchanged_conv (fun β p => convWith n _ (fun i => (key n i).1) p) (exchanged_mono ?_ hp)
  rintro _ _ _ ⟨hj⟩
  exact (key n _).2 _ hj

end Reparsec
