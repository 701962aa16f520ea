import Verif.Model.Delay
import Verif.Lemmas.Conv
import Verif.Lemmas.Yields
import Verif.Props.Samples

/-!
# C21: a `Delay` behaves as its definition
-/

namespace Reparsec

variable {τ ρ : Type} {Γ : ρ → Type} {α β γ : Type}

section
variable [BEq τ]

/-- **C21**: a `Delay` object behaves exactly as the parser it was defined as. -/
theorem C21_behaves_as_definition (env : Env τ ρ Γ) (i : ρ) (q : P τ ρ Γ (Γ i))
    (h : env i = some q) : Same env (.ref i) q := by
  have key : ∀ n, denote env (n + 1) (.ref i) = denote env n q := by
    intro n
    simp only [denote, denoteWith, table, h]
  have shift : ∀ {β : Type} {f g : Nat → Out β}, Mono f → (∀ n, f (n + 1) = g n) →
      ∀ o, Yields f o ↔ Yields g o := by
    intro β f g hf hfg o
    have hg : Mono g := fun n n' hn => by rw [← hfg, ← hfg]; exact hf _ _ (by omega)
    have : ∀ o, Yields f o → Yields g o := by
      intro o ho
      cases o with
      | diverge => exact fun n => by rw [← hfg]; exact ho (n + 1)
      | raise e => obtain ⟨n, hn⟩ := ho; exact ⟨n, by rw [← hfg]; exact hf.eq (by omega) (by simp) hn⟩
      | ret a => obtain ⟨n, hn⟩ := ho; exact ⟨n, by rw [← hfg]; exact hf.eq (by omega) (by simp) hn⟩
    refine ⟨this o, fun ho => ?_⟩
    obtain ⟨x, hx⟩ := Yields.total f
    rwa [Yields.unique hg ho (this x hx)]
  exact ⟨fun s pos ctx o => shift (mono_fast env _ s pos ctx) (fun n => by rw [key]) o,
    fun s pos ctx ins rem o => shift (mono_fn env _ s pos ctx ins rem) (fun n => by rw [key]) o⟩

/-- **C21**: before the definition, running it raises `RuntimeError`, in both modes. -/
theorem C21_undefined_raises (env : Env τ ρ Γ) (i : ρ) (h : env i = none) (s : List τ) (pos : Nat)
    (ctx : Ctx τ) (ins : Int) (rem : Option Int) :
    RunPlain env (.ref i) s pos ctx
        (.raise (.runtimeError "Delayed parser was not defined")) ∧
      RunRec env (.ref i) s pos ctx ins rem
        (.raise (.runtimeError "Delayed parser was not defined")) :=
  ⟨⟨1, by simp [denote, denoteWith, table, h, undefinedFns, undefinedExn]⟩,
   ⟨1, by simp [denote, denoteWith, table, h, undefinedFns, undefinedExn]⟩⟩

end

/-! ### Programs that define `Delay` objects at any time -/

/-- `Exp U D e c`: `c` is the expression `e` with some `Delay` objects replaced by their
definitions, treated in the same way; if `U`, some may also be replaced by the functions that raise
"was not defined" (needed for C68). -/
inductive Exp (U : Bool) (D : Env τ ρ Γ) : {α : Type} → P τ ρ Γ α → P τ ρ Γ α → Prop
  | late (i : ρ) : Exp U D (.ref i) (.ref i)
  | undef (i : ρ) : U = true → Exp U D (.ref i) undefinedP
  | early {i : ρ} {e c : P τ ρ Γ (Γ i)} : D i = some e → Exp U D e c → Exp U D (.ref i) c
  | pure {α : Type} (x : α) : Exp U D (.pure x) (.pure x)
  | pureFn {α : Type} (x : Except Exn α) : Exp U D (.pureFn x) (.pureFn x)
  | unexpected (x : String) : Exp U D (.unexpected x) (.unexpected x)
  | eof : Exp U D .eof .eof
  | satisfy (test : τ → Except Exn Bool) : Exp U D (.satisfy test) (.satisfy test)
  | sym (s : τ) (l : String) : Exp U D (.sym s l) (.sym s l)
  | literal (s : List τ) (ss : String) (h : s ≠ []) : Exp U D (.literal s ss h) (.literal s ss h)
  | regexp {β : Type} (m : Matcher τ β) : Exp U D (.regexp m) (.regexp m)
  | fmap {α β : Type} {e c : P τ ρ Γ α} (fn : α → Except Exn β) : Exp U D e c →
      Exp U D (.fmap e fn) (.fmap c fn)
  | alt {α : Type} {e c e' c' : P τ ρ Γ α} : Exp U D e c → Exp U D e' c' →
      Exp U D (.alt e e') (.alt c c')
  | bind {α β : Type} {e c : P τ ρ Γ α} {k k' : α → P τ ρ Γ β} : Exp U D e c →
      (∀ a, Exp U D (k a) (k' a)) → Exp U D (.bind e k) (.bind c k')
  | seqWith {α β γ : Type} {e c : P τ ρ Γ α} {e' c' : P τ ρ Γ β} (m : α → β → γ) :
      Exp U D e c → Exp U D e' c' → Exp U D (.seqWith e e' m) (.seqWith c c' m)
  | maybe {α : Type} {e c : P τ ρ Γ α} : Exp U D e c → Exp U D (.maybe e) (.maybe c)
  | many {α : Type} {e c : P τ ρ Γ α} : Exp U D e c → Exp U D (.many e) (.many c)
  | attempt {α : Type} {e c : P τ ρ Γ α} : Exp U D e c → Exp U D (.attempt e) (.attempt c)
  | label {α : Type} {e c : P τ ρ Γ α} (x : String) : Exp U D e c → Exp U D (.label e x) (.label c x)
  | recover {α : Type} {e c : P τ ρ Γ α} : Exp U D e c → Exp U D (.recover e) (.recover c)
  | recoverWith {α : Type} {e c : P τ ρ Γ α} (x : α) (vs : String) : Exp U D e c →
      Exp U D (.recoverWith e x vs) (.recoverWith c x vs)
  | recoverWithFn {α : Type} {e c : P τ ρ Γ α} (fn : List τ → Nat → Except Exn α)
      (lbl : α → String) : Exp U D e c →
      Exp U D (.recoverWithFn e fn lbl) (.recoverWithFn c fn lbl)
  | block {α : Type} {e c : P τ ρ Γ α} : Exp U D e c → Exp U D (.block e) (.block c)
  | aligned {α : Type} {e c : P τ ρ Γ α} : Exp U D e c → Exp U D (.aligned e) (.aligned c)
  | indented {α : Type} {e c : P τ ρ Γ α} (d : Int) : Exp U D e c →
      Exp U D (.indented d e) (.indented d c)

theorem Exp.refl (U : Bool) (D : Env τ ρ Γ) (e : P τ ρ Γ α) : Exp U D e e := by
  induction e with
  | pure x => exact .pure x
  | pureFn x => exact .pureFn x
  | unexpected x => exact .unexpected x
  | eof => exact .eof
  | satisfy test => exact .satisfy test
  | sym s l => exact .sym s l
  | literal s ss h => exact .literal s ss h
  | regexp m => exact .regexp m
  | fmap p fn ih => exact .fmap fn ih
  | alt p q ihp ihq => exact .alt ihp ihq
  | bind p k ihp ihk => exact .bind ihp ihk
  | seqWith p q m ihp ihq => exact .seqWith m ihp ihq
  | maybe p ih => exact .maybe ih
  | many p ih => exact .many ih
  | attempt p ih => exact .attempt ih
  | label p x ih => exact .label x ih
  | recover p ih => exact .recover ih
  | recoverWith p x vs ih => exact .recoverWith x vs ih
  | recoverWithFn p fn lbl ih => exact .recoverWithFn fn lbl ih
  | block p ih => exact .block ih
  | aligned p ih => exact .aligned ih
  | indented d p ih => exact .indented d ih
  | ref i => exact .late i

/-- Defining more `Delay` objects does no harm. -/
theorem Exp.mono {U : Bool} {D D' : Env τ ρ Γ} (hD : ∀ i e, D i = some e → D' i = some e)
    {e c : P τ ρ Γ α} (h : Exp U D e c) : Exp U D' e c := by
  induction h with
  | late i => exact .late i
  | undef i h => exact .undef i h
  | early h _ ih => exact .early (hD _ _ h) ih
  | pure x => exact .pure x
  | pureFn x => exact .pureFn x
  | unexpected x => exact .unexpected x
  | eof => exact .eof
  | satisfy test => exact .satisfy test
  | sym s l => exact .sym s l
  | literal s ss h => exact .literal s ss h
  | regexp m => exact .regexp m
  | fmap fn _ ih => exact .fmap fn ih
  | alt _ _ ihp ihq => exact .alt ihp ihq
  | bind _ _ ihp ihk => exact .bind ihp ihk
  | seqWith m _ _ ihp ihq => exact .seqWith m ihp ihq
  | maybe _ ih => exact .maybe ih
  | many _ ih => exact .many ih
  | attempt _ ih => exact .attempt ih
  | label x _ ih => exact .label x ih
  | recover _ ih => exact .recover ih
  | recoverWith x vs _ ih => exact .recoverWith x vs ih
  | recoverWithFn fn lbl _ ih => exact .recoverWithFn fn lbl ih
  | block _ ih => exact .block ih
  | aligned _ ih => exact .aligned ih
  | indented d _ ih => exact .indented d ih

/-- The `Delay` objects hold functions of their definitions. -/
structure Tracks (σ : Store τ ρ Γ) (D : Env τ ρ Γ) : Prop where
  some : ∀ i c, σ i = some c → ∃ e, D i = some e ∧ Exp false D e c
  none : ∀ i, σ i = none → D i = none

section
variable [BEq τ]

theorem Exp.le {σ : Store τ ρ Γ} {D : Env τ ρ Γ} (ht : Tracks σ D) (n : Nat) {e c : P τ ρ Γ α}
    (h : Exp false D e c) : FnsLe (denote D n e) (denote σ n c) := by
  induction n using Nat.strongRecOn generalizing α with
  | ind n ihn =>
  induction h with
  | late i =>
    cases n with
    | zero => exact ⟨fun _ _ _ => .inl rfl, fun _ _ _ _ _ => .inl rfl⟩
    | succ n =>
      show FnsLe (table D (n + 1) i) (table σ (n + 1) i)
      cases h : σ i with
      | none => simp only [table, h, ht.none i h]; exact FnsLe.refl _
      | some c =>
        obtain ⟨e, h1, h2⟩ := ht.some i c h
        simp only [table, h, h1]
        exact ihn n (by omega) h2
  | undef i h => cases h
  | @early i e c h h' ih =>
    cases n with
    | zero => exact ⟨fun _ _ _ => .inl rfl, fun _ _ _ _ _ => .inl rfl⟩
    | succ n =>
      have h1 := ihn n (by omega) h'
      have h2 := denote_le σ (Nat.le_succ n) c
      show FnsLe (table D (n + 1) i) _
      simp only [table, h]
      exact ⟨fun s pos ctx => Out.Le.trans (h1.1 s pos ctx) (h2.1 s pos ctx),
        fun s pos ctx ins rem => Out.Le.trans (h1.2 s pos ctx ins rem) (h2.2 s pos ctx ins rem)⟩
  | pure | pureFn | unexpected | eof | satisfy | sym | literal | regexp => exact FnsLe.refl _
  | fmap fn _ ih => exact fnsLe_fmap fn ih
  | alt _ _ ihp ihq => exact fnsLe_alt ihp ihq
  | bind _ _ ihp ihk => exact fnsLe_bind ihp ihk
  | seqWith m _ _ ihp ihq =>
    simp only [denote, denoteWith, seqFns_eq]; exact fnsLe_bind ihp fun _ => fnsLe_fmap _ ihq
  | maybe _ ih =>
    simp only [denote, denoteWith, maybeFns_eq]; exact fnsLe_alt (fnsLe_fmap _ ih) (FnsLe.refl _)
  | many _ ih => exact fnsLe_many ih (Nat.le_refl _)
  | attempt _ ih => exact fnsLe_attempt ih
  | label x _ ih => exact fnsLe_label x ih
  | recover _ ih => exact fnsLe_recover ih
  | recoverWith x vs _ ih =>
    simp only [denote, denoteWith, recoverWithFns_eq]; exact fnsLe_recoverWithFn _ _ ih
  | recoverWithFn fn lbl _ ih => exact fnsLe_recoverWithFn _ _ ih
  | block _ ih => exact fnsLe_block ih
  | aligned _ ih => exact fnsLe_aligned ih
  | indented d _ ih => exact fnsLe_indented d ih

theorem Exp.conv {σ : Store τ ρ Γ} {D : Env τ ρ Γ} (ht : Tracks σ D) (n : Nat) {e c : P τ ρ Γ α}
    (h : Exp false D e c) : ConvFns (fun m => denote D m e) (denote σ n c) := by
  induction n using Nat.strongRecOn generalizing α with
  | ind n ihn =>
  induction h with
  | late i =>
    cases n with
    | zero => exact ⟨fun _ _ _ => .diverge, fun _ _ _ _ _ => .diverge⟩
    | succ n =>
      refine ConvFns.succ ?_
      show ConvFns (fun m => table D (m + 1) i) (table σ (n + 1) i)
      cases h : σ i with
      | none => simp only [table, h, ht.none i h]; exact .refl _
      | some c =>
        obtain ⟨e, h1, h2⟩ := ht.some i c h
        simp only [table, h, h1]
        exact ihn n (by omega) h2
  | undef i h => cases h
  | @early i e c h h' ih =>
    refine ConvFns.succ ?_
    show ConvFns (fun m => table D (m + 1) i) _
    simp only [table, h]
    exact ih
  | pure | pureFn | unexpected | eof | satisfy | sym | literal | regexp => exact .refl _
  | fmap fn _ ih => exact ih.fmap fn
  | alt _ _ ihp ihq => exact ihp.alt ihq
  | bind _ _ ihp ihk => exact ihp.bind ihk
  | seqWith m _ _ ihp ihq => exact ihp.seqWith m ihq
  | maybe _ ih => exact ih.maybe
  | many _ ih => exact ih.many n
  | attempt _ ih => exact ih.attempt
  | label x _ ih => exact ih.label x
  | recover _ ih => exact ih.recover
  | recoverWith x vs _ ih => exact ih.recoverWith x vs
  | recoverWithFn fn lbl _ ih => exact ih.recoverWithFn fn lbl
  | block _ ih => exact ih.block
  | aligned _ ih => exact ih.aligned
  | indented d _ ih => exact ih.indented d

theorem Yields.of_le_conv {f g : Nat → Out β} (hle : ∀ n, (f n).Le (g n))
    (hc : ∀ n, Conv f (g n)) (o : Out β) : Yields g o ↔ Yields f o := by
  have h1 : ∀ o, Yields g o → Yields f o := by
    intro o ho
    cases o with
    | diverge =>
      intro n
      rcases hle n with h | h
      · exact h
      · rw [h]; exact ho n
    | raise e =>
      obtain ⟨n, hn⟩ := ho
      obtain ⟨N, hN⟩ := hc n (by simp [hn])
      exact ⟨N, by rw [hN N (Nat.le_refl _), hn]⟩
    | ret a =>
      obtain ⟨n, hn⟩ := ho
      obtain ⟨N, hN⟩ := hc n (by simp [hn])
      exact ⟨N, by rw [hN N (Nat.le_refl _), hn]⟩
  refine ⟨h1 o, fun ho => ?_⟩
  obtain ⟨x, hx⟩ := Yields.total g
  have hx' := h1 x hx
  cases o with
  | diverge =>
    cases x with
    | diverge => exact hx
    | raise e => obtain ⟨n, hn⟩ := hx'; simp [ho n] at hn
    | ret a => obtain ⟨n, hn⟩ := hx'; simp [ho n] at hn
  | raise e =>
    obtain ⟨n, hn⟩ := ho
    exact ⟨n, (hle n).eq (by simp [hn]) ▸ hn⟩
  | ret a =>
    obtain ⟨n, hn⟩ := ho
    exact ⟨n, (hle n).eq (by simp [hn]) ▸ hn⟩

end

/-- What is known of each object a program has. -/
inductive Stands (U : Bool) (D : Env τ ρ Γ) : {α : Type} → P τ ρ Γ α → Obj τ ρ Γ α → Prop
  | delay (i : ρ) : Stands U D (.ref i) (.delay i)
  | fn {α : Type} {e c : P τ ρ Γ α} : Exp U D e c → Stands U D e (.fn c)

theorem Stands.call {U : Bool} {D : Env τ ρ Γ} {e : P τ ρ Γ α} {o : Obj τ ρ Γ α} (h : Stands U D e o) :
    Exp U D e o.call := by
  cases h with
  | delay i => exact .late i
  | fn h => exact h

theorem Stands.toFns {σ : Store τ ρ Γ} {D : Env τ ρ Γ} (ht : Tracks σ D) {e : P τ ρ Γ α}
    {o : Obj τ ρ Γ α} (h : Stands false D e o) : Exp false D e (o.toFns σ) := by
  cases h with
  | delay i =>
    simp only [Obj.toFns]
    cases h : σ i with
    | none => exact .late i
    | some c =>
      obtain ⟨e, h1, h2⟩ := ht.some i c h
      exact .early h1 h2
  | fn h => exact h

theorem Builds.stands {U : Bool} {R : Captures τ ρ Γ} {D : Env τ ρ Γ} {K : Objects τ ρ Γ}
    (hK : ∀ {α : Type} (e : P τ ρ Γ α) o, K _ e o → Stands U D e o) {e : P τ ρ Γ α} {o : Obj τ ρ Γ α}
    (hF : ∀ {α : Type} (e : P τ ρ Γ α) c, R _ e c → Exp U D e c)
    (h : Builds R K e o) : Stands U D e o := by
  have hF : ∀ {α : Type} {e : P τ ρ Γ α} {c}, R _ e c → Exp U D e c := fun h => hF _ _ h
  cases h with
  | delay i => exact .delay i
  | pure x => exact .fn (.pure x)
  | pureFn x => exact .fn (.pureFn x)
  | unexpected x => exact .fn (.unexpected x)
  | eof => exact .fn .eof
  | satisfy test => exact .fn (.satisfy test)
  | sym s l => exact .fn (.sym s l)
  | literal s ss h => exact .fn (.literal s ss h)
  | regexp m => exact .fn (.regexp m)
  | fmap fn h => exact .fn (.fmap fn (hF h))
  | alt h h' => exact .fn (.alt (hF h) (hF h'))
  | bind h hk =>
    refine .fn (.bind (hF h) fun a => ?_)
    rcases hk a with h | h
    · exact (hK _ _ h).call
    · rw [h]; exact Exp.refl U D _
  | seqWith m h h' => exact .fn (.seqWith m (hF h) (hF h'))
  | maybe h => exact .fn (.maybe (hF h))
  | many h => exact .fn (.many (hF h))
  | attempt h => exact .fn (.attempt (hF h))
  | label x h => exact .fn (.label x (hF h))
  | recover h => exact .fn (.recover (hF h))
  | recoverWith x vs h => exact .fn (.recoverWith x vs (hF h))
  | recoverWithFn fn lbl h => exact .fn (.recoverWithFn fn lbl (hF h))
  | block h => exact .fn (.block (hF h))
  | aligned h => exact .fn (.aligned (hF h))
  | indented d h => exact .fn (.indented d (hF h))

variable [DecidableEq ρ]

theorem Store.set_self (σ : Store τ ρ Γ) (i : ρ) (c : P τ ρ Γ (Γ i)) : σ.set i c i = some c := by
  simp [Store.set]

theorem Store.set_ne (σ : Store τ ρ Γ) {i j : ρ} (c : P τ ρ Γ (Γ i)) (h : i ≠ j) :
    σ.set i c j = σ j := by
  simp [Store.set, h]

/-- The functions of an object other than the `Delay` object `i` do not change when that is
assigned. -/
theorem toFns_set (σ : Store τ ρ Γ) (i : ρ) (c : P τ ρ Γ (Γ i)) {o : Obj τ ρ Γ (Γ i)}
    (h : o ≠ .delay i) : o.toFns (σ.set i c) = o.toFns σ := by
  have key : ∀ {α : Type} (hα : Γ i = α) (o : Obj τ ρ Γ α), o ≠ hα ▸ .delay i →
      o.toFns (σ.set i c) = o.toFns σ := by
    intro α hα o ho
    cases o with
    | fn c => rfl
    | delay j =>
      have hij : i ≠ j := fun h => ho (by subst h; rfl)
      simp only [Obj.toFns, Store.set_ne σ c hij]
  exact key rfl o h

theorem Reach.inv {σ : Store τ ρ Γ} {D : Env τ ρ Γ} {K : Objects τ ρ Γ} (h : Reach σ D K) :
    Tracks σ D ∧ ∀ {α : Type} (e : P τ ρ Γ α) o, K _ e o → Stands false D e o := by
  induction h with
  | start => exact ⟨⟨by simp, by simp⟩, fun _ _ h => absurd h id⟩
  | build h hb ih =>
    obtain ⟨h1, h2⟩ := ih
    refine ⟨h1, fun e o ho => ?_⟩
    cases ho with
    | old h => exact h2 _ _ h
    | new => exact hb.stands h2 fun e c ⟨o, ho, hc⟩ => hc ▸ (h2 _ _ ho).toFns h1
  | @define σ σ' D K i e o h hk hne hd ih =>
    obtain ⟨h1, h2⟩ := ih
    unfold Reparsec.define at hd
    split at hd
    · cases hd
    next hi =>
    simp only [Except.ok.injEq] at hd
    subst hd
    have hi : σ i = none := by simpa using hi
    have hext : ∀ j e', D j = some e' → Store.set D i e j = some e' := by
      intro j e' hj
      by_cases hij : i = j
      · subst hij; rw [h1.none i hi] at hj; cases hj
      · rw [Store.set_ne _ _ hij]; exact hj
    refine ⟨⟨fun j c hj => ?_, fun j hj => ?_⟩, fun e' o' ho => ?_⟩
    · by_cases hij : i = j
      · subst hij
        rw [Store.set_self] at hj
        simp only [Option.some.injEq] at hj
        subst hj
        refine ⟨e, Store.set_self _ _ _, ?_⟩
        have hs := h2 _ _ hk
        refine Exp.mono hext ?_
        rw [toFns_set _ _ _ hne]
        exact hs.toFns h1
      · rw [Store.set_ne _ _ hij, Store.set_ne _ _ hij] at hj
        obtain ⟨e', h3, h4⟩ := h1.some j c hj
        exact ⟨e', hext _ _ h3, h4.mono hext⟩
    · by_cases hij : i = j
      · subst hij; simp [Store.set_self] at hj
      · rw [Store.set_ne _ _ hij, Store.set_ne _ _ hij] at hj
        rw [Store.set_ne _ _ hij]
        exact h1.none j hj
    · cases h2 _ _ ho with
      | delay i => exact .delay i
      | fn h => exact .fn (h.mono hext)

section
variable [BEq τ]

/-- **C21**, for programs: whatever the order in which a program builds its parsers and defines its
`Delay` objects, running any of its parsers now gives what the expression it was built from gives,
every `Delay` object in it being read as its definition (which raises if there is none yet). -/
theorem C21_history {σ : Store τ ρ Γ} {D : Env τ ρ Γ} {K : Objects τ ρ Γ} (h : Reach σ D K)
    {e : P τ ρ Γ α} {o : Obj τ ρ Γ α} (ho : K _ e o) (s : List τ) (pos : Nat) (ctx : Ctx τ) :
    (∀ r, RunPlain σ o.call s pos ctx r ↔ RunPlain D e s pos ctx r) ∧
      ∀ ins rem r, RunRec σ o.call s pos ctx ins rem r ↔ RunRec D e s pos ctx ins rem r := by
  obtain ⟨h1, h2⟩ := h.inv
  have hx := (h2 _ _ ho).call
  exact ⟨fun r => Yields.of_le_conv (fun n => (hx.le h1 n).1 s pos ctx)
      (fun n => (hx.conv h1 n).fast s pos ctx) r,
    fun ins rem r => Yields.of_le_conv (fun n => (hx.le h1 n).2 s pos ctx ins rem)
      (fun n => (hx.conv h1 n).fn s pos ctx ins rem) r⟩

/-- The same for a call of `parse`. -/
theorem C21_history_parse {σ : Store τ ρ Γ} {D : Env τ ρ Γ} {K : Objects τ ρ Γ} (h : Reach σ D K)
    {e : P τ ρ Γ α} {o : Obj τ ρ Γ α} (ho : K _ e o) (s : List τ) (opts : Opts τ) :
    (∀ r, Returns σ o.call s opts r ↔ Returns D e s opts r) ∧
      (∀ x, Raises σ o.call s opts x ↔ Raises D e s opts x) ∧
      (Hangs σ o.call s opts ↔ Hangs D e s opts) := by
  obtain ⟨h1, h2⟩ := h.inv
  have hx := (h2 _ _ ho).call
  have key := Yields.of_le_conv
    (f := fun n => parse D n e s opts.recover opts.maxInsertions opts.getLoc)
    (g := fun n => parse σ n o.call s opts.recover opts.maxInsertions opts.getLoc)
    (fun n => by
      unfold parse
      split
      · exact (hx.le h1 n).2 _ _ _ _ _
      · exact Out.Le.bind ((hx.le h1 n).1 _ _ _) fun _ => .refl _)
    (fun n => by
      unfold parse
      split
      · exact (hx.conv h1 n).fn _ _ _ _ _
      · exact Conv.bind ((hx.conv h1 n).fast _ _ _) fun _ => .refl _)
  exact ⟨fun r => key (.ret r), fun x => key (.raise x), key .diverge⟩

end

/-- **C21**: `define` raises exactly when the `Delay` object is defined already. -/
theorem C21_second_define (σ : Store τ ρ Γ) (i : ρ) (o : Obj τ ρ Γ (Γ i)) :
    (define σ i o = .error (.runtimeError "Delayed parser was already defined") ↔
      ∃ c, σ i = some c) ∧
    ((∃ σ', define σ i o = .ok σ') ↔ σ i = none) := by
  unfold define
  cases h : σ i <;> simp [alreadyDefinedExn]

/-- **C21**: a call of `define` that returns makes that `Delay` object, and no other, defined; every
later call for it raises. -/
theorem C21_defines_one {σ σ' : Store τ ρ Γ} {i : ρ} {o : Obj τ ρ Γ (Γ i)}
    (h : define σ i o = .ok σ') :
    (∃ c, σ' i = some c) ∧ (∀ j, j ≠ i → σ' j = σ j) ∧
      ∀ o', define σ' i o' = .error (.runtimeError "Delayed parser was already defined") := by
  have hi : ∃ c, σ' i = some c := by
    unfold define at h
    split at h
    · cases h
    · simp only [Except.ok.injEq] at h; subst h; exact ⟨_, Store.set_self _ _ _⟩
  refine ⟨hi, fun j hj => ?_, fun o' => (C21_second_define σ' i o').1.2 hi⟩
  unfold define at h
  split at h
  · cases h
  · simp only [Except.ok.injEq] at h
    subst h
    rw [Store.set_ne _ _ (Ne.symm hj), Store.set_ne _ _ (Ne.symm hj)]

/-- `define` on a `Delay` object itself leaves it raising "was not defined", although it counts as
defined. -/
theorem C21_define_itself [BEq τ] {σ σ' : Store τ ρ Γ} {i : ρ}
    (h : define σ i (.delay i) = .ok σ') (s : List τ) (pos : Nat) (ctx : Ctx τ) :
    RunPlain σ' (.ref i) s pos ctx (.raise (.runtimeError "Delayed parser was not defined")) ∧
      ∀ o', define σ' i o' = .error (.runtimeError "Delayed parser was already defined") := by
  refine ⟨⟨1, ?_⟩, (C21_defines_one h).2.2⟩
  unfold define at h
  split at h
  · cases h
  · simp only [Except.ok.injEq] at h
    subst h
    simp only [denote, denoteWith, table, Store.set_self, Obj.toFns]
    rfl

/-! ### A program -/

namespace Samples

/-- `sym("a")` -/
def symA : P Char Unit (fun _ => Nat) Char := .sym 'a' "'a'"

/-- `(sym("a") >> e).fmap(lambda n: n + 1) | pure(0)` -/
def countA : P Char Unit (fun _ => Nat) Nat :=
  .alt (.fmap (.seqr symA (.ref ())) fun n => .ok (n + 1)) (.pure 0)

/-- What a program has after
```
e = Delay()
a = sym("a")
x = a >> e
y = x.fmap(lambda n: n + 1)
z = pure(0)
w = y | z
e.define(w)
v = e.label("n")
```
The parser `x` has bound methods of `e`, `v` has the functions of `w`. -/
theorem program : ∃ (σ : Store Char Unit (fun _ => Nat)) (D : Env Char Unit (fun _ => Nat))
    (K : Objects Char Unit (fun _ => Nat)), Reach σ D K ∧ D () = some countA ∧
      K _ (.ref ()) (.delay ()) ∧
      K _ (.label (.ref ()) "n") (.fn (.label countA "n")) := by
  have h0 := Reach.start (τ := Char) (ρ := Unit) (Γ := fun _ => Nat)
  have h1 := h0.build (.delay ())
  have h2 := h1.build (.sym 'a' "'a'")
  have h3 := h2.build (.seqWith (fun _ b => b) ⟨_, .new, rfl⟩ ⟨_, .old .new, rfl⟩)
  have h4 := h3.build (.fmap (fun n => .ok (n + 1)) ⟨_, .new, rfl⟩)
  have h5 := h4.build (.pure 0)
  have h6 := h5.build (.alt ⟨_, .old .new, rfl⟩ ⟨_, .new, rfl⟩)
  have h7 := h6.define (i := ()) .new (by simp) (by rfl)
  have h8 := h7.build (.label "n" ⟨_, .old (.old (.old (.old (.old .new)))), rfl⟩)
  exact ⟨_, _, _, h8, rfl, .old (.old (.old (.old (.old (.old .new))))), .new⟩

/-- With recovery or without, what `v` gives is what the expression gives. -/
example : ∃ (σ : Store Char Unit (fun _ => Nat)) (D : Env Char Unit (fun _ => Nat)),
    D () = some countA ∧ ∀ s o r,
      Returns σ (.label countA "n") s o r ↔ Returns D (.label (.ref ()) "n") s o r := by
  obtain ⟨σ, D, K, h, hD, -, hv⟩ := program
  exact ⟨σ, D, hD, fun s o r => (C21_history_parse h hv s o).1 r⟩

/-- It parses "aaa" to 3. -/
example : run (fun _ => some countA) (.label (.ref ()) "n") "aaa" false false = .ret (.ok 3) := rfl

end Samples

end Reparsec
