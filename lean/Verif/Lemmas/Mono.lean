import Verif.Lemmas.Basic

/-!
# More fuel never changes an outcome
-/

namespace Reparsec

variable {τ α β γ : Type}

/-- `x` is `diverge` (out of fuel), or is the same as `y`. -/
def Out.Le (x y : Out α) : Prop := x = .diverge ∨ x = y

theorem Out.Le.refl (x : Out α) : x.Le x := .inr rfl

theorem Out.Le.trans {x y z : Out α} (h : x.Le y) (h' : y.Le z) : x.Le z := by
  rcases h with h | rfl
  · exact .inl h
  · exact h'

theorem Out.Le.eq {x y : Out α} (h : x.Le y) (hx : x ≠ .diverge) : y = x := by
  rcases h with h | h
  · exact absurd h hx
  · exact h.symm

theorem Out.Le.ret {x y : Out α} (h : x.Le y) {a : α} (hx : x = .ret a) : y = .ret a := by
  rw [h.eq (by rw [hx]; simp), hx]

theorem Out.Le.bind {x y : Out α} {f g : α → Out β} (h : x.Le y) (hf : ∀ a, (f a).Le (g a)) :
    (x.bind f).Le (y.bind g) := by
  rcases h with rfl | rfl
  · exact .inl rfl
  · cases x with
    | diverge => exact .inl rfl
    | raise e => exact .inr rfl
    | ret a => exact hf a

/-- The order on parse functions. -/
def FnsLe (f g : ParseFns τ α) : Prop :=
  (∀ s pos ctx, (f.fast s pos ctx).Le (g.fast s pos ctx)) ∧
  (∀ s pos ctx ins rem, (f.fn s pos ctx ins rem).Le (g.fn s pos ctx ins rem))

theorem FnsLe.refl (f : ParseFns τ α) : FnsLe f f :=
  ⟨fun _ _ _ => .inr rfl, fun _ _ _ _ _ => .inr rfl⟩

theorem contReps_le {ins : Int} {k k' : α → Nat → Ctx τ → Int → Out (Result τ β)}
    {merge : α → β → γ} (hk : ∀ v p c r, (k v p c r).Le (k' v p c r)) (l : List (Repair τ α)) :
    (contReps ins k merge l).Le (contReps ins k' merge l) := by
  induction l with
  | nil => exact .inr rfl
  | cons r rs ih =>
    simp only [contReps, Out.bind_def]
    exact (hk _ _ _ _).bind fun _ => ih.bind fun _ => .inr rfl

theorem continueParse_le {ra : Recovered τ α} {ins : Int}
    {k k' : α → Nat → Ctx τ → Int → Out (Result τ β)}
    {merge : α → β → γ} (hk : ∀ v p c r, (k v p c r).Le (k' v p c r)) :
    (continueParse ra ins k merge).Le (continueParse ra ins k' merge) :=
  (contReps_le hk _).bind fun _ => .inr rfl

theorem fnsLe_fmap {f f' : ParseFns τ α} (fn : α → Except Exn β) (h : FnsLe f f') :
    FnsLe (fmapFns f fn) (fmapFns f' fn) :=
  ⟨fun _ _ _ => (h.1 _ _ _).bind fun _ => .inr rfl,
   fun _ _ _ _ _ => (h.2 _ _ _ _ _).bind fun _ => .inr rfl⟩

theorem altRecover_le {f f' g g' : ParseFns τ α} (hf : FnsLe f f') (hg : FnsLe g g')
    (s pos ctx ins rem loc ex) : (altRecover f g s pos ctx ins rem loc ex).Le
      (altRecover f' g' s pos ctx ins rem loc ex) := by
  cases rem with
  | none => exact .inr rfl
  | some rem =>
    exact (hf.2 _ _ _ _ _).bind fun _ => (hg.2 _ _ _ _ _).bind fun _ => .inr rfl

theorem altSecond_le {f f' g g' : ParseFns τ α} (hf : FnsLe f f') (hg : FnsLe g g')
    (s pos ctx ins rem loc ex) : (altSecond f g s pos ctx ins rem loc ex).Le
      (altSecond f' g' s pos ctx ins rem loc ex) := by
  refine (hg.2 _ _ _ _ _).bind fun r => ?_
  cases r with
  | ok r => exact .inr rfl
  | error e => simp only; split; exact .inr rfl; exact altRecover_le hf hg ..
  | recovered e => simp only; split; exact .inr rfl; exact altRecover_le hf hg ..

theorem fnsLe_alt {f f' g g' : ParseFns τ α} (hf : FnsLe f f') (hg : FnsLe g g') :
    FnsLe (altFns f g) (altFns f' g') := by
  constructor
  · intro s pos ctx
    refine (hf.1 _ _ _).bind fun r => ?_
    cases r with
    | ok r => exact .inr rfl
    | error e =>
      simp only; split
      · exact .inr rfl
      · exact (hg.1 _ _ _).bind fun _ => .inr rfl
  · intro s pos ctx ins rem
    refine (hf.2 _ _ _ _ _).bind fun r => ?_
    cases r with
    | ok r => exact .inr rfl
    | error e => simp only; split; exact .inr rfl; exact altSecond_le hf hg ..
    | recovered e => simp only; split; exact .inr rfl; exact altSecond_le hf hg ..

theorem fnsLe_bind {f f' : ParseFns τ α} {g g' : α → ParseFns τ β} (hf : FnsLe f f')
    (hg : ∀ a, FnsLe (g a) (g' a)) : FnsLe (bindFns f g) (bindFns f' g') := by
  constructor
  · intro s pos ctx
    refine (hf.1 _ _ _).bind fun r => ?_
    cases r with
    | error e => exact .inr rfl
    | ok r => exact ((hg _).1 _ _ _).bind fun _ => .inr rfl
  · intro s pos ctx ins rem
    refine (hf.2 _ _ _ _ _).bind fun r => ?_
    cases r with
    | error e => exact .inr rfl
    | ok r =>
      simp only; split
      · exact ((hg _).2 _ _ _ _ _).bind fun _ => .inr rfl
      · exact ((hg _).2 _ _ _ _ _).bind fun _ => .inr rfl
    | recovered r => exact continueParse_le fun _ _ _ _ => (hg _).2 _ _ _ _ _

theorem manyFastLoop_le {p p' : FastFn τ α} (h : ∀ s pos ctx, (p s pos ctx).Le (p' s pos ctx))
    (s : List τ) {n n' : Nat} (hn : n ≤ n') (pos ctx c v) :
    (manyFastLoop p s n pos ctx c v).Le (manyFastLoop p' s n' pos ctx c v) := by
  induction n generalizing n' pos ctx c v with
  | zero => exact .inl rfl
  | succ n ih =>
    obtain ⟨n', rfl⟩ : ∃ k, n' = k + 1 := ⟨n' - 1, by omega⟩
    refine (h _ _ _).bind fun r => ?_
    cases r with
    | ok r =>
      simp only; split
      · exact ih (by omega) ..
      · exact .inr rfl
    | error e => exact .inr rfl

theorem manyLoop_le {p p' : Fn τ α}
    (h : ∀ s pos ctx ins rem, (p s pos ctx ins rem).Le (p' s pos ctx ins rem))
    (s : List τ) (ins : Int) {n n' : Nat} (hn : n ≤ n') (pos ctx c v) :
    (manyLoop p s ins n pos ctx c v).Le (manyLoop p' s ins n' pos ctx c v) := by
  induction n generalizing n' pos ctx c v with
  | zero => exact .inl rfl
  | succ n ih =>
    obtain ⟨n', rfl⟩ : ∃ k, n' = k + 1 := ⟨n' - 1, by omega⟩
    refine (h _ _ _ _ _).bind fun r => ?_
    cases r with
    | ok r =>
      simp only; split
      · exact ih (by omega) ..
      · exact .inr rfl
    | error e => exact .inr rfl
    | recovered r => exact continueParse_le fun _ _ _ _ => ih (by omega) ..

theorem fnsLe_many {f f' : ParseFns τ α} (h : FnsLe f f') {n n' : Nat} (hn : n ≤ n') :
    FnsLe (manyFns n f) (manyFns n' f') :=
  ⟨fun s _ _ => manyFastLoop_le h.1 s hn .., fun s _ _ ins _ => manyLoop_le h.2 s ins hn ..⟩

theorem fnsLe_attempt {f f' : ParseFns τ α} (h : FnsLe f f') :
    FnsLe (attemptFns f) (attemptFns f') := by
  constructor
  · intro s pos ctx
    exact (h.1 _ _ _).bind fun _ => .inr rfl
  · intro s pos ctx ins rem
    cases rem with
    | none => exact (h.1 _ _ _).bind fun _ => .inr rfl
    | some rem => exact h.2 ..

theorem fnsLe_label {f f' : ParseFns τ α} (x : String) (h : FnsLe f f') :
    FnsLe (labelFns f x) (labelFns f' x) :=
  ⟨fun _ _ _ => (h.1 _ _ _).bind fun _ => .inr rfl,
   fun _ _ _ _ _ => (h.2 _ _ _ _ _).bind fun _ => .inr rfl⟩

theorem fnsLe_recover {f f' : ParseFns τ α} (h : FnsLe f f') :
    FnsLe (recoverFns f) (recoverFns f') :=
  ⟨h.1, fun _ _ _ _ _ => (h.2 _ _ _ _ _).bind fun _ => .inr rfl⟩

theorem fnsLe_recoverWithFn {f f' : ParseFns τ α} (fn : List τ → Nat → Except Exn α)
    (lbl : α → String) (h : FnsLe f f') :
    FnsLe (recoverWithFnFns f fn lbl) (recoverWithFnFns f' fn lbl) := by
  refine ⟨h.1, fun s pos ctx ins rem => ?_⟩
  cases rem with
  | none => exact h.2 ..
  | some rem => exact (h.2 _ _ _ _ _).bind fun _ => .inr rfl

theorem fnsLe_block {f f' : ParseFns τ α} (h : FnsLe f f') :
    FnsLe (blockFns f) (blockFns f') :=
  ⟨fun _ _ _ => (h.1 _ _ _).bind fun _ => .inr rfl,
   fun _ _ _ _ _ => (h.2 _ _ _ _ _).bind fun _ => .inr rfl⟩

theorem fnsLe_aligned {f f' : ParseFns τ α} (h : FnsLe f f') :
    FnsLe (alignedFns f) (alignedFns f') := by
  constructor
  · intro s pos ctx; simp only [alignedFns]; split; exact h.1 ..; exact .inr rfl
  · intro s pos ctx ins rem; simp only [alignedFns]; split; exact h.2 ..; exact .inr rfl

theorem fnsLe_indented {f f' : ParseFns τ α} (d : Int) (h : FnsLe f f') :
    FnsLe (indentedFns d f) (indentedFns d f') := by
  constructor
  · intro s pos ctx; simp only [indentedFns]; split
    · exact (h.1 _ _ _).bind fun _ => .inr rfl
    · exact .inr rfl
  · intro s pos ctx ins rem; simp only [indentedFns]; split
    · exact (h.2 _ _ _ _ _).bind fun _ => .inr rfl
    · exact .inr rfl

variable {ρ : Type} {Γ : ρ → Type} [BEq τ]

theorem denoteWith_le {n n' : Nat} (hn : n ≤ n') {t t' : (i : ρ) → ParseFns τ (Γ i)}
    (ht : ∀ i, FnsLe (t i) (t' i)) (p : P τ ρ Γ α) :
    FnsLe (denoteWith n t p) (denoteWith n' t' p) := by
  induction p with
  | pure | pureFn | unexpected | eof | satisfy | sym | literal | regexp => exact FnsLe.refl _
  | fmap p fn ih => exact fnsLe_fmap fn ih
  | alt p q ihp ihq => exact fnsLe_alt ihp ihq
  | bind p k ihp ihk => exact fnsLe_bind ihp ihk
  | seqWith p q merge ihp ihq =>
    simp only [denoteWith, seqFns_eq]; exact fnsLe_bind ihp fun _ => fnsLe_fmap _ ihq
  | maybe p ih =>
    simp only [denoteWith, maybeFns_eq]; exact fnsLe_alt (fnsLe_fmap _ ih) (FnsLe.refl _)
  | many p ih => exact fnsLe_many ih hn
  | attempt p ih => exact fnsLe_attempt ih
  | label p x ih => exact fnsLe_label x ih
  | recover p ih => exact fnsLe_recover ih
  | recoverWith p x vs ih =>
    simp only [denoteWith, recoverWithFns_eq]; exact fnsLe_recoverWithFn _ _ ih
  | recoverWithFn p fn lbl ih => exact fnsLe_recoverWithFn _ _ ih
  | block p ih => exact fnsLe_block ih
  | aligned p ih => exact fnsLe_aligned ih
  | indented delta p ih => exact fnsLe_indented delta ih
  | ref i => exact ht i

theorem table_le (env : Env τ ρ Γ) {n n' : Nat} (hn : n ≤ n') (i : ρ) :
    FnsLe (table env n i) (table env n' i) := by
  induction n generalizing n' i with
  | zero => exact ⟨fun _ _ _ => .inl rfl, fun _ _ _ _ _ => .inl rfl⟩
  | succ n ih =>
    obtain ⟨n', rfl⟩ : ∃ k, n' = k + 1 := ⟨n' - 1, by omega⟩
    simp only [table]
    split
    · exact FnsLe.refl _
    · exact denoteWith_le (by omega) (fun i => ih (by omega) i) _

/-- More fuel never changes an outcome. -/
theorem denote_le (env : Env τ ρ Γ) {n n' : Nat} (hn : n ≤ n') (p : P τ ρ Γ α) :
    FnsLe (denote env n p) (denote env n' p) :=
  denoteWith_le hn (table_le env hn) p

end Reparsec
