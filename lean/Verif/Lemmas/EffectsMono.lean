import Verif.Lemmas.Effects

/-!
# Callbacks with side effects: more fuel never changes an outcome
-/

namespace Reparsec

variable {σ : Type}

namespace Run

variable {α β : Type}

/-- `x` is `diverge` (out of fuel), or is the same as `y`. -/
def Le (x y : Run σ α) : Prop := x = .diverge ∨ x = y

theorem Le.refl (x : Run σ α) : x.Le x := .inr rfl

theorem Le.eq {x y : Run σ α} (h : x.Le y) (hx : x ≠ .diverge) : y = x := by
  rcases h with h | h
  · exact absurd h hx
  · exact h.symm

theorem Le.bind {x y : Run σ α} {f g : α → Act σ β} (h : x.Le y)
    (hf : ∀ a w, (f a w).Le (g a w)) : (x.bind f).Le (y.bind g) := by
  rcases h with rfl | rfl
  · exact .inl rfl
  · cases x with
    | diverge => exact .inl rfl
    | raise e w => exact .inr rfl
    | ret a w => exact hf a w

end Run

namespace Eff

variable {τ α β γ : Type}

/-- The order on pieces of code. -/
def ActLe (x y : Act σ α) : Prop := ∀ w, (x w).Le (y w)

theorem ActLe.refl (x : Act σ α) : ActLe x x := fun _ => .inr rfl

theorem ActLe.bind {x y : Act σ α} {f g : α → Act σ β} (h : ActLe x y)
    (hf : ∀ a, ActLe (f a) (g a)) : ActLe (x >>= f) (y >>= g) :=
  fun w => (h w).bind fun a w' => hf a w'

/-- The order on parse functions. -/
def FnsLe (f g : ParseFns σ τ α) : Prop :=
  (∀ s pos ctx, ActLe (f.fast s pos ctx) (g.fast s pos ctx)) ∧
  (∀ s pos ctx ins rem, ActLe (f.fn s pos ctx ins rem) (g.fn s pos ctx ins rem))

theorem FnsLe.refl (f : ParseFns σ τ α) : FnsLe f f :=
  ⟨fun _ _ _ => .refl _, fun _ _ _ _ _ => .refl _⟩

theorem contReps_le {ins : Int} {k k' : α → Nat → Ctx τ → Int → Act σ (Result τ β)}
    {merge : α → β → γ} (hk : ∀ v p c r, ActLe (k v p c r) (k' v p c r)) (l : List (Repair τ α)) :
    ActLe (contReps ins k merge l) (contReps ins k' merge l) := by
  induction l with
  | nil => exact .refl _
  | cons r rs ih =>
    simp only [contReps]
    exact (hk _ _ _ _).bind fun _ => ih.bind fun _ => .refl _

theorem continueParse_le {ra : Recovered τ α} {ins : Int}
    {k k' : α → Nat → Ctx τ → Int → Act σ (Result τ β)}
    {merge : α → β → γ} (hk : ∀ v p c r, ActLe (k v p c r) (k' v p c r)) :
    ActLe (continueParse ra ins k merge) (continueParse ra ins k' merge) :=
  (contReps_le hk _).bind fun _ => .refl _

theorem fnsLe_fmap {f f' : ParseFns σ τ α} (fn : Callback σ α β) (h : FnsLe f f') :
    FnsLe (fmapFns f fn) (fmapFns f' fn) :=
  ⟨fun _ _ _ => (h.1 _ _ _).bind fun _ => .refl _,
   fun _ _ _ _ _ => (h.2 _ _ _ _ _).bind fun _ => .refl _⟩

theorem altRecover_le {f f' g g' : ParseFns σ τ α} (hf : FnsLe f f') (hg : FnsLe g g')
    (s pos ctx ins rem loc ex) : ActLe (altRecover f g s pos ctx ins rem loc ex) (altRecover f' g' s pos ctx ins rem loc ex) := by
  cases rem with
  | none => exact .refl _
  | some rem =>
    exact (hf.2 _ _ _ _ _).bind fun _ => (hg.2 _ _ _ _ _).bind fun _ => .refl _

theorem altSecond_le {f f' g g' : ParseFns σ τ α} (hf : FnsLe f f') (hg : FnsLe g g')
    (s pos ctx ins rem loc ex) : ActLe (altSecond f g s pos ctx ins rem loc ex) (altSecond f' g' s pos ctx ins rem loc ex) := by
  refine (hg.2 _ _ _ _ _).bind fun r => ?_
  cases r with
  | ok r => exact .refl _
  | error e => simp only; split; exact .refl _; exact altRecover_le hf hg _ _ _ _ _ _ _
  | recovered e => simp only; split; exact .refl _; exact altRecover_le hf hg _ _ _ _ _ _ _

theorem fnsLe_alt {f f' g g' : ParseFns σ τ α} (hf : FnsLe f f') (hg : FnsLe g g') :
    FnsLe (altFns f g) (altFns f' g') := by
  constructor
  · intro s pos ctx
    refine (hf.1 _ _ _).bind fun r => ?_
    cases r with
    | ok r => exact .refl _
    | error e =>
      simp only; split
      · exact .refl _
      · exact (hg.1 _ _ _).bind fun _ => .refl _
  · intro s pos ctx ins rem
    refine (hf.2 _ _ _ _ _).bind fun r => ?_
    cases r with
    | ok r => exact .refl _
    | error e => simp only; split; exact .refl _; exact altSecond_le hf hg _ _ _ _ _ _ _
    | recovered e => simp only; split; exact .refl _; exact altSecond_le hf hg _ _ _ _ _ _ _

/-- The order on pieces of code that give a parser. -/
def GivesLe (x y : Act σ (ParseFns σ τ β)) : Prop :=
  ∀ w, x w = .diverge ∨ (∃ e w', x w = .raise e w' ∧ y w = .raise e w') ∨
    ∃ g g' w', x w = .ret g w' ∧ y w = .ret g' w' ∧ FnsLe g g'

theorem GivesLe.bind {x y : Act σ (ParseFns σ τ β)} {F F' : ParseFns σ τ β → Act σ γ}
    (h : GivesLe x y) (hF : ∀ g g', FnsLe g g' → ActLe (F g) (F' g')) :
    ActLe (x >>= F) (y >>= F') := by
  intro w
  simp only [Act.bind_apply]
  rcases h w with h | ⟨e, w', h, h'⟩ | ⟨g, g', w', h, h', hg⟩
  · rw [h]; exact .inl rfl
  · rw [h, h']; exact .refl _
  · rw [h, h']; exact hF g g' hg w'

theorem GivesLe.pure {g g' : ParseFns σ τ β} (h : FnsLe g g') :
    GivesLe (Pure.pure g) (Pure.pure g') := fun w => .inr (.inr ⟨g, g', w, rfl, rfl, h⟩)

theorem GivesLe.call {ι : Type} (c : Callback σ α ι) (a : α) {k k' : ι → ParseFns σ τ β}
    (h : ∀ i, FnsLe (k i) (k' i)) :
    GivesLe (do let i ← c.call a; return k i) (do let i ← c.call a; return k' i) := by
  intro w
  simp only [Act.bind_apply]
  cases c.call a w with
  | diverge => exact .inl rfl
  | raise e w' => exact .inr (.inl ⟨e, w', rfl, rfl⟩)
  | ret i w' => exact .inr (.inr ⟨k i, k' i, w', rfl, rfl, h i⟩)

theorem fnsLe_bind {f f' : ParseFns σ τ α} {g g' : α → Act σ (ParseFns σ τ β)} (hf : FnsLe f f')
    (hg : ∀ a, GivesLe (g a) (g' a)) : FnsLe (bindFns f g) (bindFns f' g') := by
  constructor
  · intro s pos ctx
    refine (hf.1 _ _ _).bind fun r => ?_
    cases r with
    | error e => exact .refl _
    | ok r => exact (hg _).bind fun _ _ h => (h.1 _ _ _).bind fun _ => .refl _
  · intro s pos ctx ins rem
    refine (hf.2 _ _ _ _ _).bind fun r => ?_
    cases r with
    | error e => exact .refl _
    | ok r => exact (hg _).bind fun _ _ h => (h.2 _ _ _ _ _).bind fun _ => .refl _
    | recovered r =>
      exact continueParse_le fun _ _ _ _ => (hg _).bind fun _ _ h => h.2 _ _ _ _ _

theorem fnsLe_map {f f' : ParseFns σ τ α} (fn : α → β) (h : FnsLe f f') :
    FnsLe (mapFns f fn) (mapFns f' fn) :=
  ⟨fun _ _ _ => (h.1 _ _ _).bind fun _ => .refl _,
   fun _ _ _ _ _ => (h.2 _ _ _ _ _).bind fun _ => .refl _⟩

theorem manyFastLoop_le {p p' : FastFn σ τ α} (h : ∀ s pos ctx, ActLe (p s pos ctx) (p' s pos ctx))
    (s : List τ) {n n' : Nat} (hn : n ≤ n') (pos ctx c v) :
    ActLe (manyFastLoop p s n pos ctx c v) (manyFastLoop p' s n' pos ctx c v) := by
  induction n generalizing n' pos ctx c v with
  | zero => exact fun _ => .inl rfl
  | succ n ih =>
    obtain ⟨n', rfl⟩ : ∃ k, n' = k + 1 := ⟨n' - 1, by omega⟩
    refine (h _ _ _).bind fun r => ?_
    cases r with
    | ok r =>
      simp only; split
      · exact ih (by omega) _ _ _ _
      · exact .refl _
    | error e => exact .refl _

theorem manyLoop_le {p p' : Fn σ τ α}
    (h : ∀ s pos ctx ins rem, ActLe (p s pos ctx ins rem) (p' s pos ctx ins rem))
    (s : List τ) (ins : Int) {n n' : Nat} (hn : n ≤ n') (pos ctx c v) :
    ActLe (manyLoop p s ins n pos ctx c v) (manyLoop p' s ins n' pos ctx c v) := by
  induction n generalizing n' pos ctx c v with
  | zero => exact fun _ => .inl rfl
  | succ n ih =>
    obtain ⟨n', rfl⟩ : ∃ k, n' = k + 1 := ⟨n' - 1, by omega⟩
    refine (h _ _ _ _ _).bind fun r => ?_
    cases r with
    | ok r =>
      simp only; split
      · exact ih (by omega) _ _ _ _
      · exact .refl _
    | error e => exact .refl _
    | recovered r => exact continueParse_le fun _ _ _ _ => ih (by omega) _ _ _ _

theorem fnsLe_many {f f' : ParseFns σ τ α} (h : FnsLe f f') {n n' : Nat} (hn : n ≤ n') :
    FnsLe (manyFns n f) (manyFns n' f') :=
  ⟨fun s _ _ => manyFastLoop_le h.1 s hn _ _ _ _, fun s _ _ ins _ => manyLoop_le h.2 s ins hn _ _ _ _⟩

theorem fnsLe_attempt {f f' : ParseFns σ τ α} (h : FnsLe f f') :
    FnsLe (attemptFns f) (attemptFns f') := by
  constructor
  · intro s pos ctx
    exact (h.1 _ _ _).bind fun _ => .refl _
  · intro s pos ctx ins rem
    cases rem with
    | none => exact (h.1 _ _ _).bind fun _ => .refl _
    | some rem => exact h.2 _ _ _ _ _

theorem fnsLe_label {f f' : ParseFns σ τ α} (x : String) (h : FnsLe f f') :
    FnsLe (labelFns f x) (labelFns f' x) :=
  ⟨fun _ _ _ => (h.1 _ _ _).bind fun _ => .refl _,
   fun _ _ _ _ _ => (h.2 _ _ _ _ _).bind fun _ => .refl _⟩

theorem fnsLe_recover {f f' : ParseFns σ τ α} (h : FnsLe f f') :
    FnsLe (recoverFns f) (recoverFns f') :=
  ⟨h.1, fun _ _ _ _ _ => (h.2 _ _ _ _ _).bind fun _ => .refl _⟩

theorem fnsLe_recoverWithFn {f f' : ParseFns σ τ α} (fn : Callback σ (List τ × Nat) α)
    (lbl : α → String) (h : FnsLe f f') :
    FnsLe (recoverWithFnFns f fn lbl) (recoverWithFnFns f' fn lbl) := by
  refine ⟨h.1, fun s pos ctx ins rem => ?_⟩
  cases rem with
  | none => exact h.2 _ _ _ _ _
  | some rem => exact (h.2 _ _ _ _ _).bind fun _ => .refl _

theorem fnsLe_recoverWith {f f' : ParseFns σ τ α} (x : α) (vs : String) (h : FnsLe f f') :
    FnsLe (recoverWithFns f x vs) (recoverWithFns f' x vs) := by
  refine ⟨h.1, fun s pos ctx ins rem => ?_⟩
  cases rem with
  | none => exact h.2 _ _ _ _ _
  | some rem => exact (h.2 _ _ _ _ _).bind fun _ => .refl _

theorem fnsLe_block {f f' : ParseFns σ τ α} (h : FnsLe f f') :
    FnsLe (blockFns f) (blockFns f') :=
  ⟨fun _ _ _ => (h.1 _ _ _).bind fun _ => .refl _,
   fun _ _ _ _ _ => (h.2 _ _ _ _ _).bind fun _ => .refl _⟩

theorem fnsLe_aligned {f f' : ParseFns σ τ α} (h : FnsLe f f') :
    FnsLe (alignedFns f) (alignedFns f') := by
  constructor
  · intro s pos ctx; simp only [alignedFns]; split; exact h.1 _ _ _; exact .refl _
  · intro s pos ctx ins rem; simp only [alignedFns]; split; exact h.2 _ _ _ _ _; exact .refl _

theorem fnsLe_indented {f f' : ParseFns σ τ α} (d : Int) (h : FnsLe f f') :
    FnsLe (indentedFns d f) (indentedFns d f') := by
  constructor
  · intro s pos ctx; simp only [indentedFns]; split
    · exact (h.1 _ _ _).bind fun _ => .refl _
    · exact .refl _
  · intro s pos ctx ins rem; simp only [indentedFns]; split
    · exact (h.2 _ _ _ _ _).bind fun _ => .refl _
    · exact .refl _

variable {ρ : Type} {Γ : ρ → Type} [BEq τ]

theorem denoteWith_le {n n' : Nat} (hn : n ≤ n') {t t' : (i : ρ) → ParseFns σ τ (Γ i)}
    (ht : ∀ i, FnsLe (t i) (t' i)) (p : P σ τ ρ Γ α) :
    FnsLe (denoteWith n t p) (denoteWith n' t' p) := by
  induction p with
  | pure | pureFn | unexpected | eof | satisfy | sym | literal | regexp => exact FnsLe.refl _
  | fmap p fn ih => exact fnsLe_fmap fn ih
  | alt p q ihp ihq => exact fnsLe_alt ihp ihq
  | bind p c k ihp ihk => exact fnsLe_bind ihp fun a => .call c a ihk
  | seqWith p q merge ihp ihq =>
    simp only [denoteWith, seqFns_eq]; exact fnsLe_bind ihp fun _ => .pure (fnsLe_map _ ihq)
  | maybe p ih =>
    simp only [denoteWith, maybeFns_eq]; exact fnsLe_alt (fnsLe_map _ ih) (FnsLe.refl _)
  | many p ih => exact fnsLe_many ih hn
  | attempt p ih => exact fnsLe_attempt ih
  | label p x ih => exact fnsLe_label x ih
  | recover p ih => exact fnsLe_recover ih
  | recoverWith p x vs ih => exact fnsLe_recoverWith _ _ ih
  | recoverWithFn p fn lbl ih => exact fnsLe_recoverWithFn _ _ ih
  | block p ih => exact fnsLe_block ih
  | aligned p ih => exact fnsLe_aligned ih
  | indented delta p ih => exact fnsLe_indented delta ih
  | ref i => exact ht i

theorem table_le (env : Env σ τ ρ Γ) {n n' : Nat} (hn : n ≤ n') (i : ρ) :
    FnsLe (table env n i) (table env n' i) := by
  induction n generalizing n' i with
  | zero => exact ⟨fun _ _ _ _ => .inl rfl, fun _ _ _ _ _ _ => .inl rfl⟩
  | succ n ih =>
    obtain ⟨n', rfl⟩ : ∃ k, n' = k + 1 := ⟨n' - 1, by omega⟩
    simp only [table]
    split
    · exact FnsLe.refl _
    · exact denoteWith_le (by omega) (fun i => ih (by omega) i) _

/-- More fuel never changes an outcome. -/
theorem denote_le (env : Env σ τ ρ Γ) {n n' : Nat} (hn : n ≤ n') (p : P σ τ ρ Γ α) :
    FnsLe (denote env n p) (denote env n' p) :=
  denoteWith_le hn (table_le env hn) p

end Eff

end Reparsec
