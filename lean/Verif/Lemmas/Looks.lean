import Verif.Spec.Looks
import Verif.Lemmas.SoundAll

/-!
# Expected lists of repairs: the induction
-/

namespace Reparsec

variable {τ ρ : Type} {Γ : ρ → Type} {α β γ : Type} {s : List τ}

/-- The expected lists of the operations: `L es l q`: `l` is looked for at `q` after the edits `es`. -/
def OpsLook (n : Nat) (L : List Step → Option String → Nat → Prop) (pos : Nat) (es : List Step)
    (ops : List OpItem) : Prop :=
  ∀ i e op, es[i]? = some e → ops[i]? = some op → NoDrop n (edits (es.take i)) →
    (∀ l ∈ op.expected, L (es.take i) (some l) e.edit.pos) ∧
    (op.consumed = true ↔ i ≠ 0 ∨ e.edit.pos ≠ pos) ∧ (i = 0 → ∃ l, L [] l e.edit.pos)

theorem OpsLook.mono {n : Nat} {L L' : List Step → Option String → Nat → Prop} {pos : Nat}
    {es : List Step} {ops : List OpItem} (h : OpsLook n L pos es ops)
    (hl : ∀ es l q, L es l q → L' es l q) : OpsLook n L' pos es ops := by
  intro i e op h1 h2 h3
  obtain ⟨h4, h5, h6⟩ := h i e op h1 h2 h3
  exact ⟨fun l hm => hl _ _ _ (h4 l hm), h5, fun h0 => (h6 h0).imp fun l => hl _ _ _⟩

theorem NoDrop.left {n : Nat} {a b : List Edit} (h : NoDrop n (a ++ b)) : NoDrop n a :=
  fun e he => h e (List.mem_append_left _ he)

theorem NoDrop.right {n : Nat} {a b : List Edit} (h : NoDrop n (a ++ b)) : NoDrop n b :=
  fun e he => h e (List.mem_append_right _ he)

theorem OpsLook.set {n : Nat} {L L' : List Step → Option String → Nat → Prop} {pos : Nat}
    {es : List Step} {ops : List OpItem} {ex : List String} (h : OpsLook n L pos es ops)
    (hl : ∀ es l q, L es l q → es ≠ [] ∨ q ≠ pos → L' es l q)
    (hs : ∀ l, L [] l pos → L' [] l pos ∨ ∃ l', L' [] l' pos)
    (hx : (∃ l, L [] l pos) → ∀ l ∈ ex, L' [] (some l) pos) :
    OpsLook n L' pos es (opsSetExpected ops ex) := by
  intro i e op h1 h2 h3
  simp only [opsSetExpected, List.getElem?_map, Option.map_eq_some_iff] at h2
  obtain ⟨op', h2, rfl⟩ := h2
  obtain ⟨h4, h5, h6⟩ := h i e op' h1 h2 h3
  have hne : i ≠ 0 → es.take i ≠ [] := by
    intro h0 h
    have := (List.getElem?_eq_some_iff.1 h1).1
    rcases List.take_eq_nil_iff.1 h with h | h
    · exact h0 h
    · subst h; simp at this
  unfold OpItem.setExpected
  by_cases hc : op'.consumed = true
  · have hd := h5.1 hc
    simp only [hc, if_true]
    refine ⟨fun l hm => hl _ _ _ (h4 l hm) (hd.imp_left hne), by simp [hd], fun h0 => ?_⟩
    obtain ⟨l, hl'⟩ := h6 h0
    exact ⟨l, hl _ _ _ hl' (hd.imp_left (absurd h0))⟩
  · have hd : i = 0 ∧ e.edit.pos = pos := by
      have := mt h5.2 hc
      simpa using this
    obtain ⟨rfl, hp⟩ := hd
    rw [if_neg hc]
    simp only [List.take_zero, hp]
    obtain ⟨l0, hl0⟩ := h6 rfl
    rw [hp] at hl0
    refine ⟨fun l hm => hx ⟨l0, hl0⟩ l hm, by simpa using hc, fun _ => ?_⟩
    rcases hs _ hl0 with h | h
    · exact ⟨_, h⟩
    · exact h

theorem take_append_len {α : Type} (a b : List α) (i : Nat) (h : a.length ≤ i) :
    (a ++ b).take i = a ++ b.take (i - a.length) := by
  rw [List.take_append, List.take_of_length_le h]

/-- A successful parse from `pos` to `pos1`, then operations. -/
theorem OpsLook.afterOk {n : Nat} {L L' : List Step → Option String → Nat → Prop}
    {pos pos1 stop : Nat} {es : List Step} {ops : List OpItem} {ex : List String} {c : Bool}
    (h : OpsLook n L pos1 es ops) (hle : pos ≤ pos1) (hc : c = decide (pos < pos1))
    (ho : InOrder pos1 (edits es) stop)
    (hl : ∀ es l q, L es l q → L' es l q) (hx : ∀ l ∈ ex, L' [] (some l) pos1) :
    OpsLook n L' pos es (opsPrependExpected ops ex c) := by
  intro i e op h1 h2 h3
  simp only [opsPrependExpected, List.getElem?_map, Option.map_eq_some_iff] at h2
  obtain ⟨op', h2, rfl⟩ := h2
  obtain ⟨h4, h5, h6⟩ := h i e op' h1 h2 h3
  have hex : i = 0 → ∃ l, L' [] l e.edit.pos := fun h0 => (h6 h0).imp fun l => hl _ _ _
  unfold OpItem.prependExpected
  by_cases hcc : op'.consumed = true
  · have hd := h5.1 hcc
    simp only [hcc, if_true]
    refine ⟨fun l hm => hl _ _ _ (h4 l hm), ?_, hex⟩
    simp only [true_iff]
    by_cases h0 : i = 0
    · subst h0
      right
      have hne : e.edit.pos ≠ pos1 := by simpa using hd
      cases es with
      | nil => simp at h1
      | cons e' es' =>
        simp at h1; subst h1
        have := ho.1
        simp only at this
        omega
    · exact .inl h0
  · have hd : i = 0 ∧ e.edit.pos = pos1 := by
      have := mt h5.2 hcc
      simpa using this
    obtain ⟨rfl, hp⟩ := hd
    simp only [Bool.not_eq_true] at hcc
    simp only [hcc, Bool.false_eq_true, if_false, Bool.false_or, hc, decide_eq_true_eq, hp,
      List.take_zero] at h4 ⊢
    refine ⟨fun l hm => ?_, by simp; omega, fun _ => by simpa only [hp] using hex rfl⟩
    rcases List.mem_append.1 hm with hm | hm
    · exact hx l hm
    · exact hl _ _ _ (h4 l hm)

/-- Operations, then more operations. -/
theorem OpsLook.append {n : Nat} {L L1 L2 : List Step → Option String → Nat → Prop}
    {pos pos1 : Nat} {es es' : List Step} {ops ops' : List OpItem} {ex : List String} {c : Bool}
    (h : OpsLook n L1 pos es ops) (h' : OpsLook n L2 pos1 es' ops')
    (hlen : es.length = ops.length) (hne : es ≠ [])
    (hl1 : ∀ es l q, L1 es l q → L es l q)
    (hl2 : ∀ es' l q, L2 es' l q → L (es ++ es') l q)
    (hx : NoDrop n (edits es) → c = true ∧ ∀ l ∈ ex, L es (some l) pos1) :
    OpsLook n L pos (es ++ es') (ops ++ opsPrependExpected ops' ex c) := by
  intro i e op h1 h2 h3
  by_cases hi : i < es.length
  · rw [List.getElem?_append_left hi] at h1
    rw [List.getElem?_append_left (by omega)] at h2
    rw [List.take_append_of_le_length (by omega)] at h3 ⊢
    obtain ⟨h4, h5, h6⟩ := h i e op h1 h2 h3
    exact ⟨fun l hm => hl1 _ _ _ (h4 l hm), h5, fun h0 => (h6 h0).imp fun l => hl1 _ _ _⟩
  · have hge : es.length ≤ i := by omega
    have h0 : i ≠ 0 := by
      rintro rfl
      exact hne (List.length_eq_zero_iff.1 (by omega))
    rw [List.getElem?_append_right hge] at h1
    rw [List.getElem?_append_right (by omega), ← hlen] at h2
    rw [take_append_len _ _ _ hge] at h3 ⊢
    rw [edits_append] at h3
    simp only [opsPrependExpected, List.getElem?_map, Option.map_eq_some_iff] at h2
    obtain ⟨op', h2, rfl⟩ := h2
    obtain ⟨h4, h5, h6⟩ := h' _ e op' h1 h2 h3.right
    obtain ⟨rfl, hx'⟩ := hx h3.left
    unfold OpItem.prependExpected
    by_cases hcc : op'.consumed = true
    · simp only [hcc, if_true]
      exact ⟨fun l hm => hl2 _ _ _ (h4 l hm), by simp [h0], fun h => absurd h h0⟩
    · have hd : i - es.length = 0 ∧ e.edit.pos = pos1 := by
        have := mt h5.2 hcc
        simpa using this
      obtain ⟨hz, hp⟩ := hd
      simp only [Bool.not_eq_true] at hcc
      simp only [hcc, Bool.false_eq_true, if_false, Bool.false_or, hz, hp, List.take_zero,
        List.append_nil] at h4 ⊢
      refine ⟨fun l hm => ?_, by simp [h0], fun h => absurd h h0⟩
      rcases List.mem_append.1 hm with hm | hm
      · exact hx' l hm
      · simpa using hl2 _ _ _ (h4 l hm)

theorem OpsMatch.length {rel : Nat → Loc → Prop} {es : List Edit} {is : List OpItem}
    (h : OpsMatch rel es is) : es.length = is.length := by
  induction h with
  | nil => rfl
  | cons _ _ _ ih => simp [ih]

/-! ### What the induction carries -/

section
variable [BEq τ]

/-- `p` at `pos`. -/
abbrev LooksAt (env : Env τ ρ Γ) (D : LocDisc s) (p : P τ ρ Γ α) (m pos : Nat) :
    List Step → Option String → Nat → Prop :=
  fun es l q => Looks env s D.col p m pos es l q

structure RepLook (env : Env τ ρ Γ) (D : LocDisc s) (p : P τ ρ Γ α) (m pos : Nat)
    (rem : Option Int) (r : Repair τ α) (es : List Step) : Prop where
  der : Der env s D.col p m pos es r.value r.pos
  ops : OpsMatch D.rel (edits es) r.ops
  ctx : CtxOK D r.ctx r.pos
  ne : es ≠ []
  look : OpsLook s.length (LooksAt env D p m pos) pos es r.ops
  rest : NoDrop s.length (edits es) →
    r.consumed = true ∧ ∀ l ∈ r.expected, LooksAt env D p m pos es (some l) r.pos
  far : rem = none → ∀ e, es[0]? = some e → e.edit.pos ≠ pos

/-- An error, or a recovered result, with its expected list. -/
def ErrLook (env : Env τ ρ Γ) (D : LocDisc s) (p : P τ ρ Γ α) (m pos : Nat)
    (expected : List String) (consumed : Bool) : Prop :=
  consumed = false → (∃ l, LooksAt env D p m pos [] l pos) ∧
    ∀ l ∈ expected, LooksAt env D p m pos [] (some l) pos

structure OkLook (env : Env τ ρ Γ) (D : LocDisc s) (p : P τ ρ Γ α) (m pos : Nat) (r : Ok τ α) :
    Prop where
  der : Der env s D.col p m pos [] r.value r.pos
  ctx : CtxOK D r.ctx r.pos
  look : ∀ l ∈ r.expected, LooksAt env D p m pos [] (some l) r.pos

def ResLook (env : Env τ ρ Γ) (D : LocDisc s) (p : P τ ρ Γ α) (m pos : Nat) (rem : Option Int) :
    Result τ α → Prop
  | .ok r => OkLook env D p m pos r
  | .error e => ErrLook env D p m pos e.expected e.consumed
  | .recovered r => ErrLook env D p m pos r.expected r.consumed ∧
      ∀ x ∈ r.repairs, ∃ es, RepLook env D p m pos rem x es

def LookAt (env : Env τ ρ Γ) (D : LocDisc s) (p : P τ ρ Γ α) (f : ParseFns τ α) : Prop :=
  ∀ pos ctx ins rem r, pos ≤ s.length → CtxOK D ctx pos → f.fn s pos ctx ins rem = .ret r →
    ResLook env D p ctx.mark pos rem r

variable {env : Env τ ρ Γ} {D : LocDisc s}

theorem ErrLook.mono {p : P τ ρ Γ α} {p' : P τ ρ Γ β} {m m' i : Nat} {ex : List String} {c : Bool}
    (h : ErrLook env D p m i ex c)
    (hl : ∀ es l q, LooksAt env D p m i es l q → LooksAt env D p' m' i es l q) :
    ErrLook env D p' m' i ex c := by
  intro hc
  obtain ⟨⟨l, h1⟩, h2⟩ := h hc
  exact ⟨⟨l, hl _ _ _ h1⟩, fun l hm => hl _ _ _ (h2 l hm)⟩

theorem RepLook.mono {p p' : P τ ρ Γ α} {m m' i : Nat} {rem : Option Int} {r : Repair τ α}
    {es : List Step} (h : RepLook env D p m i rem r es)
    (hd : ∀ es v j, Der env s D.col p m i es v j → Der env s D.col p' m' i es v j)
    (hl : ∀ es l q, LooksAt env D p m i es l q → LooksAt env D p' m' i es l q) :
    RepLook env D p' m' i rem r es :=
  ⟨hd _ _ _ h.der, h.ops, h.ctx, h.ne, h.look.mono hl,
    fun hn => ⟨(h.rest hn).1, fun l hm => hl _ _ _ ((h.rest hn).2 l hm)⟩, h.far⟩

theorem ResLook.mono {p p' : P τ ρ Γ α} {m m' i : Nat} {rem : Option Int} {r : Result τ α}
    (h : ResLook env D p m i rem r)
    (hd : ∀ es v j, Der env s D.col p m i es v j → Der env s D.col p' m' i es v j)
    (hl : ∀ es l q, LooksAt env D p m i es l q → LooksAt env D p' m' i es l q) :
    ResLook env D p' m' i rem r := by
  cases r with
  | ok r => exact ⟨hd _ _ _ h.der, h.ctx, fun l hm => hl _ _ _ (h.look l hm)⟩
  | error e => exact ErrLook.mono h hl
  | recovered r =>
    refine ⟨h.1.mono hl, fun x hx => ?_⟩
    obtain ⟨es, hs⟩ := h.2 x hx
    exact ⟨es, hs.mono hd hl⟩

theorem ResLook.weaken {p : P τ ρ Γ α} {m i : Nat} {rem' : Option Int} {r : Result τ α}
    (h : ResLook env D p m i none r) : ResLook env D p m i rem' r := by
  cases r with
  | ok r => exact h
  | error e => exact h
  | recovered r =>
    refine ⟨h.1, fun x hx => ?_⟩
    obtain ⟨es, hs⟩ := h.2 x hx
    exact ⟨es, hs.der, hs.ops, hs.ctx, hs.ne, hs.look, hs.rest, fun _ => hs.far rfl⟩

theorem LookAt.transfer {p p' : P τ ρ Γ α} {f : ParseFns τ α} (h : LookAt env D p f)
    (hd : ∀ m i es v j, Der env s D.col p m i es v j → Der env s D.col p' m i es v j)
    (hl : ∀ m i es l q, Looks env s D.col p m i es l q → Looks env s D.col p' m i es l q) :
    LookAt env D p' f :=
  fun pos ctx ins rem r hp hc hr => (h pos ctx ins rem r hp hc hr).mono (hd _ _) (hl _ _)

/-- Replacing the expected lists of what has not consumed input. -/
theorem RepLook.set {p p' : P τ ρ Γ α} {m i : Nat} {rem : Option Int} {r : Repair τ α}
    {es : List Step} {ex : List String} (h : RepLook env D p m i rem r es)
    (hd : ∀ es v j, Der env s D.col p m i es v j → Der env s D.col p' m i es v j)
    (hl : ∀ es l q, LooksAt env D p m i es l q → es ≠ [] ∨ q ≠ i → LooksAt env D p' m i es l q)
    (hs : ∀ l, LooksAt env D p m i [] l i → ∃ l', LooksAt env D p' m i [] l' i)
    (hx : (∃ l, LooksAt env D p m i [] l i) → ∀ l ∈ ex, LooksAt env D p' m i [] (some l) i) :
    RepLook env D p' m i rem (r.setExpected ex) es := by
  refine ⟨hd _ _ _ h.der, h.ops.set _, h.ctx, h.ne, h.look.set hl (fun l h => .inr (hs l h)) hx,
    fun hn => ?_, h.far⟩
  obtain ⟨h1, h2⟩ := h.rest hn
  refine ⟨h1, fun l hm => ?_⟩
  simp only [Repair.setExpected, h1, if_true] at hm
  exact hl _ _ _ (h2 l hm) (.inl h.ne)

/-! ### Closure -/

theorem look_fmap {p : P τ ρ Γ α} {f : ParseFns τ α} (fn : α → Except Exn β)
    (h : LookAt env D p f) : LookAt env D (.fmap p fn) (fmapFns f fn) := by
  intro pos ctx ins rem r hp hc hr
  simp only [fmapFns, fmapFn, Out.bind_def, Out.bind_eq_ret] at hr
  obtain ⟨x, h1, h2⟩ := hr
  have hx := h pos ctx ins rem x hp hc h1
  rcases Result.fmapM_ret h2 with ⟨o, v, rfl, hv, rfl⟩ | ⟨e, rfl, rfl⟩ |
    ⟨rr, reps, rfl, h3, rfl⟩
  · exact ⟨.fmap hx.der hv, hx.ctx, fun l hm => .fmap (hx.look l hm)⟩
  · exact ErrLook.mono hx fun _ _ _ => .fmap
  · refine ⟨hx.1.mono fun _ _ _ => .fmap, fun y hy => ?_⟩
    obtain ⟨z, hz, v, hv, rfl⟩ := repairsFmapM_mem h3 hy
    obtain ⟨es, hs⟩ := hx.2 z hz
    exact ⟨es, .fmap hs.der hv, hs.ops, hs.ctx, hs.ne, hs.look.mono fun _ _ _ => .fmap,
      fun hn => ⟨(hs.rest hn).1, fun l hm => .fmap ((hs.rest hn).2 l hm)⟩, hs.far⟩

theorem look_alt {p q : P τ ρ Γ α} {f g : ParseFns τ α} (hg' : Framed g)
    (hf : LookAt env D p f) (hg : LookAt env D q g) : LookAt env D (.alt p q) (altFns f g) := by
  have hl : LookAt env D (.alt p q) f :=
    hf.transfer (fun _ _ _ _ _ h => .altL h) fun _ _ _ _ _ h => .altL h
  have hr : LookAt env D (.alt p q) g :=
    hg.transfer (fun _ _ _ _ _ h => .altR h) fun _ _ _ _ _ h => .altR h
  have setx : ∀ {m pos : Nat} {rem : Option Int} {r : Recovered τ α} {ex : List String},
      ErrLook env D (.alt p q) m pos ex false →
      (∀ x ∈ r.repairs, ∃ es, RepLook env D (.alt p q) m pos rem x es) →
      ResLook env D (.alt p q) m pos rem (.recovered (r.setExpected ex)) := by
    intro m pos rem r ex hx h
    refine ⟨?_, ?_⟩
    · intro hc
      have hc : r.consumed = false := hc
      simp only [Recovered.setExpected, hc, Bool.false_eq_true, if_false]
      exact hx rfl
    · simp only [Recovered.setExpected, List.mem_map]
      rintro _ ⟨x, hm, rfl⟩
      obtain ⟨es, hs⟩ := h x hm
      exact ⟨es, hs.set (fun _ _ _ h => h) (fun _ _ _ h _ => h) (fun l h => ⟨l, h⟩)
        fun _ => (hx rfl).2⟩
  have hrec : ∀ pos ctx ins rem loc ex r, pos ≤ s.length → CtxOK D ctx pos →
      ErrLook env D (.alt p q) ctx.mark pos ex false →
      altRecover f g s pos ctx ins rem loc ex = .ret r →
      ResLook env D (.alt p q) ctx.mark pos rem r := by
    intro pos ctx ins rem loc ex r hp hc hx h
    cases rem with
    | none => simp [altRecover] at h; subst h; exact hx
    | some rem =>
      rcases altRecover_ret h with ⟨ra, rb, h3, h4, rfl⟩ | ⟨ra, _, h3, _, _, rfl⟩ |
        ⟨_, rb, _, _, h4, rfl⟩ | ⟨_, _, _, _, _, _, rfl⟩
      · refine setx hx fun x hm => ?_
        rw [joinRepairs_repairs] at hm
        rcases mem_joinReps hm with hm | hm
        · exact (hl pos ctx ins _ _ hp hc h3).2 x hm
        · exact (hr pos ctx ins _ _ hp hc h4).2 x hm
      · exact setx hx (hl pos ctx ins _ _ hp hc h3).2
      · exact setx hx (hr pos ctx ins _ _ hp hc h4).2
      · exact hx
  have both : ∀ {m pos : Nat} {ex ex' : List String}, ErrLook env D (.alt p q) m pos ex false →
      ErrLook env D (.alt p q) m pos ex' false →
      ErrLook env D (.alt p q) m pos (ex ++ ex') false := by
    intro m pos ex ex' h h' hc
    refine ⟨(h hc).1, fun l hm => ?_⟩
    rcases List.mem_append.1 hm with hm | hm
    · exact (h hc).2 l hm
    · exact (h' hc).2 l hm
  have sec : ∀ pos ctx ins rem loc ex r, pos ≤ s.length → CtxOK D ctx pos →
      ErrLook env D (.alt p q) ctx.mark pos ex false →
      altSecond f g s pos ctx ins rem loc ex = .ret r →
      ResLook env D (.alt p q) ctx.mark pos rem r := by
    intro pos ctx ins rem loc ex r hp hc hx h
    simp only [altSecond, Out.bind_def, Out.bind_eq_ret] at h
    obtain ⟨y, h1, h2⟩ := h
    have hy := (hr pos ctx ins _ _ hp hc h1).weaken (rem' := rem)
    cases y with
    | ok o =>
      have hy : OkLook .. := hy
      have hfr : OkFrame .. := hg' s pos ctx ins none _ hp h1
      simp only at h2
      split at h2
      · simp at h2; subst h2; exact hy
      · next hcc =>
        simp at h2; subst h2
        have hcons := hfr.consumed
        have hpos : o.pos = pos := by
          have := hfr.lo
          simp only [Bool.not_eq_true] at hcc
          rw [hcc] at hcons
          simp at hcons; omega
        refine ⟨by simpa using hy.der, by simpa using hy.ctx, fun l hm => ?_⟩
        rw [Ok.setExpected_pos]
        simp only [Ok.setExpected, hcc] at hm
        rcases List.mem_append.1 hm with hm | hm
        · rw [hpos]; exact (hx rfl).2 l hm
        · exact hy.look l hm
    | error e =>
      simp only at h2
      split at h2
      · simp at h2; subst h2; exact hy
      · next hcc =>
        simp only [Bool.not_eq_true] at hcc
        have hy : ErrLook env D (.alt p q) ctx.mark pos e.expected e.consumed := hy
        rw [hcc] at hy
        exact hrec _ _ _ _ _ _ _ hp hc (both hx hy) h2
    | recovered e =>
      simp only at h2
      split at h2
      · simp at h2; subst h2; exact hy
      · next hcc =>
        simp only [Bool.not_eq_true] at hcc
        have hy := hy.1
        rw [hcc] at hy
        exact hrec _ _ _ _ _ _ _ hp hc (both hx hy) h2
  intro pos ctx ins rem r hp hc h
  simp only [altFns, altFn, Out.bind_def, Out.bind_eq_ret] at h
  obtain ⟨x, h1, h2⟩ := h
  have hx := (hl pos ctx ins _ _ hp hc h1).weaken (rem' := rem)
  cases x with
  | ok o => simp at h2; subst h2; exact hx
  | error e =>
    simp only at h2
    split at h2
    · simp at h2; subst h2; exact hx
    · next hcc =>
      simp only [Bool.not_eq_true] at hcc
      have hx : ErrLook env D (.alt p q) ctx.mark pos e.expected e.consumed := hx
      rw [hcc] at hx
      exact sec _ _ _ _ _ _ _ hp hc hx h2
  | recovered e =>
    simp only at h2
    split at h2
    · simp at h2; subst h2; exact hx
    · next hcc =>
      simp only [Bool.not_eq_true] at hcc
      have hx := hx.1
      rw [hcc] at hx
      exact sec _ _ _ _ _ _ _ hp hc hx h2

theorem look_contOne {p : P τ ρ Γ α} {q : P τ ρ Γ β} {p' : P τ ρ Γ γ} {m pos pos0 : Nat}
    {ins : Int} {r : Repair τ α} {es : List Step} {rb : Result τ β} {merge : α → β → γ}
    {rem rem1 rem2 rem' : Option Int}
    (hd : ∀ es' v j, Der env s D.col q m r.pos es' v j →
      Der env s D.col p' m pos0 (es ++ es') (merge r.value v) j)
    (hl1 : ∀ es l x, Looks env s D.col p m pos es l x → Looks env s D.col p' m pos0 es l x)
    (hl2 : ∀ es' l x, Looks env s D.col q m r.pos es' l x →
      Looks env s D.col p' m pos0 (es ++ es') l x)
    (hlook : OpsLook s.length (LooksAt env D p' m pos0) pos0 es r.ops)
    (hfar : rem = none → ∀ e, es[0]? = some e → e.edit.pos ≠ pos0)
    (ha : RepLook env D p m pos rem1 r es)
    (hfb : ResFrame s r.pos r.ctx rem' rb)
    (hb : ResLook env D q m r.pos rem2 rb) :
    ∀ x ∈ contOne ins merge r rb, ∃ es', RepLook env D p' m pos0 rem x es' := by
  cases rb with
  | error e => simp [contOne]
  | ok rb =>
    have hb : OkLook .. := hb
    have hfb : OkFrame .. := hfb
    simp only [contOne, List.mem_singleton]
    rintro _ rfl
    refine ⟨es, by simpa using hd _ _ _ hb.der, ha.ops, hb.ctx, ha.ne, hlook, fun hn => ?_,
      hfar⟩
    obtain ⟨h1, h2⟩ := ha.rest hn
    refine ⟨by simp [h1], fun l hm => ?_⟩
    simp only [appendExpected] at hm
    split at hm
    · simpa using hl2 _ _ _ (hb.look l hm)
    · next hcc =>
      have hpos : rb.pos = r.pos := by
        have hcons := hfb.consumed
        have := hfb.lo
        simp only [Bool.not_eq_true] at hcc
        rw [hcc] at hcons
        simp at hcons; omega
      rcases List.mem_append.1 hm with hm | hm
      · simp only [hpos]; exact hl1 _ _ _ (h2 l hm)
      · simpa using hl2 _ _ _ (hb.look l hm)
  | recovered rb =>
    simp only [contOne, List.mem_map]
    rintro _ ⟨rr, hr, rfl⟩
    obtain ⟨es', h⟩ := hb.2 rr hr
    refine ⟨es ++ es', hd _ _ _ h.der, by
      rw [edits_append]; exact ha.ops.append (h.ops.prepend _ _), h.ctx, by simp [ha.ne],
      ?_, fun hn => ?_, fun h0 e he => hfar h0 e ?_⟩
    · refine hlook.append h.look ?_ ha.ne (fun _ _ _ h => h) hl2 fun hn => ?_
      · have := ha.ops.length
        simpa [edits] using this
      · obtain ⟨h1, h2⟩ := ha.rest hn
        exact ⟨h1, fun l hm => hl1 _ _ _ (h2 l hm)⟩
    · rw [edits_append] at hn
      obtain ⟨h1, h2⟩ := h.rest hn.right
      refine ⟨by simp [h1], fun l hm => ?_⟩
      simp only [appendExpected, h1, if_true] at hm
      exact hl2 _ _ _ (h2 l hm)
    · rwa [List.getElem?_append_left (List.length_pos_iff.2 ha.ne)] at he

theorem look_bind {p : P τ ρ Γ α} {k : α → P τ ρ Γ β} {f : ParseFns τ α} {g : α → ParseFns τ β}
    (hf' : Framed f) (hf : LookAt env D p f) (hg' : ∀ a, Framed (g a))
    (hg : ∀ a, LookAt env D (k a) (g a)) :
    LookAt env D (.bind p k) (bindFns f g) := by
  intro pos ctx ins rem r hp hc hr
  rcases bindFn_ret hr with ⟨e, h1, rfl⟩ | ⟨ra, h1, h2⟩ | ⟨ra, rb, h1, h2, rfl⟩
  · exact ErrLook.mono (hf pos ctx ins rem _ hp hc h1) fun _ _ _ => .bindL
  · have ha := hf pos ctx ins rem _ hp hc h1
    have hfr : RecFrame .. := hf' s pos ctx ins rem _ hp h1
    obtain ⟨reps, h3, rfl⟩ := continueParse_ret h2
    refine ⟨ha.1.mono fun _ _ _ => .bindL, fun x hx => ?_⟩
    obtain ⟨r', hr', rb, h4, h5⟩ := mem_contReps h3 hx
    obtain ⟨es, hes⟩ := ha.2 r' hr'
    have hfr' := hfr.reps r' hr'
    have hb := hg r'.value _ _ _ _ _ hfr'.hi hes.ctx h4
    rw [hfr'.ctx.mark] at hb
    exact look_contOne (p' := .bind p k) (fun es' v j d2 => .bind hes.der d2)
      (fun _ _ _ h => .bindL h) (fun _ _ _ h => .bindR hes.der h)
      (hes.look.mono fun _ _ _ h => .bindL h) hes.far hes
      (hg' r'.value s _ _ _ _ _ hfr'.hi h4) hb x h5
  · have ha : OkLook .. := hf pos ctx ins rem _ hp hc h1
    have hfr : OkFrame .. := hf' s pos ctx ins rem _ hp h1
    have hb := hg ra.value _ _ _ _ _ hfr.hi ha.ctx h2
    have hfb := hg' ra.value s _ _ _ _ _ hfr.hi h2
    rw [hfr.ctx.mark] at hb
    have hcons := hfr.consumed
    have hlo := hfr.lo
    have hR : ∀ {es l q}, Looks env s D.col (k ra.value) ctx.mark ra.pos es l q →
        Looks env s D.col (.bind p k) ctx.mark pos es l q := fun h => Looks.bindR ha.der h
    have hL : ∀ l ∈ ra.expected, Looks env s D.col (.bind p k) ctx.mark pos [] (some l) ra.pos :=
      fun l hm => .bindL (ha.look l hm)
    have err : ∀ {ex : List String} {c : Bool}, ErrLook env D (k ra.value) ctx.mark ra.pos ex c →
        c = false → ra.consumed = false →
        ErrLook env D (.bind p k) ctx.mark pos (ra.expected ++ ex) false := by
      intro ex c h hc' hc2 _
      have hpos : ra.pos = pos := by
        rw [hc2] at hcons
        simp at hcons; omega
      obtain ⟨⟨l, h1⟩, h2⟩ := h hc'
      refine ⟨⟨l, ?_⟩, fun l hm => ?_⟩
      · have := hR h1; rwa [hpos] at this
      · rcases List.mem_append.1 hm with hm | hm
        · have := hL l hm; rwa [hpos] at this
        · have := hR (h2 l hm); rwa [hpos] at this
    cases rb with
    | error e =>
      have hb : ErrLook env D (k ra.value) ctx.mark ra.pos e.expected e.consumed := hb
      simp only [ResLook, Result.prependExpected, Err.prependExpected]
      by_cases hcc : e.consumed = true
      · simp only [hcc, if_true]; intro h; simp at h
      · simp only [Bool.not_eq_true] at hcc
        simp only [hcc, Bool.false_eq_true, if_false, Bool.false_or]
        intro h
        exact err hb hcc h rfl
    | ok rb =>
      have hb : OkLook .. := hb
      have hfb : OkFrame .. := hfb
      refine ⟨by simpa using Der.bind ha.der hb.der, by simpa using hb.ctx, fun l hm => ?_⟩
      rw [Ok.prependExpected_pos]
      unfold Ok.prependExpected at hm
      split at hm
      · exact hR (hb.look l hm)
      · next hcc =>
        have hpos : rb.pos = ra.pos := by
          have hcons := hfb.consumed
          have := hfb.lo
          simp only [Bool.not_eq_true] at hcc
          rw [hcc] at hcons
          simp at hcons; omega
        rcases List.mem_append.1 hm with hm | hm
        · rw [hpos]; exact hL l hm
        · exact hR (hb.look l hm)
    | recovered rb =>
      refine ⟨?_, ?_⟩
      · simp only [Recovered.prependExpected]
        by_cases hcc : rb.consumed = true
        · intro h; simp [hcc] at h
        · simp only [Bool.not_eq_true] at hcc
          simp only [hcc, Bool.false_eq_true, if_false, Bool.false_or]
          intro h
          exact err hb.1 hcc h rfl
      · simp only [Recovered.prependExpected, List.mem_map]
        rintro _ ⟨x, hx, rfl⟩
        obtain ⟨es, hes⟩ := hb.2 x hx
        have ho := der_inOrder hes.der hfr.hi
        refine ⟨es, Der.bind ha.der hes.der, hes.ops.prepend _ _, hes.ctx, hes.ne,
          hes.look.afterOk hlo hcons ho.1 (fun _ _ _ h => hR h) hL, fun hn => ?_,
          fun h0 e he => ?_⟩
        · obtain ⟨h3, h4⟩ := hes.rest hn
          refine ⟨by simp [Repair.prependExpected, h3], fun l hm => ?_⟩
          simp only [Repair.prependExpected, h3, if_true] at hm
          exact hR (h4 l hm)
        · have h1 : ra.pos ≤ e.edit.pos := by
            cases es with
            | nil => simp at he
            | cons e' es => simp at he; subst he; exact ho.1.1
          by_cases hcc : pos < ra.pos
          · omega
          · have := hes.far (by simp [hcons, hcc, h0]) e he
            omega

theorem DerRep.looks {p : P τ ρ Γ α} {m i vs j} (h : DerRep env s D.col p m i vs j) :
    ∀ {es l q}, Looks env s D.col (.many p) m j es l q → Looks env s D.col (.many p) m i es l q := by
  induction h with
  | nil => intro es l q h; exact h
  | snoc _ h2 ih => intro es l q h; exact ih (.manyLater h2 h)

theorem look_manyLoop {p : P τ ρ Γ α} {f : ParseFns τ α} (hf' : Framed f)
    (hfm : ∀ fuel, Framed (manyFns fuel f))
    (hf : LookAt env D p f) (ins : Int) (fuel : Nat) :
    ∀ pos0 m pos ctx c v r rem, pos0 ≤ pos → pos ≤ s.length → CtxOK D ctx pos →
      ctx.mark = m → DerRep env s D.col p m pos0 v pos →
      manyLoop f.fn s ins fuel pos ctx c v = .ret r → ResLook env D (.many p) m pos0 rem r := by
  induction fuel with
  | zero => intro _ _ _ _ _ _ _ _ _ _ _ _ _ h; simp [manyLoop] at h
  | succ n ih =>
    intro pos0 m pos ctx c v r rem h0 h1 hc hm hrep h
    simp only [manyLoop, Out.bind_def, Out.bind_eq_ret] at h
    obtain ⟨x, h2, h3⟩ := h
    have hx := hf pos ctx ins none x h1 hc h2
    rw [hm] at hx
    have hfx := hf' s pos ctx ins none x h1 h2
    cases x with
    | ok o =>
      have hx : OkLook .. := hx
      have hfx : OkFrame .. := hfx
      have := hfx.lo
      simp only at h3
      split at h3
      · exact ih pos0 m o.pos o.ctx true _ r rem (by omega) hfx.hi hx.ctx
          (hfx.ctx.mark.trans hm) (hrep.snoc hx.der) h3
      · simp at h3
    | error e =>
      have hx : ErrLook env D p m pos e.expected e.consumed := hx
      simp only at h3
      split at h3
      · next hcc =>
        simp at h3; subst h3
        intro h; cases h.symm.trans hcc
      · next hcc =>
        simp only [Bool.not_eq_true] at hcc
        simp at h3; subst h3
        exact ⟨by simpa using hrep.prepend .manyNil, hc,
          fun l hm => hrep.looks (.manyHere ((hx hcc).2 l hm))⟩
    | recovered rr =>
      have hfx : RecFrame .. := hfx
      obtain ⟨reps, h4, rfl⟩ := continueParse_ret h3
      refine ⟨fun h => ?_, fun y hy => ?_⟩
      · have := hfx.consumed rfl
        cases this.symm.trans h
      obtain ⟨r', hr', rb, h5, h6⟩ := mem_contReps h4 hy
      obtain ⟨es, hes⟩ := hx.2 r' hr'
      have hfr' := hfx.reps r' hr'
      have hb := ih r'.pos m r'.pos r'.ctx false [] rb none (Nat.le_refl _) hfr'.hi hes.ctx
        (hfr'.ctx.mark.trans hm) .nil h5
      have hfb := hfm n s r'.pos r'.ctx ins none rb hfr'.hi h5
      have ho := der_inOrder hes.der h1
      have hL : ∀ es l x, Looks env s D.col p m pos es l x →
          Looks env s D.col (.many p) m pos0 es l x := fun _ _ _ h => hrep.looks (.manyHere h)
      have hfst : ∀ e, es[0]? = some e → pos < e.edit.pos := by
        intro e he
        have h1 := hes.far rfl e he
        cases es with
        | nil => simp at he
        | cons e' es =>
          simp at he; subst he
          have := ho.1.1
          simp only at this
          omega
      refine look_contOne (p := p) (q := .many p) (p' := .many p)
        (merge := fun a b => v ++ a :: b)
        (fun es' w j d2 => hrep.prepend (.manyCons hes.der d2)) hL
        (fun _ _ _ h => hrep.looks (.manyLater hes.der h)) ?_ (fun _ e he => ?_) hes hfb hb y h6
      · intro i e op g1 g2 g3
        obtain ⟨g4, g5, g6⟩ := hes.look i e op g1 g2 g3
        refine ⟨fun l hm => hL _ _ _ (g4 l hm), ?_, fun g0 => (g6 g0).imp fun l => hL _ _ _⟩
        rw [g5]
        by_cases hi : i = 0
        · subst hi
          have := hfst e g1
          simp; omega
        · simp [hi]
      · have := hfst e he
        omega

end

end Reparsec
