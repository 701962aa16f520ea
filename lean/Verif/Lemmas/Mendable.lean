import Verif.Spec.Mendable
import Verif.Lemmas.Fixable
import Verif.Lemmas.FirstErrorAll

/-!
# Nested grammars that can always be repaired: the invariant
-/

namespace Reparsec

variable {τ ρ : Type} {Γ : ρ → Type} {α β γ : Type}

/-- What the runs of a mendable parser look like; `k` is `max_insertions`. -/
structure Mends (k : Int) (start : Option (Bool × Nat)) (rest : Nat → Nat) (f : ParseFns τ α) : Prop where
  errNone : ∀ s pos ctx e, pos ≤ s.length → (rest (s.length - pos) : Int) ≤ k →
    f.fn s pos ctx k none = .ret (.error e) → e.consumed = false
  errSome : ∀ n first, start = some (n, first) → ∀ s pos ctx b e, pos ≤ s.length →
    (rest (s.length - pos) : Int) ≤ k → f.fn s pos ctx k (some b) = .ret (.error e) → e.consumed = false
  alone : ∀ s pos ctx rr, pos ≤ s.length → (rest (s.length - pos) : Int) ≤ k →
    f.fn s pos ctx k none = .ret (.recovered rr) → ∃ x ∈ rr.repairs, k - rest (s.length - pos) ≤ x.ins
  within : ∀ n first, start = some (n, first) → ∀ s pos ctx (b : Int) rr, pos ≤ s.length →
    (rest (s.length - pos) : Int) ≤ k → first ≤ b → f.fn s pos ctx k (some b) = .ret (.recovered rr) →
    ∃ x ∈ rr.repairs, b - first ≤ x.ins ∨ k - rest (s.length - pos) ≤ x.ins
  never : ∀ first, start = some (true, first) → ∀ s pos ctx (b : Int) e, pos ≤ s.length →
    (rest (s.length - pos) : Int) ≤ k → first ≤ b → f.fn s pos ctx k (some b) ≠ .ret (.error e)

variable {k : Int} {n : Bool} {h : Nat} {st st' : Option (Bool × Nat)} {rest rest' : Nat → Nat}

theorem Mends.weaken {f : ParseFns τ α} (hf : Mends k st rest f) (hs : StartsAs st st')
    (hr : ∀ m, rest m ≤ rest' m) : Mends k st' rest' f := by
  constructor
  · intro s pos ctx e hp hk
    have := hr (s.length - pos)
    exact hf.errNone s pos ctx e hp (by omega)
  · rintro n first rfl s pos ctx b e hp hk
    obtain ⟨n', first', rfl, -, -⟩ := hs
    have := hr (s.length - pos)
    exact hf.errSome _ _ rfl s pos ctx b e hp (by omega)
  · intro s pos ctx rr hp hk hr'
    have := hr (s.length - pos)
    obtain ⟨x, hx, h1⟩ := hf.alone s pos ctx rr hp (by omega) hr'
    exact ⟨x, hx, by omega⟩
  · rintro n first rfl s pos ctx b rr hp hk hb hr'
    obtain ⟨n', first', rfl, -, h2⟩ := hs
    have := hr (s.length - pos)
    obtain ⟨x, hx, h1⟩ := hf.within _ _ rfl s pos ctx b rr hp (by omega) (by omega) hr'
    exact ⟨x, hx, by omega⟩
  · rintro first rfl s pos ctx b e hp hk hb
    obtain ⟨n', first', rfl, h1, h2⟩ := hs
    have := hr (s.length - pos)
    cases h1 rfl
    exact hf.never _ rfl s pos ctx b e hp (by omega) (by omega)

/-- A parser that is fixable within constant bounds. -/
theorem Mends.of_fixes {f : ParseFns τ α} (hf : ∀ n h, st = some (n, h) → Fixes k n h 0 f)
    (hn : st = none → ∃ n h, Fixes k n h 0 f) : Mends k st rest f := by
  have hn' : ∃ n h, Fixes k n h 0 f := by
    rcases st with _ | ⟨n, h⟩
    · exact hn rfl
    · exact ⟨n, h, hf n h rfl⟩
  obtain ⟨n0, h0, hf0⟩ := hn'
  constructor
  · intro s pos ctx e hp _ hr; exact hf0.err s pos ctx _ e hp hr
  · intro n h hs s pos ctx b e hp _ hr; exact hf0.err s pos ctx _ e hp hr
  · intro s pos ctx rr hp _ hr
    obtain ⟨x, hx, h1⟩ := hf0.alone s pos ctx rr hp hr
    exact ⟨x, hx, by omega⟩
  · intro n h hs s pos ctx b rr hp _ hb hr
    obtain ⟨x, hx, h1⟩ := (hf n h hs).within s pos ctx b rr hp hb hr
    exact ⟨x, hx, by omega⟩
  · intro h hs s pos ctx b e hp _ hb; exact (hf true h hs).never rfl s pos ctx b e hp hb

theorem fixes_regexp_sure {t : Nat} (m : Matcher τ β) (hm : ∀ s pos, pos ≤ s.length → m.at s pos ≠ .ok none) :
    Fixes k n h t (regexpFns m) := by
  have hr : ∀ s pos ctx rem r, pos ≤ s.length → (regexpFns m).fn s pos ctx k rem = .ret r → ∃ o, r = .ok o := by
    intro s pos ctx rem r hp hr
    simp only [regexpFns, regexpFn, Out.bind_def, Out.bind_eq_ret, Out.ofExcept_eq_ret] at hr
    obtain ⟨x, hx, hr⟩ := hr
    cases x with
    | none => exact absurd hx (hm s pos hp)
    | some x => simp at hr; exact ⟨_, hr.symm⟩
  constructor
  · intro s pos ctx rem e hp h; obtain ⟨o, h⟩ := hr _ _ _ _ _ hp h; cases h
  · intro s pos ctx rr hp h; obtain ⟨o, h⟩ := hr _ _ _ _ _ hp h; cases h
  · intro s pos ctx b rr hp _ h; obtain ⟨o, h⟩ := hr _ _ _ _ _ hp h; cases h
  · intro _ s pos ctx b e hp _ h; obtain ⟨o, h⟩ := hr _ _ _ _ _ hp h; cases h

/-- A parser whose results differ from those of `f` only in ways that do not matter here. -/
theorem Mends.of_results {f : ParseFns τ α} {g : ParseFns τ β} (hf : Mends k st rest f)
    (hg : ∀ s pos ctx rem r, pos ≤ s.length → g.fn s pos ctx k rem = .ret r → ∃ ctx' r',
      f.fn s pos ctx' k rem = .ret r' ∧
      (∀ e, r = .error e → ∃ e', r' = .error e' ∧ e.consumed = e'.consumed) ∧
      (∀ rr, r = .recovered rr → ∃ rr', r' = .recovered rr' ∧
        ∀ x' ∈ rr'.repairs, ∃ x ∈ rr.repairs, x.ins = x'.ins)) : Mends k st rest g := by
  constructor
  · intro s pos ctx e hp hk hr
    obtain ⟨ctx', r', h1, h2, h3⟩ := hg s pos ctx _ _ hp hr
    obtain ⟨e', rfl, h4⟩ := h2 e rfl
    rw [h4]; exact hf.errNone s pos ctx' e' hp hk h1
  · intro n first hs s pos ctx b e hp hk hr
    obtain ⟨ctx', r', h1, h2, h3⟩ := hg s pos ctx _ _ hp hr
    obtain ⟨e', rfl, h4⟩ := h2 e rfl
    rw [h4]; exact hf.errSome _ _ hs s pos ctx' b e' hp hk h1
  · intro s pos ctx rr hp hk hr
    obtain ⟨ctx', r', h1, h2, h3⟩ := hg s pos ctx _ _ hp hr
    obtain ⟨rr', rfl, h4⟩ := h3 rr rfl
    obtain ⟨x', hx', h5⟩ := hf.alone s pos ctx' rr' hp hk h1
    obtain ⟨x, hx, h6⟩ := h4 x' hx'
    exact ⟨x, hx, by omega⟩
  · intro n first hs s pos ctx b rr hp hk hb hr
    obtain ⟨ctx', r', h1, h2, h3⟩ := hg s pos ctx _ _ hp hr
    obtain ⟨rr', rfl, h4⟩ := h3 rr rfl
    obtain ⟨x', hx', h5⟩ := hf.within _ _ hs s pos ctx' b rr' hp hk hb h1
    obtain ⟨x, hx, h6⟩ := h4 x' hx'
    exact ⟨x, hx, by omega⟩
  · intro first hs s pos ctx b e hp hk hb hr
    obtain ⟨ctx', r', h1, h2, h3⟩ := hg s pos ctx _ _ hp hr
    obtain ⟨e', rfl, h4⟩ := h2 e rfl
    exact hf.never _ hs s pos ctx' b e' hp hk hb h1

theorem mends_fmap {f : ParseFns τ α} (fn : α → Except Exn β) (hf : Mends k st rest f) :
    Mends k st rest (fmapFns f fn) := by
  refine hf.of_results fun s pos ctx rem r hp hr => ?_
  simp only [fmapFns, fmapFn, Out.bind_def, Out.bind_eq_ret] at hr
  obtain ⟨x, h1, h2⟩ := hr
  refine ⟨ctx, x, h1, ?_⟩
  rcases Result.fmapM_ret h2 with ⟨o, v, rfl, _, rfl⟩ | ⟨e, rfl, rfl⟩ | ⟨rr, reps, rfl, h3, rfl⟩
  · exact ⟨by simp, by simp⟩
  · exact ⟨fun e' he => ⟨e, rfl, by cases he; rfl⟩, by simp⟩
  · refine ⟨by simp, fun rr' he => ⟨rr, rfl, fun x' hx' => ?_⟩⟩
    cases he
    exact repairsFmapM_mem' h3 hx'

theorem mends_label {f : ParseFns τ α} (x : String) (hf : Mends k st rest f) :
    Mends k st rest (labelFns f x) := by
  refine hf.of_results fun s pos ctx rem r hp hr => ?_
  simp only [labelFns, Out.bind_def, Out.bind_eq_ret, Out.pure_def, Out.ret.injEq] at hr
  obtain ⟨y, h1, rfl⟩ := hr
  refine ⟨ctx, y, h1, ?_, ?_⟩
  · intro e he
    cases y <;> cases he
    exact ⟨_, rfl, by unfold Err.setExpected; split <;> rfl⟩
  · intro rr he
    cases y <;> cases he
    exact ⟨_, rfl, fun x' hx' => ⟨_, List.mem_map.2 ⟨x', hx', rfl⟩, rfl⟩⟩

theorem mends_recover {f : ParseFns τ α} (hf : Mends k st rest f) :
    Mends k st rest (recoverFns f) := by
  refine hf.of_results fun s pos ctx rem r hp hr => ?_
  simp only [recoverFns, recoverFn, Out.bind_def, Out.bind_eq_ret] at hr
  obtain ⟨y, h1, hr⟩ := hr
  refine ⟨ctx, y, h1, ?_, ?_⟩
  · intro e he
    subst he
    cases y with
    | error e' => simp at hr; subst hr; exact ⟨_, rfl, rfl⟩
    | _ => simp at hr
  · intro rr he
    subst he
    cases y with
    | recovered rr' =>
      simp at hr; subst hr
      exact ⟨_, rfl, fun x' hx' => ⟨_, List.mem_map.2 ⟨x', hx', rfl⟩, rfl⟩⟩
    | _ => simp at hr

theorem mends_block {f : ParseFns τ α} (hf : Mends k st rest f) : Mends k st rest (blockFns f) := by
  refine hf.of_results fun s pos ctx rem r hp hr => ?_
  simp only [blockFns, Out.bind_def, Out.bind_eq_ret, Out.pure_def, Out.ret.injEq] at hr
  obtain ⟨y, h1, rfl⟩ := hr
  refine ⟨_, y, h1, ?_, ?_⟩
  · intro e he
    cases y <;> cases he
    exact ⟨_, rfl, rfl⟩
  · intro rr he
    cases y <;> cases he
    exact ⟨_, rfl, fun x' hx' => ⟨_, List.mem_map.2 ⟨x', hx', rfl⟩, rfl⟩⟩

theorem mends_alignedNone {f : ParseFns τ α} (hf : Mends k none rest f) :
    Mends k none rest (alignedFns f) := by
  constructor
  · intro s pos ctx e hp hk hr
    simp only [alignedFns] at hr
    split at hr
    · exact hf.errNone s pos _ e hp hk hr
    · simp at hr; subst hr; rfl
  · intro _ _ h; cases h
  · intro s pos ctx rr hp hk hr
    simp only [alignedFns] at hr
    split at hr
    · exact hf.alone s pos _ rr hp hk hr
    · simp at hr
  · intro _ _ h; cases h
  · intro _ h; cases h

theorem mends_aligned {f : ParseFns τ α} (hf : Mends k (some (n, h)) rest f) :
    Mends k (some (false, h)) rest (alignedFns f) := by
  constructor
  · intro s pos ctx e hp hk hr
    simp only [alignedFns] at hr
    split at hr
    · exact hf.errNone s pos _ e hp hk hr
    · simp at hr; subst hr; rfl
  · rintro _ _ ⟨⟩ s pos ctx b e hp hk hr
    simp only [alignedFns] at hr
    split at hr
    · exact hf.errSome _ _ rfl s pos _ b e hp hk hr
    · simp at hr; subst hr; rfl
  · intro s pos ctx rr hp hk hr
    simp only [alignedFns] at hr
    split at hr
    · exact hf.alone s pos _ rr hp hk hr
    · simp at hr
  · rintro _ _ ⟨⟩ s pos ctx b rr hp hk hb hr
    simp only [alignedFns] at hr
    split at hr
    · exact hf.within _ _ rfl s pos _ b rr hp hk hb hr
    · simp at hr
  · intro _ h; cases h

theorem mends_indentedNone {f : ParseFns τ α} (d : Int) (hf : Mends k none rest f) :
    Mends k none rest (indentedFns d f) := by
  have hb := mends_block hf
  constructor
  · intro s pos ctx e hp hk hr
    simp only [indentedFns] at hr
    split at hr
    · exact hb.errNone s pos _ e hp hk hr
    · simp at hr; subst hr; rfl
  · intro _ _ h; cases h
  · intro s pos ctx rr hp hk hr
    simp only [indentedFns] at hr
    split at hr
    · exact hb.alone s pos _ rr hp hk hr
    · simp at hr
  · intro _ _ h; cases h
  · intro _ h; cases h

theorem mends_indented {f : ParseFns τ α} (d : Int) (hf : Mends k (some (n, h)) rest f) :
    Mends k (some (false, h)) rest (indentedFns d f) := by
  have hb := mends_block hf
  constructor
  · intro s pos ctx e hp hk hr
    simp only [indentedFns] at hr
    split at hr
    · exact hb.errNone s pos _ e hp hk hr
    · simp at hr; subst hr; rfl
  · rintro _ _ ⟨⟩ s pos ctx b e hp hk hr
    simp only [indentedFns] at hr
    split at hr
    · exact hb.errSome _ _ rfl s pos _ b e hp hk hr
    · simp at hr; subst hr; rfl
  · intro s pos ctx rr hp hk hr
    simp only [indentedFns] at hr
    split at hr
    · exact hb.alone s pos _ rr hp hk hr
    · simp at hr
  · rintro _ _ ⟨⟩ s pos ctx b rr hp hk hb' hr
    simp only [indentedFns] at hr
    split at hr
    · exact hb.within _ _ rfl s pos _ b rr hp hk hb' hr
    · simp at hr
  · intro _ h; cases h

theorem mends_attempt {f : ParseFns τ α} (hf : st ≠ none → Mends k st rest f) :
    Mends k st rest (attemptFns f) := by
  constructor
  · intro s pos ctx e hp hk hr
    simp only [attemptFns, attemptFn, Out.bind_def, Out.bind_eq_ret] at hr
    obtain ⟨x, h1, hr⟩ := hr
    cases x with
    | ok _ => simp at hr
    | error e' => simp at hr; subst hr; rfl
  · intro n first hs s pos ctx b e hp hk hr
    exact (hf (by simp [hs])).errSome n first hs s pos ctx b e hp hk hr
  · intro s pos ctx rr hp hk hr
    simp only [attemptFns, attemptFn, Out.bind_def, Out.bind_eq_ret] at hr
    obtain ⟨x, h1, hr⟩ := hr
    cases x <;> simp at hr
  · intro n first hs s pos ctx b e hp hk hb hr
    exact (hf (by simp [hs])).within n first hs s pos ctx b e hp hk hb hr
  · intro first hs s pos ctx b e hp hk hb hr
    exact (hf (by simp [hs])).never first hs s pos ctx b e hp hk hb hr

theorem mends_recoverWithFnNone {f : ParseFns τ α} (fn : List τ → Nat → Except Exn α)
    (lbl : α → String) (hf : Mends k none rest f) :
    Mends k none rest (recoverWithFnFns f fn lbl) := by
  constructor
  · intro s pos ctx e hp hk hr; exact hf.errNone s pos ctx e hp hk hr
  · intro _ _ h; cases h
  · intro s pos ctx rr hp hk hr; exact hf.alone s pos ctx rr hp hk hr
  · intro _ _ h; cases h
  · intro _ h; cases h

theorem mends_recoverWithFn {n' : Bool} {f : ParseFns τ α} (fn : List τ → Nat → Except Exn α)
    (lbl : α → String) (hf : Mends k (some (n', h)) rest f) (hn : n' = true ∨ 1 ≤ h) :
    Mends k (some (n, h)) rest (recoverWithFnFns f fn lbl) := by
  constructor
  · intro s pos ctx e hp hk hr; exact hf.errNone s pos ctx e hp hk hr
  · rintro _ _ ⟨⟩ s pos ctx b e hp hk hr
    simp only [recoverWithFnFns, recoverWithFnFn, Out.bind_def, Out.bind_eq_ret] at hr
    obtain ⟨x, h1, hr⟩ := hr
    cases x with
    | ok _ => simp at hr
    | error e' =>
      have hc := hf.errSome _ _ rfl s pos ctx _ e' hp hk h1
      by_cases hb : b = 0
      · simp [hc, hb] at hr; subst hr; exact hc
      · simp only [hc, Bool.false_eq_true, if_false, ne_eq, hb, not_false_eq_true, if_true,
          Out.bind_eq_ret] at hr
        obtain ⟨_, _, hr⟩ := hr
        simp at hr
    | recovered rr =>
      simp only at hr
      split at hr
      · simp at hr
      · split at hr
        · simp only [Out.bind_eq_ret] at hr
          obtain ⟨_, _, hr⟩ := hr
          simp at hr
        · simp at hr
  · intro s pos ctx rr hp hk hr; exact hf.alone s pos ctx rr hp hk hr
  · rintro _ _ ⟨⟩ s pos ctx b rr hp hk hb hr
    simp only [recoverWithFnFns, recoverWithFnFn, Out.bind_def, Out.bind_eq_ret] at hr
    obtain ⟨x, h1, hr⟩ := hr
    cases x with
    | ok _ => simp at hr
    | error e' =>
      have hc := hf.errSome _ _ rfl s pos ctx _ e' hp hk h1
      by_cases hb0 : b = 0
      · simp [hc, hb0] at hr
      · simp only [hc, Bool.false_eq_true, if_false, ne_eq, hb0, not_false_eq_true, if_true,
          Out.bind_eq_ret] at hr
        obtain ⟨_, _, hr⟩ := hr
        have hnn : n' = true → False := by
          rintro rfl
          exact hf.never _ rfl s pos ctx b e' hp hk hb h1
        simp at hr; subst hr
        refine ⟨_, List.mem_singleton.2 rfl, ?_⟩
        rcases hn with h2 | h2
        · exact absurd h2 hnn
        · left; simp [makeUserInsert]; omega
    | recovered rr' =>
      obtain ⟨x, hx, h2⟩ := hf.within _ _ rfl s pos ctx b rr' hp hk hb h1
      simp only at hr
      split at hr
      · simp at hr; subst hr; exact ⟨x, hx, h2⟩
      · split at hr
        · simp only [Out.bind_eq_ret] at hr
          obtain ⟨_, _, hr⟩ := hr
          simp at hr; subst hr
          exact ⟨x, List.mem_cons_of_mem _ hx, h2⟩
        · simp at hr; subst hr; exact ⟨x, hx, h2⟩
  · rintro _ ⟨⟩ s pos ctx b e hp hk hb hr
    simp only [recoverWithFnFns, recoverWithFnFn, Out.bind_def, Out.bind_eq_ret] at hr
    obtain ⟨x, h1, hr⟩ := hr
    cases x with
    | ok _ => simp at hr
    | error e' =>
      have hc := hf.errSome _ _ rfl s pos ctx _ e' hp hk h1
      rcases hn with rfl | h2
      · exact hf.never _ rfl s pos ctx b e' hp hk hb h1
      · have hb0 : b ≠ 0 := by omega
        simp only [hc, Bool.false_eq_true, if_false, ne_eq, hb0, not_false_eq_true, if_true,
          Out.bind_eq_ret] at hr
        obtain ⟨_, _, hr⟩ := hr
        simp at hr
    | recovered rr' =>
      simp only at hr
      split at hr
      · simp at hr
      · split at hr
        · simp only [Out.bind_eq_ret] at hr
          obtain ⟨_, _, hr⟩ := hr
          simp at hr
        · simp at hr

theorem mends_altNone {f g : ParseFns τ α} (hff : Framed f) (hgf : Framed g)
    (hf : Mends k none rest f) (hg : Mends k none rest g) : Mends k none rest (altFns f g) := by
  constructor
  · intro s pos ctx e hp hk hr
    rcases altFn_ends hp hff hgf hr with ⟨ra, h3, rfl, ⟨o, h4⟩ | h4⟩ |
      ⟨ea, rb, h3, h4, h5, ⟨o, o', h6, h7⟩ | ⟨h6, rfl⟩⟩ | ⟨ea, eb, h3, h4, h5, h6, h7⟩
    · cases h4
    · exact hf.errNone s pos ctx e hp hk h3
    · cases h7
    · exact hg.errNone s pos ctx e hp hk h5
    · simp [altRecover] at h7; subst h7; rfl
  · intro _ _ h; cases h
  · intro s pos ctx rr hp hk hr
    rcases altFn_ends hp hff hgf hr with ⟨ra, h3, rfl, ⟨o, h4⟩ | h4⟩ |
      ⟨ea, rb, h3, h4, h5, ⟨o, o', h6, h7⟩ | ⟨h6, rfl⟩⟩ | ⟨ea, eb, h3, h4, h5, h6, h7⟩
    · cases h4
    · exact hf.alone s pos ctx _ hp hk h3
    · cases h7
    · exact hg.alone s pos ctx _ hp hk h5
    · simp [altRecover] at h7
  · intro _ _ h; cases h
  · intro _ h; cases h

theorem mends_alt {f g : ParseFns τ α} (hsf : Sim f) (hsg : Sim g) (hff : Framed f) (hgf : Framed g)
    (hfg : (Mends k (some (true, h)) rest f ∧ Mends k none rest g) ∨
      (∃ n', Mends k (some (n', h)) rest f) ∧ Mends k (some (n, h)) rest g) :
    Mends k (some (n, h)) rest (altFns f g) := by
  obtain ⟨n1, hf⟩ : ∃ n', Mends k (some (n', h)) rest f := by
    rcases hfg with ⟨h, _⟩ | ⟨h, _⟩
    · exact ⟨_, h⟩
    · exact h
  have hg0 : Mends k none rest g := by
    rcases hfg with ⟨_, h⟩ | ⟨_, h⟩
    · exact h
    · exact h.weaken trivial fun _ => Nat.le_refl _
  have hf0 : Mends k none rest f := hf.weaken trivial fun _ => Nat.le_refl _
  have h0 := mends_altNone hff hgf hf0 hg0
  have key : ∀ s pos ctx (b : Int) ea ex r, pos ≤ s.length → (rest (s.length - pos) : Int) ≤ k → h ≤ b →
      f.fn s pos ctx k none = .ret (.error ea) →
      (∃ eb, g.fn s pos ctx k none = .ret (.error eb)) →
      altRecover f g s pos ctx k (some b) ea.loc ex = .ret r →
      (∃ rr, r = .recovered rr ∧ ∃ x ∈ rr.repairs, b - h ≤ x.ins ∨ k - rest (s.length - pos) ≤ x.ins) ∨
      n = false ∧ ∃ e, r = .error e ∧ e.consumed = false := by
    rintro s pos ctx b ea ex r hp hk hb h3 ⟨eb, h3'⟩ h4
    have first : ∀ ra, f.fn s pos ctx k (some b) = .ret (.recovered ra) →
        ∃ x ∈ ra.repairs, b - h ≤ x.ins ∨ k - rest (s.length - pos) ≤ x.ins := fun ra hr =>
      hf.within _ _ rfl s pos ctx b ra hp hk hb hr
    have notok : ∀ o, f.fn s pos ctx k (some b) ≠ .ret (.ok o) := fun o => hsf.fn_error h3
    rcases altRecover_ret h4 with ⟨ra, rb, h5, h6, rfl⟩ | ⟨ra, x, h5, h6, h7, rfl⟩ |
      ⟨x, rb, h5, h6, h7, rfl⟩ | ⟨x, y, h5, h6, h7, h8, rfl⟩
    · obtain ⟨x, hx, h9⟩ := first ra h5
      exact .inl ⟨_, rfl, _, List.mem_map.2 ⟨x, mem_joined hx, rfl⟩, h9⟩
    · obtain ⟨x, hx, h9⟩ := first ra h5
      exact .inl ⟨_, rfl, _, List.mem_map.2 ⟨x, hx, rfl⟩, h9⟩
    · cases x with
      | ok o => exact absurd h5 (notok o)
      | recovered y => exact absurd rfl (h6 y)
      | error e =>
        rcases hfg with ⟨h, _⟩ | ⟨_, h⟩
        · exact absurd h5 (h.never _ rfl s pos ctx b e hp hk hb)
        · obtain ⟨x, hx, h9⟩ := h.within _ _ rfl s pos ctx b rb hp hk hb h7
          exact .inl ⟨_, rfl, _, List.mem_map.2 ⟨x, hx, rfl⟩, h9⟩
    · cases x with
      | ok o => exact absurd h5 (notok o)
      | recovered y => exact absurd rfl (h6 y)
      | error e =>
        rcases hfg with ⟨h, _⟩ | ⟨_, h⟩
        · exact absurd h5 (h.never _ rfl s pos ctx b e hp hk hb)
        · refine .inr ⟨?_, _, rfl, rfl⟩
          cases y with
          | ok o => exact absurd h7 (hsg.fn_error h3')
          | recovered y => exact absurd rfl (h8 y)
          | error e =>
            cases n with
            | false => rfl
            | true => exact absurd h7 (h.never _ rfl s pos ctx b e hp hk hb)
  constructor
  · exact h0.errNone
  · rintro _ _ ⟨⟩ s pos ctx b e hp hk hr
    rcases altFn_ends hp hff hgf hr with ⟨ra, h3, rfl, ⟨o, h4⟩ | h4⟩ |
      ⟨ea, rb, h3, h4, h5, ⟨o, o', h6, h7⟩ | ⟨h6, rfl⟩⟩ | ⟨ea, eb, h3, h4, h5, h6, h7⟩
    · cases h4
    · exact hf.errNone s pos ctx e hp hk h3
    · cases h7
    · exact hg0.errNone s pos ctx e hp hk h5
    · rcases altRecover_ret h7 with ⟨_, _, _, _, h⟩ | ⟨_, _, _, _, _, h⟩ | ⟨_, _, _, _, _, h⟩ |
        ⟨_, _, _, _, _, _, h⟩
      all_goals cases h
      rfl
  · exact h0.alone
  · rintro _ _ ⟨⟩ s pos ctx b rr hp hk hb hr
    rcases altFn_ends hp hff hgf hr with ⟨ra, h3, rfl, ⟨o, h4⟩ | h4⟩ |
      ⟨ea, rb, h3, h4, h5, ⟨o, o', h6, h7⟩ | ⟨h6, rfl⟩⟩ | ⟨ea, eb, h3, h4, h5, h6, h7⟩
    · cases h4
    · obtain ⟨x, hx, h⟩ := hf.alone s pos ctx _ hp hk h3
      exact ⟨x, hx, .inr h⟩
    · cases h7
    · obtain ⟨x, hx, h⟩ := hg0.alone s pos ctx _ hp hk h5
      exact ⟨x, hx, .inr h⟩
    · rcases key s pos ctx b ea _ _ hp hk hb h3 ⟨_, h5⟩ h7 with ⟨_, h, h'⟩ | ⟨_, _, h, _⟩
      · cases h; exact h'
      · cases h
  · rintro _ ⟨⟩ s pos ctx b e hp hk hb hr
    rcases altFn_ends hp hff hgf hr with ⟨ra, h3, rfl, ⟨o, h4⟩ | h4⟩ |
      ⟨ea, rb, h3, h4, h5, ⟨o, o', h6, h7⟩ | ⟨h6, rfl⟩⟩ | ⟨ea, eb, h3, h4, h5, h6, h7⟩
    · cases h4
    · have h5 := hf.errNone s pos ctx e hp hk h3
      rw [show (Result.error e : Result τ α).consumed = e.consumed from rfl, h5] at h4
      cases h4
    · cases h7
    · have h7 := hg0.errNone s pos ctx e hp hk h5
      rw [show (Result.error e : Result τ α).consumed = e.consumed from rfl, h7] at h6
      cases h6
    · rcases key s pos ctx b ea _ _ hp hk hb h3 ⟨_, h5⟩ h7 with ⟨_, h, h'⟩ | ⟨h, _⟩
      · cases h
      · cases h

/-- What is left of a candidate after going on with a parser that is always repaired. -/
theorem mends_contReps {r : Nat → Nat} {R : Nat} {q : α → ParseFns τ β} {s : List τ} {ra : Recovered τ α}
    {merge : α → β → γ} (hRk : (R : Int) ≤ k)
    {reps : List (Repair τ γ)} {x : Repair τ α} (hx : x ∈ ra.repairs) (hpos : x.pos ≤ s.length)
    (hq : Mends k (some (true, h)) r (q x.value)) (hR : r (s.length - x.pos) ≤ R) (hb : h ≤ x.ins)
    (hr : contReps k (fun v p c r => (q v).fn s p c k (some r)) merge ra.repairs = .ret reps) :
    ∃ y ∈ reps, x.ins - h ≤ y.ins ∨ k - R ≤ y.ins := by
  revert hr hx
  generalize ra.repairs = l
  intro hx hr
  induction l generalizing reps with
  | nil => simp at hx
  | cons a l ih =>
    simp only [contReps, Out.bind_def, Out.bind_eq_ret, Out.pure_def, Out.ret.injEq] at hr
    obtain ⟨rb, h1, rest, h2, rfl⟩ := hr
    rcases List.mem_cons.1 hx with rfl | hx
    · cases rb with
      | ok o =>
        refine ⟨_, List.mem_append_left _ (by simp [contOne]; rfl), ?_⟩
        simp only
        split <;> omega
      | error e => exact absurd h1 (hq.never _ rfl s _ _ _ _ hpos (by omega) hb)
      | recovered rb =>
        obtain ⟨y, hy, h3⟩ := hq.within _ _ rfl s _ _ _ _ hpos (by omega) hb h1
        refine ⟨_, List.mem_append_left _ (List.mem_map.2 ⟨y, hy, rfl⟩), ?_⟩
        show _ ≤ y.ins ∨ _ ≤ y.ins
        omega
    · obtain ⟨y, hy, h3⟩ := ih hx h2
      exact ⟨y, List.mem_append_right _ hy, h3⟩

/-- The two ways in which `bind` goes on. -/
theorem bindFn_ends {f : ParseFns τ α} {g : α → ParseFns τ β} {s pos ctx rem} {r : Result τ β}
    (h : (bindFns f g).fn s pos ctx k rem = .ret r) :
    (∃ e, f.fn s pos ctx k rem = .ret (.error e) ∧ r = .error e) ∨
    (∃ ra reps, f.fn s pos ctx k rem = .ret (.recovered ra) ∧
      contReps k (fun v p c r => (g v).fn s p c k (some r)) (fun _ v => v) ra.repairs = .ret reps ∧
      ∃ rr, r = .recovered rr ∧ rr.repairs = reps) ∨
    (∃ ra rb, f.fn s pos ctx k rem = .ret (.ok ra) ∧
      (g ra.value).fn s ra.pos ra.ctx k (if ra.consumed then some k else rem) = .ret rb ∧
      (∀ e, r = .error e → ∃ e', rb = .error e' ∧ (ra.consumed = false → e.consumed = e'.consumed)) ∧
      (∀ rr, r = .recovered rr → ∃ rr', rb = .recovered rr' ∧
        ∀ x' ∈ rr'.repairs, ∃ x ∈ rr.repairs, x.ins = x'.ins)) := by
  simp only [bindFns, bindFn, Out.bind_def, Out.bind_eq_ret] at h
  obtain ⟨x, h3, hr⟩ := h
  cases x with
  | error e' => simp at hr; exact .inl ⟨_, h3, hr.symm⟩
  | recovered ra =>
    obtain ⟨reps, h4, h5⟩ := continueParse_ret hr
    exact .inr (.inl ⟨_, _, h3, h4, _, h5, rfl⟩)
  | ok ra =>
    refine .inr (.inr ?_)
    by_cases hc : ra.consumed = true
    all_goals
      try simp only [Bool.not_eq_true] at hc
      simp only [hc, Bool.false_eq_true, if_true, if_false, Out.bind_eq_ret, Out.pure_def, Out.ret.injEq] at hr
      obtain ⟨y, h4, hr⟩ := hr
      refine ⟨ra, y, h3, by simp only [hc, Bool.false_eq_true, if_true, if_false]; exact h4, ?_, ?_⟩
      · rintro e rfl
        cases y <;> simp only [Result.prependExpected] at hr <;> cases hr
        exact ⟨_, rfl, by intro h; first | (rw [hc] at h; cases h; done) | (unfold Err.prependExpected; split <;> simp_all)⟩
      · rintro rr rfl
        cases y <;> simp only [Result.prependExpected] at hr <;> cases hr
        exact ⟨_, rfl, fun x' hx' => ⟨_, List.mem_map.2 ⟨x', hx', rfl⟩, rfl⟩⟩

theorem mends_bindNone {f : ParseFns τ α} {g : α → ParseFns τ β} {f2 : Nat} {r1 : Nat → Nat}
    {E : α → Prop} (hfr : Framed f) (h1 : ∀ m, r1 m ≤ rest m ∧ (0 < m → r1 m + f2 ≤ rest m))
    (hf : Mends k none r1 f)
    (hE : ∀ s pos ctx o, pos ≤ s.length → f.fn s pos ctx k none = .ret (.ok o) → o.consumed = false →
      E o.value)
    (hg : ∀ a, ∃ r2, Later r2 rest ∧ Mends k (some (true, f2)) r2 (g a))
    (hg0 : ∀ a, E a → ∃ r2, (∀ m, r2 m ≤ rest m) ∧ Mends k none r2 (g a)) :
    Mends k none rest (bindFns f g) := by
  constructor
  · intro s pos ctx e hp hk hr
    obtain ⟨h2, h2'⟩ := h1 (s.length - pos)
    rcases bindFn_ends hr with ⟨e', h3, h⟩ | ⟨_, _, _, _, _, h, _⟩ | ⟨ra, rb, h3, h4, h5, -⟩
    · cases h; exact hf.errNone s pos ctx _ hp (by omega) h3
    · cases h
    · have hfra : OkFrame .. := hfr s pos ctx k _ _ hp h3
      obtain ⟨e', rfl, h6⟩ := h5 e rfl
      by_cases hc : ra.consumed = true
      · obtain ⟨r2, h7, h8⟩ := hg ra.value
        have hlt : pos < ra.pos := by have := hfra.consumed; rw [hc] at this; simpa using this
        have hhi := hfra.hi
        have h2' := h2' (by omega)
        have := h7 (s.length - ra.pos) (s.length - pos) (by omega)
        rw [if_pos hc] at h4
        exact absurd h4 (h8.never _ rfl s _ _ _ _ hhi (by omega) (by omega))
      · rw [if_neg hc] at h4
        simp only [Bool.not_eq_true] at hc
        obtain ⟨r2, h7, h8⟩ := hg0 ra.value (hE s pos ctx ra hp h3 hc)
        have hlt : ra.pos = pos := by
          have := hfra.consumed; rw [hc] at this
          have := hfra.lo; simp at *; omega
        have := h7 (s.length - pos)
        rw [h6 hc]
        exact h8.errNone s _ _ e' hfra.hi (by rw [hlt]; omega) h4
  · intro _ _ h; cases h
  · intro s pos ctx rr hp hk hr
    obtain ⟨h2, h2'⟩ := h1 (s.length - pos)
    rcases bindFn_ends hr with ⟨e', h3, h⟩ | ⟨ra, reps, h3, h4, rr', h, h5⟩ | ⟨ra, rb, h3, h4, -, h5⟩
    · cases h
    · cases h
      obtain ⟨x, hx, h6⟩ := hf.alone s pos ctx ra hp (by omega) h3
      have hfx := (show RecFrame .. from hfr s pos ctx k _ _ hp h3).reps x hx
      obtain ⟨r2, h7, h8⟩ := hg x.value
      have hlt := hfx.lt rfl
      have hhi := hfx.hi
      have h2' := h2' (by omega)
      have := h7 (s.length - x.pos) (s.length - pos) (by omega)
      obtain ⟨y, hy, h9⟩ := mends_contReps hk hx hhi h8 this (by omega) h4
      rw [h5]
      exact ⟨y, hy, by omega⟩
    · have hfra : OkFrame .. := hfr s pos ctx k _ _ hp h3
      obtain ⟨rr', rfl, h6⟩ := h5 rr rfl
      have hlo := hfra.lo
      have hhi := hfra.hi
      by_cases hc : ra.consumed = true
      · obtain ⟨r2, h7, h8⟩ := hg ra.value
        have hlt : pos < ra.pos := by have := hfra.consumed; rw [hc] at this; simpa using this
        have h2' := h2' (by omega)
        have := h7 (s.length - ra.pos) (s.length - pos) (by omega)
        rw [if_pos hc] at h4
        obtain ⟨x', hx', h9⟩ := h8.within _ _ rfl s _ _ _ _ hhi (by omega) (by omega) h4
        obtain ⟨x, hx, h10⟩ := h6 x' hx'
        exact ⟨x, hx, by omega⟩
      · rw [if_neg hc] at h4
        simp only [Bool.not_eq_true] at hc
        obtain ⟨r2, h7, h8⟩ := hg0 ra.value (hE s pos ctx ra hp h3 hc)
        have hlt : ra.pos = pos := by
          have := hfra.consumed; rw [hc] at this
          simp at *; omega
        have := h7 (s.length - pos)
        obtain ⟨x', hx', h9⟩ := h8.alone s _ _ _ hfra.hi (by rw [hlt]; omega) h4
        obtain ⟨x, hx, h10⟩ := h6 x' hx'
        rw [hlt] at h9
        exact ⟨x, hx, by omega⟩
  · intro _ _ h; cases h
  · intro _ h; cases h

theorem mends_bind {f : ParseFns τ α} {g : α → ParseFns τ β} {f1 f2 : Nat} {r1 : Nat → Nat}
    (hfr : Framed f) (h0 : f1 + f2 ≤ h) (h1 : ∀ m, r1 m + f2 ≤ rest m)
    (hf : Mends k (some (n, f1)) r1 f)
    (hg : ∀ a, ∃ r2, Below r2 rest ∧ Mends k (some (true, f2)) r2 (g a)) :
    Mends k (some (n, h)) rest (bindFns f g) := by
  have hN : Mends k none rest (bindFns f g) :=
    mends_bindNone (E := fun _ => True) hfr (fun m => ⟨by have := h1 m; omega, fun _ => h1 m⟩) (hf.weaken trivial fun _ => Nat.le_refl _)
      (fun _ _ _ _ _ _ _ => trivial)
      (fun a => by
        obtain ⟨r2, h2, h3⟩ := hg a
        exact ⟨r2, fun m' m h => h2 m' m (by omega), h3⟩)
      (fun a _ => by
        obtain ⟨r2, h2, h3⟩ := hg a
        exact ⟨r2, fun m => h2 m m (Nat.le_refl m), h3.weaken trivial fun _ => Nat.le_refl _⟩)
  constructor
  · exact hN.errNone
  · rintro _ _ ⟨⟩ s pos ctx b e hp hk hr
    have h2 := h1 (s.length - pos)
    rcases bindFn_ends hr with ⟨e', h3, h⟩ | ⟨_, _, _, _, _, h, _⟩ | ⟨ra, rb, h3, h4, h5, -⟩
    · cases h; exact hf.errSome _ _ rfl s pos ctx b _ hp (by omega) h3
    · cases h
    · have hfra : OkFrame .. := hfr s pos ctx k _ _ hp h3
      obtain ⟨e', rfl, h6⟩ := h5 e rfl
      obtain ⟨r2, h7, h8⟩ := hg ra.value
      have hlo := hfra.lo
      have hhi := hfra.hi
      have := h7 (s.length - ra.pos) (s.length - pos) (by omega)
      by_cases hc : ra.consumed = true
      · rw [if_pos hc] at h4
        exact absurd h4 (h8.never _ rfl s _ _ _ _ hhi (by omega) (by omega))
      · rw [if_neg hc] at h4
        simp only [Bool.not_eq_true] at hc
        rw [h6 hc]
        exact h8.errSome _ _ rfl s _ _ _ e' hhi (by omega) h4
  · exact hN.alone
  · rintro _ _ ⟨⟩ s pos ctx b rr hp hk hb hr
    have h2 := h1 (s.length - pos)
    rcases bindFn_ends hr with ⟨e', h3, h⟩ | ⟨ra, reps, h3, h4, rr', h, h5⟩ | ⟨ra, rb, h3, h4, -, h5⟩
    · cases h
    · cases h
      obtain ⟨x, hx, h6⟩ := hf.within _ _ rfl s pos ctx b ra hp (by omega) (by omega) h3
      have hfx := (show RecFrame .. from hfr s pos ctx k _ _ hp h3).reps x hx
      obtain ⟨r2, h7, h8⟩ := hg x.value
      have hlo := hfx.lo
      have hhi := hfx.hi
      have := h7 (s.length - x.pos) (s.length - pos) (by omega)
      obtain ⟨y, hy, h9⟩ := mends_contReps hk hx hhi h8 this (by omega) h4
      rw [h5]
      exact ⟨y, hy, by omega⟩
    · have hfra : OkFrame .. := hfr s pos ctx k _ _ hp h3
      obtain ⟨rr', rfl, h6⟩ := h5 rr rfl
      have hlo := hfra.lo
      have hhi := hfra.hi
      obtain ⟨r2, h7, h8⟩ := hg ra.value
      have := h7 (s.length - ra.pos) (s.length - pos) (by omega)
      by_cases hc : ra.consumed = true
      · rw [if_pos hc] at h4
        obtain ⟨x', hx', h9⟩ := h8.within _ _ rfl s _ _ _ _ hhi (by omega) (by omega) h4
        obtain ⟨x, hx, h10⟩ := h6 x' hx'
        exact ⟨x, hx, by omega⟩
      · rw [if_neg hc] at h4
        obtain ⟨x', hx', h9⟩ := h8.within _ _ rfl s _ _ _ _ hhi (by omega) (by omega) h4
        obtain ⟨x, hx, h10⟩ := h6 x' hx'
        exact ⟨x, hx, by omega⟩
  · rintro _ ⟨⟩ s pos ctx b e hp hk hb hr
    have h2 := h1 (s.length - pos)
    rcases bindFn_ends hr with ⟨e', h3, h⟩ | ⟨_, _, _, _, _, h, _⟩ | ⟨ra, rb, h3, h4, h5, -⟩
    · cases h; exact hf.never _ rfl s pos ctx b _ hp (by omega) (by omega) h3
    · cases h
    · have hfra : OkFrame .. := hfr s pos ctx k _ _ hp h3
      obtain ⟨e', rfl, h6⟩ := h5 e rfl
      obtain ⟨r2, h7, h8⟩ := hg ra.value
      have hlo := hfra.lo
      have hhi := hfra.hi
      have := h7 (s.length - ra.pos) (s.length - pos) (by omega)
      by_cases hc : ra.consumed = true
      · rw [if_pos hc] at h4
        exact absurd h4 (h8.never _ rfl s _ _ _ _ hhi (by omega) (by omega))
      · rw [if_neg hc] at h4
        exact absurd h4 (h8.never _ rfl s _ _ _ _ hhi (by omega) (by omega))

theorem mends_manyLoop {f : ParseFns τ α} {r : Nat → Nat} {M : Nat} (hff : Framed f) (hf : Mends k none r f)
    (hM : ∀ m, m ≤ M → r m ≤ rest M) (hk : (rest M : Int) ≤ k) (s : List τ) (fuel : Nat) :
    ∀ pos ctx c acc res, pos ≤ s.length → s.length - pos ≤ M →
      manyLoop f.fn s k fuel pos ctx c acc = .ret res →
      (∀ e, res ≠ .error e) ∧ ∀ rr, res = .recovered rr → ∃ x ∈ rr.repairs, k - rest M ≤ x.ins := by
  induction fuel with
  | zero => intro pos ctx c acc r _ _ h; simp [manyLoop] at h
  | succ fuel ih =>
    intro pos ctx c acc r hp hm hr
    have hrm := hM _ hm
    simp only [manyLoop, Out.bind_def, Out.bind_eq_ret] at hr
    obtain ⟨x, h1, hr⟩ := hr
    cases x with
    | ok o =>
      have hfo : OkFrame .. := hff s pos ctx k _ _ hp h1
      simp only at hr
      split at hr
      · exact ih _ _ _ _ _ hfo.hi (by have := hfo.lo; omega) hr
      · simp at hr
    | error e =>
      have hc := hf.errNone s pos ctx e hp (by omega) h1
      simp [hc] at hr
      subst hr
      simp
    | recovered rr =>
      have hfr : RecFrame .. := hff s pos ctx k _ _ hp h1
      obtain ⟨x, hx, h2⟩ := hf.alone s pos ctx rr hp (by omega) h1
      obtain ⟨reps, h3, rfl⟩ := continueParse_ret hr
      refine ⟨by simp, fun rr' he => ?_⟩
      cases he
      show ∃ y ∈ reps, _
      have hxp := (hfr.reps x hx).hi
      have hxl := (hfr.reps x hx).lo
      clear hfr h1 hr
      revert hx h3
      generalize rr.repairs = l
      intro hx h3
      induction l generalizing reps with
      | nil => simp at hx
      | cons a l ihl =>
        simp only [contReps, Out.bind_def, Out.bind_eq_ret, Out.pure_def, Out.ret.injEq] at h3
        obtain ⟨rb, h4, rest, h5, rfl⟩ := h3
        rcases List.mem_cons.1 hx with rfl | hx
        · have h6 := ih _ _ _ _ _ hxp (by omega) h4
          cases rb with
          | ok o =>
            refine ⟨_, List.mem_append_left _ (by simp [contOne]; rfl), ?_⟩
            simp only
            split <;> omega
          | error e => exact absurd rfl (h6.1 e)
          | recovered rb =>
            obtain ⟨y, hy, h7⟩ := h6.2 _ rfl
            exact ⟨_, List.mem_append_left _ (List.mem_map.2 ⟨y, hy, rfl⟩), h7⟩
        · obtain ⟨y, hy, h7⟩ := ihl rest hx h5
          exact ⟨y, List.mem_append_right _ hy, h7⟩

theorem mends_many {f : ParseFns τ α} {r : Nat → Nat} (fuel : Nat) (hff : Framed f) (hr : Below r rest)
    (hf : Mends k none r f) : Mends k st rest (manyFns fuel f) := by
  have hrun : ∀ s pos ctx rem res, pos ≤ s.length → (rest (s.length - pos) : Int) ≤ k →
      (manyFns fuel f).fn s pos ctx k rem = .ret res →
      (∀ e, res ≠ .error e) ∧ ∀ rr, res = .recovered rr →
        ∃ x ∈ rr.repairs, k - rest (s.length - pos) ≤ x.ins := fun s pos ctx rem res hp hk h =>
    mends_manyLoop hff hf (fun m hm => hr m _ hm) hk s fuel _ _ _ _ _ hp (Nat.le_refl _) h
  constructor
  · intro s pos ctx e hp hk h; exact absurd rfl ((hrun s pos ctx _ _ hp hk h).1 e)
  · intro _ _ _ s pos ctx b e hp hk h; exact absurd rfl ((hrun s pos ctx _ _ hp hk h).1 e)
  · intro s pos ctx rr hp hk h; exact (hrun s pos ctx _ _ hp hk h).2 rr rfl
  · intro _ _ _ s pos ctx b rr hp hk _ h
    obtain ⟨x, hx, h⟩ := (hrun s pos ctx _ _ hp hk h).2 rr rfl
    exact ⟨x, hx, .inr h⟩
  · intro _ _ s pos ctx b e hp hk _ h; exact absurd rfl ((hrun s pos ctx _ _ hp hk h).1 e)

theorem mends_maybe {f : ParseFns τ α} (hff : Framed f) (hf : Mends k none rest f) :
    Mends k st rest (maybeFns f) := by
  have hrun : ∀ s pos ctx rem r, pos ≤ s.length → (rest (s.length - pos) : Int) ≤ k →
      (maybeFns f).fn s pos ctx k rem = .ret r →
      (∀ e, r ≠ .error e) ∧ ∀ rr, r = .recovered rr → ∃ x ∈ rr.repairs, k - rest (s.length - pos) ≤ x.ins := by
    intro s pos ctx rem r hpos hk hr
    simp only [maybeFns, maybeFn, Out.bind_def, Out.bind_eq_ret] at hr
    obtain ⟨y, h3, hr⟩ := hr
    cases y with
    | ok o => simp at hr; subst hr; simp
    | error e =>
      have hc := hf.errNone s pos ctx e hpos hk h3
      simp [hc] at hr; subst hr; simp
    | recovered rr =>
      have hc := (show RecFrame .. from hff _ _ _ _ _ _ hpos h3).consumed rfl
      simp only [hc, if_true, Out.ret.injEq] at hr
      subst hr
      refine ⟨by simp [Result.fmap], fun rr' he => ?_⟩
      cases he
      obtain ⟨x, hx, h4⟩ := hf.alone s pos ctx rr hpos hk h3
      exact ⟨_, List.mem_map.2 ⟨x, hx, rfl⟩, h4⟩
  constructor
  · intro s pos ctx e hp hk h; exact absurd rfl ((hrun s pos ctx _ _ hp hk h).1 e)
  · intro _ _ _ s pos ctx b e hp hk h; exact absurd rfl ((hrun s pos ctx _ _ hp hk h).1 e)
  · intro s pos ctx rr hp hk h; exact (hrun s pos ctx _ _ hp hk h).2 rr rfl
  · intro _ _ _ s pos ctx b rr hp hk _ h
    obtain ⟨x, hx, h⟩ := (hrun s pos ctx _ _ hp hk h).2 rr rfl
    exact ⟨x, hx, .inr h⟩
  · intro _ _ s pos ctx b e hp hk _ h; exact absurd rfl ((hrun s pos ctx _ _ hp hk h).1 e)

theorem mends_diverge : Mends k st rest (divergeFns : ParseFns τ α) := by
  constructor <;> intros <;> simp_all [divergeFns]

theorem mends_undefined : Mends k st rest (undefinedFns : ParseFns τ α) := by
  constructor <;> intros <;> simp_all [undefinedFns]

theorem mends_denote [BEq τ] {env : Env τ ρ Γ} {T : MendTable ρ} (hT : T.OK env) (n : Nat) :
    ∀ {α : Type} (p : P τ ρ Γ α) st rest, p.Mendable env T st rest → Mends k st rest (denote env n p) := by
  have step : ∀ n, (∀ i st rest, P.Mendable env T (.ref i) st rest → Mends k st rest (denote env n (.ref i))) →
      ∀ {α : Type} (p : P τ ρ Γ α) st rest, p.Mendable env T st rest → Mends k st rest (denote env n p) := by
    intro n href α p
    induction p with
    | pure x => intro _ _ _; exact .of_fixes (fun _ _ _ => fixes_pureFn (.ok x)) fun _ => ⟨false, 0, fixes_pureFn (.ok x)⟩
    | pureFn x => intro _ _ _; exact .of_fixes (fun _ _ _ => fixes_pureFn x) fun _ => ⟨false, 0, fixes_pureFn x⟩
    | eof => intro _ _ _; exact .of_fixes (fun _ _ _ => fixes_eof) fun _ => ⟨false, 0, fixes_eof⟩
    | unexpected x =>
      intro st rest h
      exact .of_fixes (fun n a hs => by cases h n a hs; exact fixes_unexpected x)
        fun _ => ⟨false, 0, fixes_unexpected x⟩
    | satisfy test =>
      intro st rest h
      exact .of_fixes (fun n a hs => by cases h n a hs; exact fixes_satisfy test)
        fun _ => ⟨false, 0, fixes_satisfy test⟩
    | regexp m =>
      intro st rest h
      exact .of_fixes (fun n a hs => by
          rcases h n a hs with rfl | h
          · exact fixes_regexp m
          · exact fixes_regexp_sure m h)
        fun _ => ⟨false, 0, fixes_regexp m⟩
    | sym x l =>
      intro st rest h
      exact .of_fixes (fun n a hs => fixes_sym x l (h n a hs)) fun _ => ⟨false, 1, fixes_sym x l (Nat.le_refl 1)⟩
    | literal x ss hx =>
      intro st rest h
      exact .of_fixes (fun n a hs => fixes_literal x ss (h n a hs))
        fun _ => ⟨false, 1, fixes_literal x ss (Nat.le_refl 1)⟩
    | ref i => exact href i
    | fmap p fn ih => intro st rest h; exact mends_fmap fn (ih st rest h)
    | label p x ih => intro st rest h; exact mends_label x (ih st rest h)
    | recover p ih => intro st rest h; exact mends_recover (ih st rest h)
    | block p ih => intro st rest h; exact mends_block (ih st rest h)
    | aligned p ih =>
      rintro (_ | ⟨b, a⟩) rest h
      · exact mends_alignedNone (ih _ _ h)
      · obtain ⟨rfl, _, h⟩ := h; exact mends_aligned (ih _ _ h)
    | indented d p ih =>
      rintro (_ | ⟨b, a⟩) rest h
      · exact mends_indentedNone d (ih _ _ h)
      · obtain ⟨rfl, _, h⟩ := h; exact mends_indented d (ih _ _ h)
    | attempt p ih =>
      rintro (_ | ⟨b, a⟩) rest h
      · exact mends_attempt fun h => absurd rfl h
      · exact mends_attempt fun _ => ih _ _ h
    | recoverWith p x vs ih =>
      show ∀ st rest, _ → Mends k st rest (recoverWithFns (denote env n p) x vs)
      rw [recoverWithFns_eq]
      rintro (_ | ⟨b, a⟩) rest h
      · exact mends_recoverWithFnNone _ _ (ih _ _ h)
      · obtain ⟨_, h, h'⟩ := h; exact mends_recoverWithFn _ _ (ih _ _ h) h'
    | recoverWithFn p fn lbl ih =>
      rintro (_ | ⟨b, a⟩) rest h
      · exact mends_recoverWithFnNone _ _ (ih _ _ h)
      · obtain ⟨_, h, h'⟩ := h; exact mends_recoverWithFn _ _ (ih _ _ h) h'
    | maybe p ih => intro st rest h; exact mends_maybe (frame_denote env n p) (ih _ _ h)
    | many p ih =>
      rintro st rest ⟨r, h1, h2⟩
      exact mends_many n (frame_denote env n p) h1 (ih _ _ h2)
    | alt p q ihp ihq =>
      rintro (_ | ⟨b, a⟩) rest h
      · exact mends_altNone (frame_denote env n p) (frame_denote env n q) (ihp _ _ h.1) (ihq _ _ h.2)
      · refine mends_alt (sim_denote env n p) (sim_denote env n q) (frame_denote env n p)
          (frame_denote env n q) ?_
        rcases h with ⟨h1, h2⟩ | ⟨⟨b', h1⟩, h2⟩
        · exact .inl ⟨ihp _ _ h1, ihq _ _ h2⟩
        · exact .inr ⟨⟨b', ihp _ _ h1⟩, ihq _ _ h2⟩
    | bind p c ihp ihk =>
      rintro (_ | ⟨b, a⟩) rest h
      · obtain ⟨f2, r1, h1, h2, h3⟩ := h
        refine mends_bindNone (E := CanBeEmpty env p) (frame_denote env n p) h1 (ihp _ _ h2) ?_ ?_ ?_
        · intro s pos ctx o hp ho hc
          exact canBeEmpty_of_fast hp ((sim_denote env n p).fast_ok ho) hc
        · intro a
          obtain ⟨r2, h4, h5⟩ := (h3 a).1
          exact ⟨r2, h4, ihk a _ _ h5⟩
        · intro a ha
          obtain ⟨r2, h4, h5⟩ := (h3 a).2 ha
          exact ⟨r2, h4, ihk a _ _ h5⟩
      · obtain ⟨f1, f2, r1, h1, h2, h3, h4⟩ := h
        refine mends_bind (frame_denote env n p) h1 h2 (ihp _ _ h3) fun v => ?_
        obtain ⟨r2, h5, h6⟩ := h4 v
        exact ⟨r2, h5, ihk v _ _ h6⟩
    | seqWith p q m ihp ihq =>
      show ∀ st rest, _ → Mends k st rest (seqFns (denote env n p) (denote env n q) m)
      rw [seqFns_eq]
      rintro (_ | ⟨b, a⟩) rest h
      · obtain ⟨f2, r1, r2, h1, h2, h3, h4, h5⟩ := h
        refine mends_bindNone (E := CanBeEmpty env p) (frame_denote env n p) h1 (ihp _ _ h3) ?_
          (fun v => ⟨r2, h2, mends_fmap _ (ihq _ _ h4)⟩) ?_
        · intro s pos ctx o hp ho hc
          exact canBeEmpty_of_fast hp ((sim_denote env n p).fast_ok ho) hc
        · intro a ha
          obtain ⟨r2, h6, h7⟩ := h5 ⟨a, ha⟩
          exact ⟨r2, h6, mends_fmap _ (ihq _ _ h7)⟩
      · obtain ⟨f1, f2, r1, r2, h1, h2, h3, h4, h5⟩ := h
        exact mends_bind (frame_denote env n p) h1 h2 (ihp _ _ h4) fun v =>
          ⟨r2, h3, mends_fmap _ (ihq _ _ h5)⟩
  have refs : ∀ n i st rest, P.Mendable env T (.ref i) st rest →
      Mends k st rest (denote env n (.ref i)) := by
    intro n
    induction n with
    | zero => intro i st rest _; exact mends_diverge
    | succ n ih =>
      intro i st rest h
      cases hi : env i with
      | none =>
        have : denote env (n + 1) (.ref i) = undefinedFns := by
          show table env (n + 1) i = _
          simp only [table, hi]
        rw [this]
        exact mends_undefined
      | some q =>
        have : denote env (n + 1) (.ref i) = denote env n q := by
          show table env (n + 1) i = _
          simp only [table, hi, denote]
        rw [this]
        exact (step n ih q _ _ (hT i q hi)).weaken h.1 h.2
  intro α p; exact step n (refs n) p

end Reparsec
