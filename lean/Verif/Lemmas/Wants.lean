import Verif.Lemmas.SoundAll
import Verif.Lemmas.Yields
import Verif.Spec.Wants

/-!
# Expected lists are what was wanted at the position reached
-/

namespace Reparsec

variable {τ ρ : Type} {Γ : ρ → Type} {α β γ : Type} [BEq τ] {env : Env τ ρ Γ} {s : List τ}
  {ends : Bool}

/-! ### Inversion -/

/-- The ways in which a parser can want something, read off the parser. -/
def WantsStep (env : Env τ ρ Γ) (s : List τ) (ends : Bool) :
    {α : Type} → P τ ρ Γ α → Nat → Ctx τ → Option String → Nat → Prop
  | _, .pure _, _, _, _, _ => False
  | _, .pureFn _, _, _, _, _ => False
  | _, .unexpected x, i, _, l, q => l = some x ∧ q = i
  | _, .eof, i, _, l, q => i ≠ s.length ∧ l = some "end of file" ∧ q = i
  | _, .satisfy test, i, _, l, q =>
    (∀ t, s[i]? = some t → test t = .ok false) ∧ l = none ∧ q = i
  | _, .sym x y, i, _, l, q => (∀ t, s[i]? = some t → (t == x) = false) ∧ l = some y ∧ q = i
  | _, .literal x y _, i, _, l, q => x.isPrefixOf (s.drop i) = false ∧ l = some y ∧ q = i
  | _, .regexp m, i, _, l, q =>
    (∀ j v, m.run s i ≠ some (j, .ok (some v))) ∧ l = none ∧ q = i
  | _, .fmap p _, i, c, l, q => Wants env s ends p i c l q
  | _, .alt p p', i, c, l, q => Wants env s ends p i c l q ∨
      ∃ e, Fails env p s i c e ∧ e.consumed = false ∧ Wants env s ends p' i c l q
  | _, .bind p k, i, c, l, q => Wants env s ends p i c l q ∨
      ∃ a j c', Reads env p s i c a j c' ∧ Wants env s ends (k a) j c' l q
  | _, .seqWith p p' _, i, c, l, q => Wants env s ends p i c l q ∨
      ∃ a j c', Reads env p s i c a j c' ∧ Wants env s ends p' j c' l q
  | _, .maybe p, i, c, l, q => Wants env s ends p i c l q
  | _, .many p, i, c, l, q =>
    (Wants env s ends p i c l q ∧ (ends = false → ∀ a c', ¬ Reads env p s i c a q c')) ∨
      ∃ a j c', Reads env p s i c a j c' ∧ Wants env s ends (.many p) j c' l q
  | _, .attempt p, i, c, l, q => Wants env s ends p i c l q
  | _, .label p x, i, c, l, q =>
    (l = some x ∧ q = i) ∨ (q ≠ i ∧ Wants env s ends p i c l q)
  | _, .recover p, i, c, l, q => Wants env s ends p i c l q
  | _, .recoverWith p _ _, i, c, l, q => Wants env s ends p i c l q
  | _, .recoverWithFn p _ _, i, c, l, q => Wants env s ends p i c l q
  | _, .block p, i, c, l, q =>
    Wants env s ends p i ((c.updateLoc s i).setMark (c.updateLoc s i).loc.col) l q
  | _, .aligned p, i, c, l, q =>
    (c.mark = (c.updateLoc s i).loc.col ∧ Wants env s ends p i (c.updateLoc s i) l q) ∨
      (c.mark ≠ (c.updateLoc s i).loc.col ∧ l = some "indentation" ∧ q = i)
  | _, .indented d p, i, c, l, q =>
    ((c.mark : Int) + d = (c.updateLoc s i).loc.col ∧
      Wants env s ends p i ((c.updateLoc s i).setMark (c.updateLoc s i).loc.col) l q) ∨
      ((c.mark : Int) + d ≠ (c.updateLoc s i).loc.col ∧ l = some "indentation" ∧ q = i)
  | _, .ref x, i, c, l, q => ∃ p, env x = some p ∧ Wants env s ends p i c l q

theorem Wants.step {p : P τ ρ Γ α} {i c l q} (h : Wants env s ends p i c l q) :
    WantsStep env s ends p i c l q := by
  cases h with
  | unexpected => exact ⟨rfl, rfl⟩
  | eof h => exact ⟨h, rfl, rfl⟩
  | satisfy h => exact ⟨h, rfl, rfl⟩
  | sym h => exact ⟨h, rfl, rfl⟩
  | literal h => exact ⟨h, rfl, rfl⟩
  | regexp h => exact ⟨h, rfl, rfl⟩
  | fmap h => exact h
  | altFirst h => exact .inl h
  | altSecond h1 h2 h3 => exact .inr ⟨_, h1, h2, h3⟩
  | bindFirst h => exact .inl h
  | bindSecond h1 h2 => exact .inr ⟨_, _, _, h1, h2⟩
  | seqFirst h => exact .inl h
  | seqSecond h1 h2 => exact .inr ⟨_, _, _, h1, h2⟩
  | maybe h => exact h
  | manyFirst h h' => exact .inl ⟨h, h'⟩
  | manyLater h1 h2 => exact .inr ⟨_, _, _, h1, h2⟩
  | attempt h => exact h
  | labelHere h => exact .inl ⟨rfl, rfl⟩
  | labelEmpty h => exact .inl ⟨rfl, rfl⟩
  | labelLater h h' => exact .inr ⟨h', h⟩
  | recover h => exact h
  | recoverWith h => exact h
  | recoverWithFn h => exact h
  | block h => exact h
  | aligned h h' => exact .inl ⟨h, h'⟩
  | notAligned h => exact .inr ⟨h, rfl, rfl⟩
  | indented h h' => exact .inl ⟨h, h'⟩
  | notIndented h => exact .inr ⟨h, rfl, rfl⟩
  | ref h h' => exact ⟨_, h, h'⟩

/-! ### The invariant -/

variable {D : LocDisc s} {K : Prop}

/-- What is known of a success that ends at `j` with the expected list `ex`. `K`: the conditions for
completeness hold. -/
structure WOk (env : Env τ ρ Γ) (s : List τ) (K : Prop) (p : P τ ρ Γ α) (i : Nat) (c : Ctx τ)
    (j : Nat) (ex : List String) : Prop where
  compl : ∀ ends l q, Wants env s ends p i c l q →
    q ≤ j ∧ ((ends = true → K) → ∀ x, q = j → l = some x → x ∈ ex)
  sound : ∀ ends, ∀ x ∈ ex, Wants env s ends p i c (some x) j

/-- What is known of a failure at position `q`. -/
structure WErr (env : Env τ ρ Γ) (D : LocDisc s) (K : Prop) (p : P τ ρ Γ α) (i : Nat) (c : Ctx τ)
    (e : Err) (q : Nat) : Prop where
  rel : D.rel q e.loc
  lo : i ≤ q
  hi : q ≤ s.length
  consumed : e.consumed = decide (i < q)
  some : ∃ l, ∀ ends, Wants env s ends p i c l q
  compl : ∀ ends l q', Wants env s ends p i c l q' →
    q' ≤ q ∧ ((ends = true → K) → ∀ x, q' = q → l = Option.some x → x ∈ e.expected)
  sound : ∀ ends, ∀ x ∈ e.expected, Wants env s ends p i c (Option.some x) q

def WRes (env : Env τ ρ Γ) (D : LocDisc s) (K : Prop) (p : P τ ρ Γ α) (i : Nat) (c : Ctx τ) :
    Simple τ α → Prop
  | .ok r => WOk env s K p i c r.pos r.expected
  | .error e => ∃ q, WErr env D K p i c e q

def Seen (env : Env τ ρ Γ) (D : LocDisc s) (K : Prop) (n : Nat) (p : P τ ρ Γ α) : Prop :=
  ∀ i c x, i ≤ s.length → CtxOK D c i → (denote env n p).fast s i c = .ret x → WRes env D K p i c x

/-- The results of parsers that want the same. -/
theorem WOk.congr {p : P τ ρ Γ α} {p' : P τ ρ Γ β} {i c c' j ex}
    (h : WOk env s K p i c j ex) (hw : ∀ ends l q, Wants env s ends p' i c' l q ↔ Wants env s ends p i c l q) :
    WOk env s K p' i c' j ex := by
  refine ⟨fun ends l q h' => ?_, fun ends x hx => ?_⟩
  · exact h.compl ends l q ((hw ends l q).1 h')
  · rw [hw]; exact h.sound ends x hx

theorem WErr.congr {p : P τ ρ Γ α} {p' : P τ ρ Γ β} {i c c' e q} (h : WErr env D K p i c e q)
    (hw : ∀ ends l q, Wants env s ends p' i c' l q ↔ Wants env s ends p i c l q) : WErr env D K p' i c' e q := by
  refine ⟨h.rel, h.lo, h.hi, h.consumed, ?_, fun ends l q h' => ?_, fun ends x hx => ?_⟩
  · obtain ⟨l, h1⟩ := h.some; exact ⟨l, fun ends => (hw ends l q).2 (h1 ends)⟩
  · exact h.compl ends l q ((hw ends l q).1 h')
  · rw [hw]; exact h.sound ends x hx

/-- A terminal that fails. -/
theorem werr_here {p : P τ ρ Γ α} {i : Nat} {c : Ctx τ} {l : Option String} {loc : Loc}
    {ex : List String} (hr : D.rel i loc)
    (hp : i ≤ s.length) (hw : ∀ ends l' q, Wants env s ends p i c l' q ↔ l' = l ∧ q = i)
    (hl : ∀ x, l = some x ↔ x ∈ ex) : WRes env D K p i c (.error { loc := loc, expected := ex }) := by
  refine ⟨i, hr, Nat.le_refl _, hp, by simp, ⟨l, fun _ => (hw _ _ _).2 ⟨rfl, rfl⟩⟩, ?_, ?_⟩
  · rintro ends l' q h
    obtain ⟨rfl, rfl⟩ := (hw _ _ _).1 h
    exact ⟨Nat.le_refl _, fun _ x _ h => (hl x).1 h⟩
  · intro ends x hx
    exact (hw _ _ _).2 ⟨((hl x).2 hx).symm, rfl⟩

theorem wok_none {p : P τ ρ Γ α} {i : Nat} {c : Ctx τ} {r : Ok τ α}
    (hw : ∀ ends l q, ¬ Wants env s ends p i c l q) (he : r.expected = []) :
    WOk env s K p i c r.pos r.expected :=
  ⟨fun ends l q h => absurd h (hw ends l q), fun ends x hx => by rw [he] at hx; cases hx⟩

theorem seen_pureFn (n : Nat) (v : Except Exn α) : Seen env D K n (.pureFn v : P τ ρ Γ α) := by
  intro i c x hi hc h
  change (pureFnFns v).fast s i c = _ at h
  cases v with
  | error e => simp [pureFnFns] at h
  | ok v => simp [pureFnFns] at h; subst h; exact wok_none (fun ends l q h => h.step) rfl

theorem seen_pure (n : Nat) (v : α) : Seen env D K n (.pure v : P τ ρ Γ α) := by
  intro i c x hi hc h
  change (pureFns v).fast s i c = _ at h
  simp [pureFns] at h; subst h; exact wok_none (fun ends l q h => h.step) rfl

theorem seen_unexpected (n : Nat) (y : String) : Seen env D K n (.unexpected y : P τ ρ Γ Unit) := by
  intro i c x hi hc h
  change (unexpectedFns y).fast s i c = _ at h
  simp [unexpectedFns] at h; subst h
  refine werr_here (l := some y) (hc.report (Nat.le_refl _) hi) hi (fun ends l' q => ⟨fun h => h.step, ?_⟩)
    (by simp [eq_comm])
  rintro ⟨rfl, rfl⟩; exact .unexpected

theorem seen_eof (n : Nat) : Seen env D K n (.eof : P τ ρ Γ Unit) := by
  intro i c x hi hc h
  change eofFast s i c = _ at h
  unfold eofFast at h
  split at h
  · next he =>
    simp only [Out.ret.injEq] at h; subst h
    exact wok_none (fun ends l q h => h.step.1 he) rfl
  · next he =>
    simp only [Out.ret.injEq] at h; subst h
    refine werr_here (l := some "end of file") (hc.report (Nat.le_refl _) hi) hi
      (fun ends l' q => ⟨fun h => h.step.2, ?_⟩) (by simp [eq_comm])
    rintro ⟨rfl, rfl⟩; exact .eof he

theorem seen_satisfy (n : Nat) (test : τ → Except Exn Bool) :
    Seen env D K n (.satisfy test : P τ ρ Γ τ) := by
  intro i c x hi hc h
  change satisfyFast test s i c = _ at h
  simp only [satisfyFast, Out.bind_def, Out.bind_eq_ret, Out.ofExcept_eq_ret] at h
  obtain ⟨y, h1, h2⟩ := h
  cases y with
  | some t =>
    have h3 := testAt_some h1
    simp only [Out.ret.injEq] at h2; subst h2
    refine wok_none (fun ends l q h => ?_) rfl
    have := h.step.1 t h3.1
    rw [h3.2] at this; cases this
  | none =>
    simp only [Out.ret.injEq] at h2; subst h2
    refine werr_here (l := none) (hc.report (Nat.le_refl _) hi) hi
      (fun ends l' q => ⟨fun h => h.step.2, ?_⟩) (by simp)
    rintro ⟨rfl, rfl⟩
    refine .satisfy fun t ht => ?_
    unfold testAt at h1
    rw [ht] at h1
    simp only at h1
    cases hb : test t with
    | error e => simp [hb] at h1
    | ok b => cases b with
      | false => rfl
      | true => simp [hb] at h1

theorem seen_sym (n : Nat) (y : τ) (l : String) : Seen env D K n (.sym y l : P τ ρ Γ τ) := by
  intro i c x hi hc h
  change symFast y [l] s i c = _ at h
  unfold symFast at h
  split at h
  · next t h1 =>
    have h3 := symAt_some h1
    simp only [Out.ret.injEq] at h; subst h
    refine wok_none (fun ends l q h => ?_) rfl
    have := h.step.1 t h3.1
    rw [h3.2] at this; cases this
  · next h1 =>
    simp only [Out.ret.injEq] at h; subst h
    refine werr_here (l := some l) (hc.report (Nat.le_refl _) hi) hi
      (fun ends l' q => ⟨fun h => h.step.2, ?_⟩) (by simp [eq_comm])
    rintro ⟨rfl, rfl⟩
    refine .sym fun t ht => ?_
    unfold symAt at h1
    rw [ht] at h1
    simp only at h1
    cases hb : t == y with
    | false => rfl
    | true => simp [hb] at h1

theorem seen_literal (n : Nat) (y : List τ) (l : String) (hy : y ≠ []) :
    Seen env D K n (.literal y l hy : P τ ρ Γ (List τ)) := by
  intro i c x hi hc h
  change literalFast y [l] s i c = _ at h
  unfold literalFast at h
  split at h
  · next h1 =>
    simp only [Out.ret.injEq] at h; subst h
    refine wok_none (fun ends l q h => ?_) rfl
    have := h.step.1
    unfold startsWith at h1
    rw [h1] at this; cases this
  · next h1 =>
    simp only [Out.ret.injEq] at h; subst h
    refine werr_here (l := some l) (hc.report (Nat.le_refl _) hi) hi
      (fun ends l' q => ⟨fun h => h.step.2, ?_⟩) (by simp [eq_comm])
    rintro ⟨rfl, rfl⟩
    exact .literal (by simpa [startsWith] using h1)

theorem seen_regexp (n : Nat) (m : Matcher τ α) : Seen env D K n (.regexp m : P τ ρ Γ α) := by
  intro i c x hi hc h
  change regexpFast m s i c = _ at h
  simp only [regexpFast, Out.bind_def, Out.bind_eq_ret, Out.ofExcept_eq_ret] at h
  obtain ⟨y, h1, h2⟩ := h
  cases y with
  | some t =>
    obtain ⟨e, v⟩ := t
    have h3 := Matcher.at_some h1
    simp only [Out.ret.injEq] at h2; subst h2
    exact wok_none (fun ends l q h => h.step.1 _ _ h3) rfl
  | none =>
    simp only [Out.ret.injEq] at h2; subst h2
    refine werr_here (l := none) (hc.report (Nat.le_refl _) hi) hi
      (fun ends l' q => ⟨fun h => h.step.2, ?_⟩) (by simp)
    rintro ⟨rfl, rfl⟩
    refine .regexp fun j v hr => ?_
    unfold Matcher.at at h1
    rw [hr] at h1
    simp at h1

/-! ### Combinators -/

theorem reads_of_fast {n : Nat} {p : P τ ρ Γ α} {i : Nat} {c : Ctx τ} {r : Ok τ α}
    (h : (denote env n p).fast s i c = .ret (.ok r)) : Reads env p s i c r.value r.pos r.ctx :=
  ⟨r.expected, r.consumed, n, h⟩

theorem reads_eq {n : Nat} {p : P τ ρ Γ α} {i : Nat} {c : Ctx τ} {r : Ok τ α} {a j c'}
    (h : (denote env n p).fast s i c = .ret (.ok r)) (h' : Reads env p s i c a j c') :
    a = r.value ∧ j = r.pos ∧ c' = r.ctx := by
  obtain ⟨ex, b, h'⟩ := h'
  have := RunPlain.unique (o := .ret (.ok r)) ⟨n, h⟩ h'
  cases this; exact ⟨rfl, rfl, rfl⟩

theorem not_fails {n : Nat} {p : P τ ρ Γ α} {i : Nat} {c : Ctx τ} {r : Ok τ α} {e}
    (h : (denote env n p).fast s i c = .ret (.ok r)) (h' : Fails env p s i c e) : False := by
  have := RunPlain.unique (o := .ret (.ok r)) ⟨n, h⟩ h'
  cases this

theorem fails_eq {n : Nat} {p : P τ ρ Γ α} {i : Nat} {c : Ctx τ} {e e'}
    (h : (denote env n p).fast s i c = .ret (.error e)) (h' : Fails env p s i c e') : e' = e := by
  have := RunPlain.unique (o := .ret (.error e)) ⟨n, h⟩ h'
  cases this; rfl

theorem not_reads {n : Nat} {p : P τ ρ Γ α} {i : Nat} {c : Ctx τ} {e a j c'}
    (h : (denote env n p).fast s i c = .ret (.error e)) (h' : Reads env p s i c a j c') : False := by
  obtain ⟨ex, b, h'⟩ := h'
  have := RunPlain.unique (o := .ret (.error e)) ⟨n, h⟩ h'
  cases this

/-- `p'` wants what `p` wants from `i` and what `q` wants from `j`. -/
theorem WOk.thenOk {p : P τ ρ Γ α} {q : P τ ρ Γ β} {p' : P τ ρ Γ γ} {i c j c' k ex1 ex2 ex}
    (h1 : WOk env s K p i c j ex1) (h2 : WOk env s K q j c' k ex2) (hk : j ≤ k)
    (hw : ∀ ends l x, Wants env s ends p' i c l x ↔ Wants env s ends p i c l x ∨ Wants env s ends q j c' l x)
    (hex : ex = if j < k then ex2 else ex1 ++ ex2) : WOk env s K p' i c k ex := by
  subst hex
  refine ⟨fun ends l x h => ?_, fun ends x hx => ?_⟩
  · rcases (hw ends l x).1 h with h | h
    · obtain ⟨h3, h4⟩ := h1.compl ends l x h
      refine ⟨by omega, fun kk y hy hl => ?_⟩
      have : ¬ j < k := by omega
      rw [if_neg this]
      exact List.mem_append_left _ (h4 kk y (by omega) hl)
    · obtain ⟨h3, h4⟩ := h2.compl ends l x h
      refine ⟨h3, fun kk y hy hl => ?_⟩
      have := h4 kk y hy hl
      split
      · exact this
      · exact List.mem_append_right _ this
  · rw [hw]
    split at hx
    · exact .inr (h2.sound ends x hx)
    · next hlt =>
      have : j = k := by omega
      subst this
      rcases List.mem_append.1 hx with hx | hx
      · exact .inl (h1.sound ends x hx)
      · exact .inr (h2.sound ends x hx)

theorem WOk.thenErr {p : P τ ρ Γ α} {q : P τ ρ Γ β} {p' : P τ ρ Γ γ} {i c j c' k ex1 e e'}
    (h1 : WOk env s K p i c j ex1) (h2 : WErr env D K q j c' e k) (hj : i ≤ j)
    (hw : ∀ ends l x, Wants env s ends p' i c l x ↔ Wants env s ends p i c l x ∨ Wants env s ends q j c' l x)
    (hl : D.rel k e'.loc) (hc : e'.consumed = decide (i < k))
    (hex : e'.expected = if j < k then e.expected else ex1 ++ e.expected) :
    WErr env D K p' i c e' k := by
  have hlo := h2.lo
  refine ⟨hl, by omega, h2.hi, hc, ?_, fun ends l x h => ?_, fun ends x hx => ?_⟩
  · obtain ⟨l, h⟩ := h2.some; exact ⟨l, fun ends => (hw ends l k).2 (.inr (h ends))⟩
  · rw [hex]
    rcases (hw ends l x).1 h with h | h
    · obtain ⟨h3, h4⟩ := h1.compl ends l x h
      refine ⟨by omega, fun kk y hy hl => ?_⟩
      have : ¬ j < k := by omega
      rw [if_neg this]
      exact List.mem_append_left _ (h4 kk y (by omega) hl)
    · obtain ⟨h3, h4⟩ := h2.compl ends l x h
      refine ⟨h3, fun kk y hy hl => ?_⟩
      have := h4 kk y hy hl
      split
      · exact this
      · exact List.mem_append_right _ this
  · rw [hw]
    rw [hex] at hx
    split at hx
    · exact .inr (h2.sound ends x hx)
    · next hlt =>
      have : j = k := by omega
      subst this
      rcases List.mem_append.1 hx with hx | hx
      · exact .inl (h1.sound ends x hx)
      · exact .inr (h2.sound ends x hx)

/-- A failure without consuming is like a success without consuming. -/
theorem WErr.asOk {p : P τ ρ Γ α} {i c e q} (h : WErr env D K p i c e q)
    (hc : e.consumed = false) : q = i ∧ WOk env s K p i c i e.expected := by
  have h1 := h.consumed
  have h2 := h.lo
  rw [hc] at h1
  have : q = i := by simp at h1; omega
  subst this
  exact ⟨rfl, h.compl, h.sound⟩

/-- What `Wants` gives after the first part has succeeded. -/
theorem wants_split {n : Nat} {p : P τ ρ Γ α} {i : Nat} {c : Ctx τ} {r : Ok τ α}
    (h : (denote env n p).fast s i c = .ret (.ok r)) {A : Prop} {B : α → Nat → Ctx τ → Prop} :
    (A ∨ ∃ a j c', Reads env p s i c a j c' ∧ B a j c') ↔ A ∨ B r.value r.pos r.ctx := by
  constructor
  · rintro (h' | ⟨a, j, c', h1, h2⟩)
    · exact .inl h'
    · obtain ⟨rfl, rfl, rfl⟩ := reads_eq h h1; exact .inr h2
  · rintro (h' | h')
    · exact .inl h'
    · exact .inr ⟨_, _, _, reads_of_fast h, h'⟩

theorem WOk.thenRes {p : P τ ρ Γ α} {q : P τ ρ Γ β} {p' : P τ ρ Γ β} {i c} {r : Ok τ α}
    {z : Simple τ β} (h1 : WOk env s K p i c r.pos r.expected) (hf : OkFrame s i c r)
    (hw : ∀ ends l x, Wants env s ends p' i c l x ↔ Wants env s ends p i c l x ∨ Wants env s ends q r.pos r.ctx l x)
    (h2 : WRes env D K q r.pos r.ctx z) (hz : ∀ o, z = .ok o → OkFrame s r.pos r.ctx o) :
    WRes env D K p' i c (z.prependExpected r.expected r.consumed) := by
  have g1 := hf.lo
  have g2 := hf.consumed
  cases z with
  | ok o =>
    have ho := hz o rfl
    have g3 := ho.lo
    have g4 := ho.consumed
    have : (o.prependExpected r.expected r.consumed).pos = o.pos := by
      unfold Ok.prependExpected; split <;> rfl
    show WOk env s K p' i c (o.prependExpected r.expected r.consumed).pos _
    rw [this]
    refine WOk.thenOk h1 h2 g3 hw ?_
    unfold Ok.prependExpected
    rw [g4]
    by_cases h : r.pos < o.pos <;> simp [h]
  | error e =>
    obtain ⟨k, hk⟩ := h2
    have g3 := hk.lo
    have g4 := hk.consumed
    refine ⟨k, WOk.thenErr h1 hk g1 hw ?_ ?_ ?_⟩
    · have := hk.rel
      unfold Err.prependExpected; split <;> exact this
    · rw [Err.prependExpected_consumed, g4, g2]
      rw [Bool.eq_iff_iff]
      simp only [Bool.or_eq_true, decide_eq_true_eq]
      omega
    · unfold Err.prependExpected
      rw [g4]
      by_cases h : r.pos < k <;> simp [h]

theorem Seen.congr {n : Nat} {p p' : P τ ρ Γ α} (h : Seen env D K n p)
    (hd : denote env n p' = denote env n p)
    (hw : ∀ i c ends l q, Wants env s ends p' i c l q ↔ Wants env s ends p i c l q) : Seen env D K n p' := by
  intro i c x hi hc hx
  rw [hd] at hx
  have := h i c x hi hc hx
  cases x with
  | ok r => exact WOk.congr this (hw i c)
  | error e => obtain ⟨q, hq⟩ := this; exact ⟨q, hq.congr (hw i c)⟩

theorem seen_fmap {n : Nat} {p : P τ ρ Γ α} (fn : α → Except Exn β) (h : Seen env D K n p) :
    Seen env D K n (.fmap p fn) := by
  intro i c x hi hc hx
  change fmapFast (denote env n p) fn s i c = _ at hx
  simp only [fmapFast, Out.bind_def, Out.bind_eq_ret] at hx
  obtain ⟨y, h1, h2⟩ := hx
  have hy := h i c y hi hc h1
  have hw : ∀ (ends : Bool) l q, Wants env s ends (.fmap p fn) i c l q ↔ Wants env s ends p i c l q :=
    fun ends l q => ⟨fun h => h.step, .fmap⟩
  cases y with
  | ok r =>
    simp only [Simple.fmapM, Ok.fmapM, Out.bind_def, Out.bind_eq_ret, Out.pure_def,
      Out.ret.injEq] at h2
    obtain ⟨v, ⟨_, _, rfl⟩, rfl⟩ := h2
    exact WOk.congr hy hw
  | error e =>
    simp only [Simple.fmapM, Out.ret.injEq] at h2; subst h2
    obtain ⟨q, hq⟩ := hy
    exact ⟨q, hq.congr hw⟩

theorem seen_alt {n : Nat} {p p' : P τ ρ Γ α} (h : Seen env D K n p) (h' : Seen env D K n p') :
    Seen env D K n (.alt p p') := by
  intro i c x hi hc hx
  change altFast (denote env n p) (denote env n p') s i c = _ at hx
  simp only [altFast, Out.bind_def, Out.bind_eq_ret] at hx
  obtain ⟨y, h1, h2⟩ := hx
  have hy := h i c y hi hc h1
  cases y with
  | ok r =>
    simp only [Out.ret.injEq] at h2; subst h2
    exact WOk.congr hy fun ends l q => ⟨fun h => by
      rcases h.step with h | ⟨e, h3, _⟩
      · exact h
      · exact (not_fails h1 h3).elim, .altFirst⟩
  | error ea =>
    obtain ⟨qa, ha⟩ := hy
    simp only at h2
    split at h2
    · next hcon =>
      simp only [Out.ret.injEq] at h2; subst h2
      refine ⟨qa, ha.congr fun ends l q => ⟨fun h => ?_, .altFirst⟩⟩
      rcases h.step with h | ⟨e, h3, h4, _⟩
      · exact h
      · rw [fails_eq h1 h3, hcon] at h4; cases h4
    · next hcon =>
      have hcon : ea.consumed = false := by simpa using hcon
      obtain ⟨rfl, hok⟩ := ha.asOk hcon
      have hw : ∀ (ends : Bool) l q, Wants env s ends (.alt p p') qa c l q ↔
          Wants env s ends p qa c l q ∨ Wants env s ends p' qa c l q := fun ends l q => ⟨fun h => by
        rcases h.step with h | ⟨e, h3, h4, h5⟩
        · exact .inl h
        · exact .inr h5, by
        rintro (h | h)
        · exact .altFirst h
        · exact .altSecond ⟨n, h1⟩ hcon h⟩
      simp only [Out.bind_eq_ret] at h2
      obtain ⟨z, h3, h4⟩ := h2
      have hz := h' qa c z hi hc h3
      cases z with
      | ok rb =>
        have hf := frame_fast env n p' hi h3
        have hlo := hf.lo
        have hcn := hf.consumed
        simp only at h4
        split at h4
        · next hb =>
          rw [hb] at hcn
          simp only [Out.ret.injEq] at h4; subst h4
          refine WOk.thenOk hok hz hlo hw ?_
          have : qa < rb.pos := by simpa using hcn.symm
          rw [if_pos this]
        · next hb =>
          have hb : rb.consumed = false := by simpa using hb
          rw [hb] at hcn
          simp only [Out.ret.injEq] at h4; subst h4
          have : ¬ qa < rb.pos := by simpa using hcn
          simp only [Ok.setExpected, hb, Bool.false_eq_true, if_false]
          refine WOk.thenOk hok hz hlo hw ?_
          rw [if_neg this]
      | error eb =>
        obtain ⟨qb, hb⟩ := hz
        have hlo := hb.lo
        have hcn := hb.consumed
        simp only at h4
        split at h4
        · next hb' =>
          simp only [Out.ret.injEq] at h4; subst h4
          refine ⟨qb, WOk.thenErr hok hb (Nat.le_refl _) hw hb.rel hcn ?_⟩
          rw [hb'] at hcn
          have : qa < qb := by simpa using hcn.symm
          rw [if_pos this]
        · next hb' =>
          have hb' : eb.consumed = false := by simpa using hb'
          simp only [Out.ret.injEq] at h4; subst h4
          obtain ⟨rfl, -⟩ := hb.asOk hb'
          exact ⟨qb, WOk.thenErr hok hb (Nat.le_refl _) hw ha.rel (by simp) (by simp)⟩

theorem seen_bind {n : Nat} {p : P τ ρ Γ α} {k : α → P τ ρ Γ β}
    (hctx : ∀ i c r, i ≤ s.length → CtxOK D c i → (denote env n p).fast s i c = .ret (.ok r) →
      CtxOK D r.ctx r.pos)
    (h : Seen env D K n p) (h' : ∀ a, Seen env D K n (k a)) : Seen env D K n (.bind p k) := by
  intro i c x hi hc hx
  change bindFast (denote env n p) (fun a => denote env n (k a)) s i c = _ at hx
  simp only [bindFast, Out.bind_def, Out.bind_eq_ret] at hx
  obtain ⟨y, h1, h2⟩ := hx
  have hy := h i c y hi hc h1
  cases y with
  | error e =>
    simp only [Out.ret.injEq] at h2; subst h2
    obtain ⟨q, hq⟩ := hy
    refine ⟨q, hq.congr fun ends l q => ⟨fun h => ?_, .bindFirst⟩⟩
    rcases h.step with h | ⟨a, j, c', h3, _⟩
    · exact h
    · exact (not_reads h1 h3).elim
  | ok r =>
    simp only [Out.bind_eq_ret, Out.pure_def, Out.ret.injEq] at h2
    obtain ⟨z, h3, rfl⟩ := h2
    have hf := frame_fast env n p hi h1
    have hz := h' r.value r.pos r.ctx z hf.hi (hctx _ _ _ hi hc h1) h3
    have hw : ∀ (ends : Bool) l q, Wants env s ends (.bind p k) i c l q ↔
        Wants env s ends p i c l q ∨ Wants env s ends (k r.value) r.pos r.ctx l q := fun ends l q =>
      Iff.trans ⟨Wants.step, by
        rintro (h | ⟨a, j, c', h4, h5⟩)
        · exact .bindFirst h
        · exact .bindSecond h4 h5⟩ (wants_split h1 (B := fun a j c' => Wants env s ends (k a) j c' l q))
    exact hy.thenRes hf hw hz fun o ho => frame_fast env n (k r.value) hf.hi (ho ▸ h3)

theorem seen_seqWith {n : Nat} {p : P τ ρ Γ α} {p' : P τ ρ Γ β} (m : α → β → γ)
    (hctx : ∀ i c r, i ≤ s.length → CtxOK D c i → (denote env n p).fast s i c = .ret (.ok r) →
      CtxOK D r.ctx r.pos)
    (h : Seen env D K n p) (h' : Seen env D K n p') : Seen env D K n (.seqWith p p' m) := by
  refine (seen_bind (k := fun a => .fmap p' fun b => .ok (m a b)) hctx h
    fun a => seen_fmap _ h').congr (seqFns_eq _ _ _) fun i c ends l q => ?_
  constructor
  · intro h
    rcases h.step with h | ⟨a, j, c', h1, h2⟩
    · exact .bindFirst h
    · exact .bindSecond h1 (.fmap h2)
  · intro h
    rcases h.step with h | ⟨a, j, c', h1, h2⟩
    · exact .seqFirst h
    · exact .seqSecond h1 h2.step

theorem seen_maybe {n : Nat} {p : P τ ρ Γ α} (h : Seen env D K n p) :
    Seen env D K n (.maybe p) := by
  refine (seen_alt (seen_fmap (fun a => .ok (some a)) h) (seen_pure n none)).congr
    (maybeFns_eq _) fun i c ends l q => ?_
  constructor
  · intro h; exact .altFirst (.fmap h.step)
  · intro h
    rcases h.step with h | ⟨e, _, _, h⟩
    · exact .maybe h.step
    · exact h.step.elim

omit [BEq τ] in
theorem many_error_consumed {f : FastFn τ α} {fuel i c b v e}
    (h : manyFastLoop f s fuel i c b v = .ret (.error e)) : e.consumed = true := by
  induction fuel generalizing i c b v with
  | zero => cases h
  | succ m ih =>
    simp only [manyFastLoop, Out.bind_def, Out.bind_eq_ret] at h
    obtain ⟨y, h1, h2⟩ := h
    cases y with
    | ok r =>
      simp only at h2
      split at h2
      · exact ih h2
      · cases h2
    | error e' =>
      simp only at h2
      split at h2
      · next hc => cases h2; exact hc
      · cases h2

theorem seen_many {n : Nat} {p : P τ ρ Γ α}
    (hctx : ∀ i c r, i ≤ s.length → CtxOK D c i → (denote env n p).fast s i c = .ret (.ok r) →
      CtxOK D r.ctx r.pos)
    (hK : K → ∀ i c a j c', Reads env p s i c a j c' →
      ∀ x, ¬ Wants env s true p i c (some x) j)
    (h : Seen env D K n p) : Seen env D K n (.many p) := by
  have key : ∀ fuel i c b v x, i ≤ s.length → CtxOK D c i →
      manyFastLoop (denote env n p).fast s fuel i c b v = .ret x →
      match x with
      | .ok r => i ≤ r.pos ∧ WOk env s K (.many p) i c r.pos r.expected
      | .error e => ∃ q, WErr env D K (.many p) i c e q := by
    intro fuel
    induction fuel with
    | zero => intro i c b v x _ _ hx; cases hx
    | succ m ih =>
      intro i c b v x hi hc hx
      simp only [manyFastLoop, Out.bind_def, Out.bind_eq_ret] at hx
      obtain ⟨y, h1, h2⟩ := hx
      have hy := h i c y hi hc h1
      cases y with
      | ok r =>
        simp only at h2
        split at h2
        · next hcon =>
          have hf := frame_fast env n p hi h1
          have hlt : i < r.pos := by
            have := hf.consumed; rw [hcon] at this; simpa using this.symm
          have hr := ih r.pos r.ctx true _ x hf.hi (hctx _ _ _ hi hc h1) h2
          have hw : ∀ ends l q j, Wants env s ends (.many p) i c l q → r.pos ≤ j →
              Wants env s ends (.many p) r.pos r.ctx l q ∨
                (q ≤ r.pos ∧ ((ends = true → K) → ∀ x, q = j → l ≠ some x)) := by
            intro ends l q j hq hj
            rcases hq.step with ⟨hq, hg⟩ | ⟨a, j', c', h4, h5⟩
            · obtain ⟨g1, g2⟩ := WOk.compl hy ends l q hq
              refine .inr ⟨g1, ?_⟩
              rintro k x rfl rfl
              have : q = r.pos := by omega
              subst this
              cases hends : ends with
              | false => exact hg hends _ _ (reads_of_fast h1)
              | true => exact hK (k hends) _ _ _ _ _ (reads_of_fast h1) x (hends ▸ hq)
            · obtain ⟨rfl, rfl, rfl⟩ := reads_eq h1 h4
              exact .inl h5
          cases x with
          | ok o =>
            obtain ⟨g1, g2⟩ := hr
            refine ⟨by omega, fun ends l q hq => ?_, fun ends x hx =>
              .manyLater (reads_of_fast h1) (g2.sound ends x hx)⟩
            rcases hw ends l q o.pos hq g1 with hq | ⟨g3, g4⟩
            · exact g2.compl ends l q hq
            · exact ⟨by omega, fun k x hx hl => (g4 k x hx hl).elim⟩
          | error e =>
            obtain ⟨q, hq⟩ := hr
            have g1 := hq.lo
            obtain ⟨l0, hl0⟩ := hq.some
            refine ⟨q, hq.rel, by omega, hq.hi, ?_, ⟨l0, fun _ => .manyLater (reads_of_fast h1) (hl0 _)⟩,
              fun ends l q' hq' => ?_, fun ends x hx => .manyLater (reads_of_fast h1) (hq.sound ends x hx)⟩
            · -- the failing item has consumed
              have g3 : e.consumed = true := many_error_consumed h2
              rw [g3]
              have : i < q := by omega
              simp [this]
            · rcases hw ends l q' q hq' g1 with hq' | ⟨g3, g4⟩
              · exact hq.compl ends l q' hq'
              · exact ⟨by omega, fun k x hx hl => (g4 k x hx hl).elim⟩
        · cases h2
      | error e =>
        have hw : ∀ (ends : Bool) l q, Wants env s ends (.many p) i c l q ↔ Wants env s ends p i c l q :=
          fun ends l q => ⟨fun h => by
            rcases h.step with h | ⟨a, j, c', h3, _⟩
            · exact h.1
            · exact (not_reads h1 h3).elim, fun h => .manyFirst h fun _ _ _ h' => not_reads h1 h'⟩
        obtain ⟨q, hq⟩ := hy
        simp only at h2
        split at h2
        · simp only [Out.ret.injEq] at h2; subst h2
          exact ⟨q, hq.congr hw⟩
        · next hcon =>
          simp only [Out.ret.injEq] at h2; subst h2
          obtain ⟨rfl, hok⟩ := hq.asOk (by simpa using hcon)
          exact ⟨Nat.le_refl _, hok.congr hw⟩
  intro i c x hi hc hx
  have := key n i c false [] x hi hc hx
  cases x with
  | ok r => exact this.2
  | error e => exact this

theorem seen_label {n : Nat} {p : P τ ρ Γ α} (y : String) (h : Seen env D K n p) :
    Seen env D K n (.label p y) := by
  intro i c x hi hc hx
  change (labelFns (denote env n p) y).fast s i c = _ at hx
  simp only [labelFns, Out.bind_def, Out.bind_eq_ret, Out.pure_def, Out.ret.injEq] at hx
  obtain ⟨z, h1, rfl⟩ := hx
  have hz := h i c z hi hc h1
  cases z with
  | ok r =>
    have hf := frame_fast env n p hi h1
    have hlo := hf.lo
    have hcn := hf.consumed
    have hz : WOk env s K p i c r.pos r.expected := hz
    cases hcon : r.consumed with
    | true =>
      rw [hcon] at hcn
      have hlt : i < r.pos := by simpa using hcn.symm
      simp only [Simple.setExpected, Ok.setExpected, hcon, if_true]
      refine ⟨fun ends l q hq => ?_, fun ends x hx => .labelLater (hz.sound ends x hx) (by omega)⟩
      rcases hq.step with ⟨rfl, rfl⟩ | ⟨g1, g2⟩
      · exact ⟨hlo, fun _ x hx => by omega⟩
      · exact hz.compl ends l q g2
    | false =>
      rw [hcon] at hcn
      have hpos : r.pos = i := by
        have : ¬ i < r.pos := by simpa using hcn
        omega
      simp only [Simple.setExpected, Ok.setExpected, hcon, Bool.false_eq_true, if_false]
      refine ⟨fun ends l q hq => ?_, fun ends x hx => ?_⟩
      · rcases hq.step with ⟨rfl, rfl⟩ | ⟨g1, g2⟩
        · exact ⟨hlo, fun _ x _ hx => by cases hx; simp⟩
        · have := (hz.compl ends l q g2).1
          exact ⟨this, fun _ x hx => absurd (hx.trans hpos) g1⟩
      · simp only [List.mem_singleton] at hx; subst hx
        have := reads_of_fast h1
        simp only [hpos] at this ⊢
        exact .labelEmpty this
  | error e =>
    obtain ⟨q, hq⟩ := hz
    have hlo := hq.lo
    have hcn := hq.consumed
    cases hcon : e.consumed with
    | true =>
      rw [hcon] at hcn
      have hlt : i < q := by simpa using hcn.symm
      simp only [Simple.setExpected, Err.setExpected, hcon, if_true]
      obtain ⟨l0, hl0⟩ := hq.some
      refine ⟨q, hq.rel, hlo, hq.hi, hq.consumed, ⟨l0, fun _ => .labelLater (hl0 _) (by omega)⟩,
        fun ends l q' hq' => ?_, fun ends x hx => .labelLater (hq.sound ends x hx) (by omega)⟩
      rcases hq'.step with ⟨rfl, rfl⟩ | ⟨g1, g2⟩
      · exact ⟨hlo, fun _ x hx => by omega⟩
      · exact hq.compl ends l q' g2
    | false =>
      obtain ⟨rfl, -⟩ := hq.asOk hcon
      simp only [Simple.setExpected, Err.setExpected, hcon, Bool.false_eq_true, if_false]
      obtain ⟨l0, hl0⟩ := hq.some
      refine ⟨q, hq.rel, hlo, hq.hi, by simp, ⟨_, fun _ => .labelHere (hl0 _)⟩, fun ends l q' hq' => ?_,
        fun ends x hx => ?_⟩
      · rcases hq'.step with ⟨rfl, rfl⟩ | ⟨g1, g2⟩
        · exact ⟨hlo, fun _ x _ hx => by cases hx; simp⟩
        · exact ⟨(hq.compl ends l q' g2).1, fun _ x hx => absurd hx g1⟩
      · simp only [List.mem_singleton] at hx; subst hx
        exact .labelHere (hl0 _)

theorem WRes.setCtx {p p' : P τ ρ Γ α} {i c c'} {x : Simple τ α} (h : WRes env D K p i c' x)
    (hw : ∀ ends l q, Wants env s ends p' i c l q ↔ Wants env s ends p i c' l q) (c2 : Ctx τ) :
    WRes env D K p' i c (x.setCtx c2) := by
  cases x with
  | ok r => exact WOk.congr h hw
  | error e => obtain ⟨q, hq⟩ := h; exact ⟨q, hq.congr hw⟩

theorem WRes.congr {p p' : P τ ρ Γ α} {i c c'} {x : Simple τ α} (h : WRes env D K p i c' x)
    (hw : ∀ ends l q, Wants env s ends p' i c l q ↔ Wants env s ends p i c' l q) :
    WRes env D K p' i c x := by
  cases x with
  | ok r => exact WOk.congr h hw
  | error e => obtain ⟨q, hq⟩ := h; exact ⟨q, hq.congr hw⟩

theorem seen_block {n : Nat} {p : P τ ρ Γ α} (h : Seen env D K n p) :
    Seen env D K n (.block p) := by
  intro i c x hi hc hx
  change (blockFns (denote env n p)).fast s i c = _ at hx
  simp only [blockFns, Out.bind_def, Out.bind_eq_ret, Out.pure_def, Out.ret.injEq] at hx
  obtain ⟨z, h1, rfl⟩ := hx
  exact (h i _ z hi ((hc.updateLoc (Nat.le_refl _) hi).setMark _) h1).setCtx
    (fun ends l q => ⟨fun h => (h.step : WantsStep env s ends (.block p) i c l q), .block⟩) _

theorem seen_aligned {n : Nat} {p : P τ ρ Γ α} (hl : D.layout) (h : Seen env D K n p) :
    Seen env D K n (.aligned p) := by
  intro i c x hi hc hx
  change (alignedFns (denote env n p)).fast s i c = _ at hx
  simp only [alignedFns, updateLoc_mark] at hx
  split at hx
  · next hm =>
    refine (h i _ x hi (hc.updateLoc (Nat.le_refl _) hi) hx).congr
      fun ends l q => ⟨fun h => ?_, .aligned hm⟩
    rcases h.step with ⟨_, h⟩ | ⟨h, _⟩
    · exact h
    · exact absurd hm h
  · next hm =>
    simp only [Out.ret.injEq] at hx; subst hx
    refine werr_here (l := some "indentation") (hc.here hi hl).1 hi (fun ends l q => ⟨fun h => ?_, ?_⟩)
      (by simp [eq_comm])
    · rcases h.step with ⟨h, _⟩ | ⟨_, h⟩
      · exact absurd h hm
      · exact h
    · rintro ⟨rfl, rfl⟩; exact .notAligned hm

theorem seen_indented {n : Nat} {p : P τ ρ Γ α} (d : Int) (hl : D.layout) (h : Seen env D K n p) :
    Seen env D K n (.indented d p) := by
  intro i c x hi hc hx
  change (indentedFns d (denote env n p)).fast s i c = _ at hx
  simp only [indentedFns, updateLoc_mark] at hx
  split at hx
  · next hm =>
    simp only [Out.bind_def, Out.bind_eq_ret, Out.pure_def, Out.ret.injEq] at hx
    obtain ⟨z, h1, rfl⟩ := hx
    refine (h i _ z hi ((hc.updateLoc (Nat.le_refl _) hi).setMark _) h1).setCtx
      (fun ends l q => ⟨fun h => ?_, .indented hm⟩) _
    rcases h.step with ⟨_, h⟩ | ⟨h, _⟩
    · exact h
    · exact absurd hm h
  · next hm =>
    simp only [Out.ret.injEq] at hx; subst hx
    refine werr_here (l := some "indentation") (hc.here hi hl).1 hi (fun ends l q => ⟨fun h => ?_, ?_⟩)
      (by simp [eq_comm])
    · rcases h.step with ⟨h, _⟩ | ⟨_, h⟩
      · exact absurd h hm
      · exact h
    · rintro ⟨rfl, rfl⟩; exact .notIndented hm

/-! ### The induction -/

theorem seen_denote (env : Env τ ρ Γ) (D : LocDisc s) {K : Prop}
    (hel : D.layout ∨ ∀ i q, env i = some q → q.All P.notLayout)
    (hea : ∀ i q, env i = some q → q.All P.notAttempt)
    (hek : K → ∀ i q, env i = some q → q.All (P.sharpItems env)) (n : Nat) :
    ∀ {α : Type} (p : P τ ρ Γ α), (D.layout ∨ p.All P.notLayout) → p.All P.notAttempt →
      (K → p.All (P.sharpItems env)) → Seen env D K n p := by
  have hctx : ∀ (n : Nat) {α : Type} (p : P τ ρ Γ α), (D.layout ∨ p.All P.notLayout) →
      ∀ pos ctx r, pos ≤ s.length → CtxOK D ctx pos →
      (denote env n p).fast s pos ctx = .ret (.ok r) → CtxOK D r.ctx r.pos := by
    intro n α p hl pos ctx r hp hc h
    have hl' : D.layout ∨ Everywhere env P.notLayout p := by
      rcases hl with hl | hl
      · exact .inl hl
      · exact hel.imp id fun h => ⟨hl, h⟩
    have hs : OkSound .. := (sound_denote env D p hl' n).fn pos ctx 0 none _ hp hc
      ((sim_denote env n p).ok h _ _)
    exact hs.ctx
  have step : ∀ n, (∀ i, Seen env D K n (.ref i)) →
      ∀ {α : Type} (p : P τ ρ Γ α), (D.layout ∨ p.All P.notLayout) → p.All P.notAttempt →
      (K → p.All (P.sharpItems env)) → Seen env D K n p := by
    intro n href α p
    induction p with
    | pure x => intro _ _ _; exact seen_pure n x
    | pureFn x => intro _ _ _; exact seen_pureFn n x
    | unexpected x => intro _ _ _; exact seen_unexpected n x
    | eof => intro _ _ _; exact seen_eof n
    | satisfy test => intro _ _ _; exact seen_satisfy n test
    | sym x l => intro _ _ _; exact seen_sym n x l
    | literal x ss h => intro _ _ _; exact seen_literal n x ss h
    | regexp m => intro _ _ _; exact seen_regexp n m
    | ref i => intro _ _ _; exact href i
    | fmap p fn ih =>
      intro hl ha hk; exact seen_fmap fn (ih (hl.imp id (·.2)) ha.2 fun k => (hk k).2)
    | alt p q ihp ihq =>
      intro hl ha hk
      exact seen_alt (ihp (hl.imp id (·.2.1)) ha.2.1 fun k => (hk k).2.1)
        (ihq (hl.imp id (·.2.2)) ha.2.2 fun k => (hk k).2.2)
    | bind p k ihp ihk =>
      intro hl ha hk
      exact seen_bind (hctx n p (hl.imp id (·.2.1)))
        (ihp (hl.imp id (·.2.1)) ha.2.1 fun k => (hk k).2.1)
        fun a => ihk a (hl.imp id (·.2.2 a)) (ha.2.2 a) fun k => (hk k).2.2 a
    | seqWith p q m ihp ihq =>
      intro hl ha hk
      exact seen_seqWith m (hctx n p (hl.imp id (·.2.1)))
        (ihp (hl.imp id (·.2.1)) ha.2.1 fun k => (hk k).2.1)
        (ihq (hl.imp id (·.2.2)) ha.2.2 fun k => (hk k).2.2)
    | maybe p ih =>
      intro hl ha hk; exact seen_maybe (ih (hl.imp id (·.2)) ha.2 fun k => (hk k).2)
    | many p ih =>
      intro hl ha hk
      exact seen_many (hctx n p (hl.imp id (·.2))) (fun k => (hk k).1 s)
        (ih (hl.imp id (·.2)) ha.2 fun k => (hk k).2)
    | attempt p ih => intro _ ha _; exact ha.1.elim
    | label p x ih =>
      intro hl ha hk; exact seen_label x (ih (hl.imp id (·.2)) ha.2 fun k => (hk k).2)
    | recover p ih =>
      intro hl ha hk
      intro i c x hi hc hx
      exact WRes.congr ((ih (hl.imp id (·.2)) ha.2 fun k => (hk k).2) i c x hi hc hx)
        fun ends l q => ⟨fun h => h.step, .recover⟩
    | recoverWith p x vs ih =>
      intro hl ha hk
      intro i c x hi hc hx
      exact WRes.congr ((ih (hl.imp id (·.2)) ha.2 fun k => (hk k).2) i c x hi hc hx)
        fun ends l q => ⟨fun h => h.step, .recoverWith⟩
    | recoverWithFn p fn lbl ih =>
      intro hl ha hk
      intro i c x hi hc hx
      exact WRes.congr ((ih (hl.imp id (·.2)) ha.2 fun k => (hk k).2) i c x hi hc hx)
        fun ends l q => ⟨fun h => h.step, .recoverWithFn⟩
    | block p ih =>
      intro hl ha hk; exact seen_block (ih (hl.imp id (·.2)) ha.2 fun k => (hk k).2)
    | aligned p ih =>
      intro hl ha hk
      have hl' : D.layout := hl.elim id fun h => h.1.elim
      exact seen_aligned hl' (ih (hl.imp id (·.2)) ha.2 fun k => (hk k).2)
    | indented d p ih =>
      intro hl ha hk
      have hl' : D.layout := hl.elim id fun h => h.1.elim
      exact seen_indented d hl' (ih (hl.imp id (·.2)) ha.2 fun k => (hk k).2)
  have refs : ∀ n i, Seen env D K n (.ref i) := by
    intro n
    induction n with
    | zero => intro i pos c x _ _ h; cases h
    | succ n ih =>
      intro i
      cases hi : env i with
      | none =>
        have : denote env (n + 1) (.ref i) = undefinedFns := by
          show table env (n + 1) i = _
          simp only [table, hi]
        intro pos c x _ _ h
        rw [this] at h; cases h
      | some q =>
        have : denote env (n + 1) (.ref i) = denote env n q := by
          show table env (n + 1) i = _
          simp only [table, hi, denote]
        intro pos c x hp hc h
        rw [this] at h
        refine WRes.congr ((step n ih q (hel.imp id fun h => h i q hi) (hea i q hi)
          fun k => hek k i q hi) pos c x hp hc h) fun ends l y => ⟨fun h => ?_, .ref hi⟩
        obtain ⟨q', h1, h2⟩ := h.step
        rw [hi] at h1; cases h1; exact h2
  intro α p; exact step n (refs n) p

end Reparsec
