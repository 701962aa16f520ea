import Verif.Spec.LL1
import Verif.Lemmas.SoundAll
import Verif.Lemmas.Mono

/-!
# LL(1) grammars: what can begin where, and completeness
-/

namespace Reparsec

variable {τ ρ : Type} {Γ : ρ → Type} {α β γ : Type} [BEq τ]

/-! ### What a run without recovery says about the lookahead -/

/-- What a run of `p` without recovery says about the lookahead. -/
structure Begins (T : LLTable τ ρ) (p : P τ ρ Γ α) (f : ParseFns τ α) : Prop where
  ok : ∀ s pos ctx r, pos ≤ s.length → f.fast s pos ctx = .ret (.ok r) →
    (pos < r.pos → p.starts T s[pos]?) ∧ (r.pos = pos → p.empty T s[pos]?)
  err : ∀ s pos ctx e, pos ≤ s.length → f.fast s pos ctx = .ret (.error e) → e.consumed = true →
    p.starts T s[pos]?
  raise : ∀ s pos ctx x, pos ≤ s.length → f.fast s pos ctx = .raise x →
    p.starts T s[pos]?

variable {T : LLTable τ ρ}

theorem Begins.transfer {p p' : P τ ρ Γ α} {f : ParseFns τ α} (h : Begins T p f)
    (hs : ∀ la, p.starts T la → p'.starts T la) (he : ∀ la, p.empty T la → p'.empty T la) :
    Begins T p' f :=
  ⟨fun s pos ctx r hp hr => ⟨fun h1 => hs _ ((h.ok s pos ctx r hp hr).1 h1),
      fun h1 => he _ ((h.ok s pos ctx r hp hr).2 h1)⟩,
    fun s pos ctx e hp hr hc => hs _ (h.err s pos ctx e hp hr hc),
    fun s pos ctx x hp hr => hs _ (h.raise s pos ctx x hp hr)⟩

theorem begins_pureFn (x : Except Exn α) : Begins T (.pureFn x : P τ ρ Γ α) (pureFnFns x) := by
  constructor
  · intro s pos ctx r hp hr
    cases x with
    | error e => simp [pureFnFns] at hr
    | ok v => simp [pureFnFns] at hr; subst hr; simp [P.empty]
  · intro s pos ctx e hp hr
    cases x with
    | error e => simp [pureFnFns] at hr
    | ok v => simp [pureFnFns] at hr
  · intro s pos ctx e hp hr
    cases x with
    | error e => exact ⟨e, rfl⟩
    | ok v => simp [pureFnFns] at hr

theorem begins_unexpected (x : String) : Begins T (.unexpected x : P τ ρ Γ Unit) (unexpectedFns x) := by
  constructor
  · intro s pos ctx r hp hr; simp [unexpectedFns] at hr
  · intro s pos ctx e hp hr; simp [unexpectedFns] at hr; subst hr; simp
  · intro s pos ctx x hp hr; simp [unexpectedFns] at hr

theorem begins_eof : Begins T (.eof : P τ ρ Γ Unit) eofFns := by
  constructor
  · intro s pos ctx r hp hr
    simp only [eofFns, eofFast] at hr
    split at hr
    · next h => simp at hr; subst hr; subst h; simp [P.empty]
    · simp at hr
  · intro s pos ctx e hp hr
    simp only [eofFns, eofFast] at hr
    split at hr
    · simp at hr
    · simp at hr; subst hr; simp
  · intro s pos ctx x hp hr
    simp only [eofFns, eofFast] at hr
    split at hr <;> simp at hr

theorem begins_satisfy (test : τ → Except Exn Bool) :
    Begins T (.satisfy test : P τ ρ Γ τ) (satisfyFns test) := by
  constructor
  · intro s pos ctx r hp hr
    simp only [satisfyFns, satisfyFast, Out.bind_def, Out.bind_eq_ret, Out.ofExcept_eq_ret] at hr
    obtain ⟨x, h1, h2⟩ := hr
    cases x with
    | some t =>
      have h3 := testAt_some h1
      simp at h2; subst h2
      exact ⟨fun _ => ⟨t, h3.1, by simp [h3.2]⟩, fun h => by simp at h⟩
    | none => simp at h2
  · intro s pos ctx e hp hr
    simp only [satisfyFns, satisfyFast, Out.bind_def, Out.bind_eq_ret, Out.ofExcept_eq_ret] at hr
    obtain ⟨x, h1, h2⟩ := hr
    cases x with
    | some t => simp at h2
    | none => simp at h2; subst h2; simp
  · intro s pos ctx x hp hr
    simp only [satisfyFns, satisfyFast, Out.bind_def] at hr
    unfold testAt at hr
    cases hs : s[pos]? with
    | none => simp [hs] at hr
    | some t =>
      refine ⟨t, rfl, fun hf => ?_⟩
      simp [hs, hf] at hr

theorem begins_sym (x : τ) (l : String) : Begins T (.sym x l : P τ ρ Γ τ) (symFns x l) := by
  constructor
  · intro s pos ctx r hp hr
    simp only [symFns, symFast] at hr
    split at hr
    · next t ht =>
      have h3 := symAt_some ht
      simp at hr; subst hr
      exact ⟨fun _ => ⟨t, h3.1, h3.2⟩, fun h => by simp at h⟩
    · simp at hr
  · intro s pos ctx e hp hr
    simp only [symFns, symFast] at hr
    split at hr
    · simp at hr
    · simp at hr; subst hr; simp
  · intro s pos ctx x hp hr
    simp only [symFns, symFast] at hr
    split at hr <;> simp at hr

theorem starts_literal {x : List τ} {ss : String} {h : x ≠ []} {s : List τ} {i : Nat}
    (hx : x.isPrefixOf (s.drop i) = true) : (P.literal x ss h : P τ ρ Γ (List τ)).starts T s[i]? := by
  cases x with
  | nil => exact absurd rfl h
  | cons u xs =>
    cases hs : s.drop i with
    | nil => rw [hs] at hx; simp [List.isPrefixOf] at hx
    | cons t ts =>
      rw [hs] at hx
      simp only [List.isPrefixOf, Bool.and_eq_true] at hx
      refine ⟨t, u, xs, ?_, rfl, hx.1⟩
      have : (s.drop i)[0]? = some t := by rw [hs]; rfl
      simpa using this

theorem begins_literal (x : List τ) (ss : String) (h : x ≠ []) :
    Begins T (.literal x ss h : P τ ρ Γ (List τ)) (literalFns x ss) := by
  have hlen : 0 < x.length := List.length_pos_iff.2 h
  constructor
  · intro s pos ctx r hp hr
    simp only [literalFns, literalFast] at hr
    split at hr
    · next ht =>
      simp at hr; subst hr
      exact ⟨fun _ => starts_literal ht, fun h => by simp only at h; omega⟩
    · simp at hr
  · intro s pos ctx e hp hr
    simp only [literalFns, literalFast] at hr
    split at hr
    · simp at hr
    · simp at hr; subst hr; simp
  · intro s pos ctx x hp hr
    simp only [literalFns, literalFast] at hr
    split at hr <;> simp at hr

theorem begins_regexp (m : Matcher τ β) : Begins T (.regexp m : P τ ρ Γ β) (regexpFns m) := by
  constructor
  · intro s pos ctx r hp hr
    simp only [regexpFns, regexpFast, Out.bind_def, Out.bind_eq_ret, Out.ofExcept_eq_ret] at hr
    obtain ⟨x, h1, h2⟩ := hr
    cases x with
    | some t =>
      obtain ⟨e, v⟩ := t
      obtain ⟨h3, h4⟩ := m.at_bounds hp h1
      have h5 := Matcher.at_some h1
      simp at h2; subst h2
      exact ⟨fun h => ⟨s, pos, e, _, rfl, Nat.le_of_lt h, h4, h5, by simp, fun h' => by
          simp only at h; omega⟩,
        fun h => ⟨s, pos, v, rfl, by rw [h5]; simp only at h; rw [h]⟩⟩
    | none => simp at h2
  · intro s pos ctx e hp hr
    simp only [regexpFns, regexpFast, Out.bind_def, Out.bind_eq_ret, Out.ofExcept_eq_ret] at hr
    obtain ⟨x, h1, h2⟩ := hr
    cases x with
    | some t => simp at h2
    | none => simp at h2; subst h2; simp
  · intro s pos ctx x hp hr
    simp only [regexpFns, regexpFast, Out.bind_def] at hr
    unfold Matcher.at at hr
    split at hr
    · simp at hr
    · next e ex hrun =>
      have hb := m.bounds _ _ _ _ hp hrun
      exact ⟨s, pos, e, _, rfl, hb.1, hb.2, hrun, by simp, fun _ => ⟨ex, rfl⟩⟩
    · simp at hr
    · simp at hr

theorem begins_fmap {p : P τ ρ Γ α} {f : ParseFns τ α} (fn : α → Except Exn β)
    (hs : Sim f) (hf : Framed f) (h : Begins T p f) : Begins T (.fmap p fn) (fmapFns f fn) := by
  constructor
  · intro s pos ctx r hp hr
    simp only [fmapFns, fmapFast, Out.bind_def, Out.bind_eq_ret] at hr
    obtain ⟨x, h1, h2⟩ := hr
    cases x with
    | error e => simp [Simple.fmapM] at h2
    | ok o =>
      simp only [Simple.fmapM, Ok.fmapM, Out.bind_def, Out.bind_eq_ret, Out.pure_def,
        Out.ret.injEq, Simple.ok.injEq] at h2
      obtain ⟨_, ⟨_, _, rfl⟩, rfl⟩ := h2
      have := h.ok s pos ctx o hp h1
      exact ⟨fun h => .inl (this.1 h), this.2⟩
  · intro s pos ctx e hp hr
    simp only [fmapFns, fmapFast, Out.bind_def, Out.bind_eq_ret] at hr
    obtain ⟨x, h1, h2⟩ := hr
    cases x with
    | error e' =>
      simp [Simple.fmapM] at h2
      subst h2
      exact fun hc => .inl (h.err s pos ctx e' hp h1 hc)
    | ok o =>
      simp only [Simple.fmapM, Out.bind_def, Out.bind_eq_ret, Out.pure_def,
        Out.ret.injEq] at h2
      obtain ⟨_, _, h3⟩ := h2
      cases h3
  · intro s pos ctx x hp hr
    simp only [fmapFns, fmapFast, Out.bind_def] at hr
    cases h1 : f.fast s pos ctx with
    | diverge => simp [h1] at hr
    | raise e => exact .inl (h.raise s pos ctx e hp h1)
    | ret y =>
      cases y with
      | error e => simp [h1, Simple.fmapM] at hr
      | ok o =>
        have hfn : ∃ e, fn o.value = .error e := by
          cases hv : fn o.value with
          | error e => exact ⟨e, rfl⟩
          | ok v => simp [h1, Simple.fmapM, Ok.fmapM, hv] at hr
        have hlo := (framed_fast hs hf hp h1).lo
        have := h.ok s pos ctx o hp h1
        by_cases hlt : pos < o.pos
        · exact .inl (this.1 hlt)
        · exact .inr ⟨this.2 (by omega), _, hfn⟩

theorem begins_alt {p q : P τ ρ Γ α} {f g : ParseFns τ α} (hp : Begins T p f) (hq : Begins T q g) :
    Begins T (.alt p q) (altFns f g) := by
  constructor
  · intro s pos ctx r hpos hr
    simp only [altFns, altFast, Out.bind_def, Out.bind_eq_ret] at hr
    obtain ⟨x, h1, h2⟩ := hr
    cases x with
    | ok o =>
      simp at h2; subst h2
      have := hp.ok s pos ctx _ hpos h1
      exact ⟨fun h => .inl (this.1 h), fun h => .inl (this.2 h)⟩
    | error e =>
      simp only at h2
      split at h2
      · simp at h2
      · obtain ⟨y, h3, h4⟩ := Out.bind_eq_ret.1 h2
        cases y with
        | ok o =>
          have := hq.ok s pos ctx _ hpos h3
          simp only at h4
          split at h4
          · simp at h4; subst h4
            exact ⟨fun h => .inr (this.1 h), fun h => .inr (this.2 h)⟩
          · simp at h4; subst h4
            simp only [Ok.setExpected_pos]
            exact ⟨fun h => .inr (this.1 h), fun h => .inr (this.2 h)⟩
        | error e =>
          simp only at h4
          split at h4 <;> simp at h4
  · intro s pos ctx e hpos hr hc
    simp only [altFns, altFast, Out.bind_def, Out.bind_eq_ret] at hr
    obtain ⟨x, h1, h2⟩ := hr
    cases x with
    | ok o => simp at h2
    | error e' =>
      simp only at h2
      split at h2
      · next hc' => simp at h2; subst h2; exact .inl (hp.err s pos ctx _ hpos h1 hc')
      · obtain ⟨y, h3, h4⟩ := Out.bind_eq_ret.1 h2
        cases y with
        | ok o => simp only at h4; split at h4 <;> simp at h4
        | error e =>
          simp only at h4
          split at h4
          · next hc' => simp at h4; subst h4; exact .inr (hq.err s pos ctx _ hpos h3 hc')
          · simp at h4; subst h4; simp at hc
  · intro s pos ctx x hpos hr
    simp only [altFns, altFast, Out.bind_def] at hr
    cases h1 : f.fast s pos ctx with
    | diverge => simp [h1] at hr
    | raise e => exact .inl (hp.raise s pos ctx e hpos h1)
    | ret y =>
      cases y with
      | ok o => simp [h1] at hr
      | error e =>
        simp only [h1, Out.bind_ret] at hr
        split at hr
        · simp at hr
        · cases h2 : g.fast s pos ctx with
          | diverge => simp [h2] at hr
          | raise e => exact .inr (hq.raise s pos ctx e hpos h2)
          | ret y =>
            cases y with
            | ok o => simp only [h2, Out.bind_ret] at hr; split at hr <;> simp at hr
            | error e => simp only [h2, Out.bind_ret] at hr; split at hr <;> simp at hr

theorem begins_bind {p : P τ ρ Γ α} {k : α → P τ ρ Γ β} {f : ParseFns τ α} {g : α → ParseFns τ β}
    (hs : Sim f) (hf : Framed f) (hsg : ∀ a, Sim (g a)) (hfg : ∀ a, Framed (g a))
    (hp : Begins T p f) (hq : ∀ a, Begins T (k a) (g a)) :
    Begins T (.bind p k) (bindFns f g) := by
  constructor
  · intro s pos ctx r hpos hr
    simp only [bindFns, bindFast, Out.bind_def, Out.bind_eq_ret] at hr
    obtain ⟨x, h1, h2⟩ := hr
    cases x with
    | error e => simp at h2
    | ok o =>
      have hfr := framed_fast hs hf hpos h1
      have hlo := hfr.lo
      have h3 := hp.ok s pos ctx o hpos h1
      simp only [Out.bind_eq_ret, Out.pure_def, Out.ret.injEq] at h2
      obtain ⟨y, h4, h5⟩ := h2
      cases y with
      | error e => simp [Simple.prependExpected] at h5
      | ok o' =>
        have hlo' := (framed_fast (hsg _) (hfg _) hfr.hi h4).lo
        have h6 := (hq o.value).ok s o.pos o.ctx o' hfr.hi h4
        simp [Simple.prependExpected] at h5; subst h5
        simp only [Ok.prependExpected_pos]
        by_cases hlt : pos < o.pos
        · exact ⟨fun _ => .inl (h3.1 hlt), fun h => by omega⟩
        · obtain he : o.pos = pos := by omega
          rw [he] at h6
          exact ⟨fun h => .inr ⟨h3.2 he, _, h6.1 h⟩, fun h => ⟨h3.2 he, _, h6.2 h⟩⟩
  · intro s pos ctx e hpos hr hc
    simp only [bindFns, bindFast, Out.bind_def, Out.bind_eq_ret] at hr
    obtain ⟨x, h1, h2⟩ := hr
    cases x with
    | error e' => simp at h2; subst h2; exact .inl (hp.err s pos ctx _ hpos h1 hc)
    | ok o =>
      have hfr := framed_fast hs hf hpos h1
      have hlo := hfr.lo
      have h3 := hp.ok s pos ctx o hpos h1
      simp only [Out.bind_eq_ret, Out.pure_def, Out.ret.injEq] at h2
      obtain ⟨y, h4, h5⟩ := h2
      cases y with
      | ok o' => simp [Simple.prependExpected] at h5
      | error e' =>
        simp [Simple.prependExpected] at h5; subst h5
        by_cases hlt : pos < o.pos
        · exact .inl (h3.1 hlt)
        · obtain he : o.pos = pos := by omega
          have hnc : o.consumed = false := by rw [hfr.consumed]; simp [hlt]
          have hc' : e'.consumed = true := by
            rw [hnc] at hc
            unfold Err.prependExpected at hc
            split at hc
            · next h => exact h
            · simpa using hc
          have := (hq o.value).err s o.pos o.ctx e' hfr.hi h4 hc'
          rw [he] at this
          exact .inr ⟨h3.2 he, _, this⟩
  · intro s pos ctx x hpos hr
    simp only [bindFns, bindFast, Out.bind_def] at hr
    cases h1 : f.fast s pos ctx with
    | diverge => simp [h1] at hr
    | raise e => exact .inl (hp.raise s pos ctx e hpos h1)
    | ret y =>
      cases y with
      | error e => simp [h1] at hr
      | ok o =>
        have hfr := framed_fast hs hf hpos h1
        have hlo := hfr.lo
        have h3 := hp.ok s pos ctx o hpos h1
        by_cases hlt : pos < o.pos
        · exact .inl (h3.1 hlt)
        · obtain he : o.pos = pos := by omega
          simp only [h1, Out.bind_ret] at hr
          cases h2 : (g o.value).fast s o.pos o.ctx with
          | diverge => simp [h2] at hr
          | ret y => simp [h2] at hr
          | raise e =>
            have := (hq o.value).raise s o.pos o.ctx e hfr.hi h2
            rw [he] at this
            exact .inr ⟨h3.2 he, _, this⟩

theorem begins_manyLoop {p : P τ ρ Γ α} {f : ParseFns τ α} (hs : Sim f) (hf : Framed f)
    (hp : Begins T p f) (s : List τ) (pos0 : Nat) (n : Nat) :
    ∀ pos ctx c v, pos0 ≤ pos → pos ≤ s.length → (pos0 < pos → p.starts T s[pos0]?) →
      (∀ r, manyFastLoop f.fast s n pos ctx c v = .ret (.ok r) → pos0 < r.pos → p.starts T s[pos0]?) ∧
      (∀ e, manyFastLoop f.fast s n pos ctx c v = .ret (.error e) → p.starts T s[pos0]?) ∧
      (∀ x, manyFastLoop f.fast s n pos ctx c v = .raise x →
        p.starts T s[pos0]? ∨ p.empty T s[pos0]?) := by
  induction n with
  | zero => intro pos ctx c v _ _ _; simp [manyFastLoop]
  | succ n ih =>
    intro pos ctx c v h0 hpos hst
    simp only [manyFastLoop, Out.bind_def]
    have key : ¬ pos0 < pos → pos = pos0 := by omega
    cases h1 : f.fast s pos ctx with
    | diverge => simp
    | raise e =>
      simp only [Out.bind_raise]
      refine ⟨by simp, by simp, fun x _ => ?_⟩
      by_cases hlt : pos0 < pos
      · exact .inl (hst hlt)
      · have := hp.raise s pos ctx e hpos h1
        rw [key hlt] at this
        exact .inl this
    | ret y =>
      simp only [Out.bind_ret]
      cases y with
      | ok o =>
        have hfr := framed_fast hs hf hpos h1
        have hlo := hfr.lo
        have h3 := hp.ok s pos ctx o hpos h1
        simp only [hfr.consumed, decide_eq_true_eq]
        split
        · next hlt =>
          refine ih o.pos o.ctx true _ (by omega) hfr.hi fun _ => ?_
          by_cases hlt' : pos0 < pos
          · exact hst hlt'
          · have := h3.1 hlt
            rwa [key hlt'] at this
        · refine ⟨by simp, by simp, fun x _ => ?_⟩
          by_cases hlt' : pos0 < pos
          · exact .inl (hst hlt')
          · have := h3.2 (by omega)
            rw [key hlt'] at this
            exact .inr this
      | error e =>
        simp only
        split
        · next hc =>
          refine ⟨by simp, fun e' _ => ?_, by simp⟩
          by_cases hlt' : pos0 < pos
          · exact hst hlt'
          · have := hp.err s pos ctx e hpos h1 hc
            rwa [key hlt'] at this
        · refine ⟨fun r hr hlt => ?_, by simp, by simp⟩
          simp at hr; subst hr
          exact hst hlt

theorem begins_many {p : P τ ρ Γ α} {f : ParseFns τ α} (fuel : Nat) (hs : Sim f) (hf : Framed f)
    (hp : Begins T p f) : Begins T (.many p) (manyFns fuel f) := by
  constructor
  · intro s pos ctx r hpos hr
    exact ⟨fun hlt => .inl ((begins_manyLoop hs hf hp s pos fuel pos ctx false [] (Nat.le_refl _) hpos
      (by omega)).1 r hr hlt), fun _ => trivial⟩
  · intro s pos ctx e hpos hr _
    exact .inl ((begins_manyLoop hs hf hp s pos fuel pos ctx false [] (Nat.le_refl _) hpos
      (by omega)).2.1 e hr)
  · intro s pos ctx e hpos hr
    exact (begins_manyLoop hs hf hp s pos fuel pos ctx false [] (Nat.le_refl _) hpos
      (by omega)).2.2 e hr

theorem begins_attempt {p : P τ ρ Γ α} {f : ParseFns τ α} (hp : Begins T p f) :
    Begins T (.attempt p) (attemptFns f) := by
  constructor
  · intro s pos ctx r hpos hr
    simp only [attemptFns, attemptFast, Out.bind_def, Out.bind_eq_ret] at hr
    obtain ⟨x, h1, h2⟩ := hr
    cases x with
    | ok o => simp at h2; subst h2; exact hp.ok s pos ctx _ hpos h1
    | error e => simp at h2
  · intro s pos ctx e hpos hr hc
    simp only [attemptFns, attemptFast, Out.bind_def, Out.bind_eq_ret] at hr
    obtain ⟨x, h1, h2⟩ := hr
    cases x with
    | ok o => simp at h2
    | error e => simp at h2; subst h2; simp at hc
  · intro s pos ctx x hpos hr
    simp only [attemptFns, attemptFast, Out.bind_def] at hr
    cases h1 : f.fast s pos ctx with
    | diverge => simp [h1] at hr
    | raise e => exact hp.raise s pos ctx e hpos h1
    | ret y => cases y <;> simp [h1] at hr

theorem begins_label {p : P τ ρ Γ α} {f : ParseFns τ α} (x : String) (hp : Begins T p f) :
    Begins T (.label p x) (labelFns f x) := by
  constructor
  · intro s pos ctx r hpos hr
    simp only [labelFns, Out.bind_def, Out.bind_eq_ret, Out.pure_def, Out.ret.injEq] at hr
    obtain ⟨y, h1, h2⟩ := hr
    cases y with
    | error e => simp [Simple.setExpected] at h2
    | ok o =>
      simp [Simple.setExpected] at h2; subst h2
      simpa [P.starts, P.empty] using hp.ok s pos ctx o hpos h1
  · intro s pos ctx e hpos hr hc
    simp only [labelFns, Out.bind_def, Out.bind_eq_ret, Out.pure_def, Out.ret.injEq] at hr
    obtain ⟨y, h1, h2⟩ := hr
    cases y with
    | ok o => simp [Simple.setExpected] at h2
    | error e' =>
      simp [Simple.setExpected] at h2; subst h2
      refine hp.err s pos ctx e' hpos h1 ?_
      unfold Err.setExpected at hc
      split at hc
      · exact hc
      · exact hc
  · intro s pos ctx e hpos hr
    simp only [labelFns, Out.bind_def] at hr
    cases h1 : f.fast s pos ctx with
    | diverge => simp [h1] at hr
    | raise e => exact hp.raise s pos ctx e hpos h1
    | ret y => simp [h1] at hr

/-- `p` is run where this one is, in some context; the context of the result is changed. -/
theorem begins_setCtx {p p' : P τ ρ Γ α} {f f' : ParseFns τ α} (hp : Begins T p f)
    (hs : ∀ la, p.starts T la → p'.starts T la) (he : ∀ la, p.empty T la → p'.empty T la)
    (h : ∀ s pos ctx, (∃ e, f'.fast s pos ctx = .ret (.error e) ∧ e.consumed = false) ∨
      ∃ c c', f'.fast s pos ctx = (f.fast s pos c).bind fun r => .ret (r.setCtx c')) :
    Begins T p' f' := by
  constructor
  · intro s pos ctx r hpos hr
    rcases h s pos ctx with ⟨e, h1, _⟩ | ⟨c, c', h1⟩
    · rw [h1] at hr; simp at hr
    · rw [h1, Out.bind_eq_ret] at hr
      obtain ⟨y, h2, h3⟩ := hr
      cases y with
      | error e => simp [Simple.setCtx] at h3
      | ok o =>
        simp [Simple.setCtx] at h3; subst h3
        have := hp.ok s pos c o hpos h2
        exact ⟨fun h => hs _ (this.1 h), fun h => he _ (this.2 h)⟩
  · intro s pos ctx e hpos hr hc
    rcases h s pos ctx with ⟨e', h1, h2⟩ | ⟨c, c', h1⟩
    · rw [h1] at hr; simp at hr; subst hr; rw [h2] at hc; cases hc
    · rw [h1, Out.bind_eq_ret] at hr
      obtain ⟨y, h2, h3⟩ := hr
      cases y with
      | ok o => simp [Simple.setCtx] at h3
      | error e' =>
        simp [Simple.setCtx] at h3; subst h3
        exact hs _ (hp.err s pos c e' hpos h2 hc)
  · intro s pos ctx e hpos hr
    rcases h s pos ctx with ⟨e', h1, h2⟩ | ⟨c, c', h1⟩
    · rw [h1] at hr; simp at hr
    · rw [h1] at hr
      cases h2 : f.fast s pos c with
      | diverge => simp [h2] at hr
      | raise e => exact hs _ (hp.raise s pos c e hpos h2)
      | ret y => simp [h2] at hr

theorem begins_aligned {p : P τ ρ Γ α} {f : ParseFns τ α} (hp : Begins T p f) :
    Begins T (.aligned p) (alignedFns f) := by
  constructor
  · intro s pos ctx r hpos hr
    simp only [alignedFns] at hr
    split at hr
    · exact hp.ok s pos _ r hpos hr
    · simp at hr
  · intro s pos ctx e hpos hr hc
    simp only [alignedFns] at hr
    split at hr
    · exact hp.err s pos _ e hpos hr hc
    · simp at hr; subst hr; simp at hc
  · intro s pos ctx e hpos hr
    simp only [alignedFns] at hr
    split at hr
    · exact hp.raise s pos _ e hpos hr
    · simp at hr

structure BeginsQ (T : LLTable τ ρ) (p : P τ ρ Γ α) (f : ParseFns τ α) : Prop where
  sim : Sim f
  frame : Framed f
  begins : Begins T p f

theorem begins_closed {env : Env τ ρ Γ} (hT : T.OK env) :
    Closed env (fun {_} p f => BeginsQ T p f) := by
  have fc := frame_closed.closed (τ := τ) env
  have fd : ∀ {α : Type} {p : P τ ρ Γ α} {f : ParseFns τ α}, (Sim f ∧ Framed f) → Begins T p f →
      BeginsQ T p f := fun h h' => ⟨h.1, h.2, h'⟩
  exact {
    pure := fun x => fd (fc.pure x) ((begins_pureFn (.ok x)).transfer
      (fun _ h => by obtain ⟨e, h⟩ := h; cases h) fun _ _ => by simp [P.empty] : Begins T (.pure x) (pureFnFns (.ok x)))
    pureFn := fun x => fd (fc.pureFn x) (begins_pureFn x)
    unexpected := fun x => fd (fc.unexpected x) (begins_unexpected x)
    eof := fd fc.eof begins_eof
    satisfy := fun t => fd (fc.satisfy t) (begins_satisfy t)
    sym := fun x l => fd (fc.sym x l) (begins_sym x l)
    literal := fun x ss h => fd (fc.literal x ss h) (begins_literal x ss h)
    regexp := fun m => fd (fc.regexp m) (begins_regexp m)
    fmap := fun p f fn h => fd (fc.fmap p f fn ⟨h.sim, h.frame⟩) (begins_fmap fn h.sim h.frame h.begins)
    alt := fun p q f g hf hg => fd (fc.alt p q f g ⟨hf.sim, hf.frame⟩ ⟨hg.sim, hg.frame⟩)
      (begins_alt hf.begins hg.begins)
    bind := fun p f k g hf hg =>
      fd (fc.bind p f k g ⟨hf.sim, hf.frame⟩ fun a => ⟨(hg a).sim, (hg a).frame⟩)
        (begins_bind hf.sim hf.frame (fun a => (hg a).sim) (fun a => (hg a).frame) hf.begins
          fun a => (hg a).begins)
    seqWith := fun p f q g merge hf hg =>
      fd (fc.seqWith p f q g merge ⟨hf.sim, hf.frame⟩ ⟨hg.sim, hg.frame⟩) (by
        rw [seqFns_eq]
        have c := frame_closed (τ := τ)
        have hm : ∀ a, Sim (fmapFns g fun b => .ok (merge a b)) ∧
            Framed (fmapFns g fun b => .ok (merge a b)) := fun a => c.fmap g _ ⟨hg.sim, hg.frame⟩
        refine Begins.transfer (p := .bind p fun a => .fmap q fun b => .ok (merge a b))
          (begins_bind hf.sim hf.frame (fun a => (hm a).1) (fun a => (hm a).2) hf.begins
            fun a => begins_fmap _ hg.sim hg.frame hg.begins) ?_ ?_
        · rintro la (h | ⟨h, a, h' | ⟨_, b, e, he⟩⟩)
          · exact .inl h
          · exact .inr ⟨h, h'⟩
          · cases he
        · rintro la ⟨h, a, h'⟩
          exact ⟨h, h'⟩)
    maybe := fun p f h => fd (fc.maybe p f ⟨h.sim, h.frame⟩) (by
      rw [maybeFns_eq]
      refine Begins.transfer (p := .alt (.fmap p fun a => .ok (some a)) (.pureFn (.ok none)))
        (begins_alt (begins_fmap _ h.sim h.frame h.begins) (begins_pureFn (.ok none))) ?_
        fun _ _ => trivial
      rintro la ((h | ⟨_, a, e, h⟩) | ⟨e, h⟩)
      · exact h
      · cases h
      · cases h)
    many := fun p f fuel h => fd (fc.many p f fuel ⟨h.sim, h.frame⟩)
      (begins_many fuel h.sim h.frame h.begins)
    attempt := fun p f h => fd (fc.attempt p f ⟨h.sim, h.frame⟩) (begins_attempt h.begins)
    label := fun p f x h => fd (fc.label p f x ⟨h.sim, h.frame⟩) (begins_label x h.begins)
    recover := fun p f h => fd (fc.recover p f ⟨h.sim, h.frame⟩)
      ⟨h.begins.ok, h.begins.err, h.begins.raise⟩
    recoverWith := fun p f x vs h => fd (fc.recoverWith p f x vs ⟨h.sim, h.frame⟩)
      ⟨h.begins.ok, h.begins.err, h.begins.raise⟩
    recoverWithFn := fun p f fn lbl h => fd (fc.recoverWithFn p f fn lbl ⟨h.sim, h.frame⟩)
      ⟨h.begins.ok, h.begins.err, h.begins.raise⟩
    block := fun p f h => fd (fc.block p f ⟨h.sim, h.frame⟩)
      (begins_setCtx h.begins (fun _ h => h) (fun _ h => h) fun s pos ctx => .inr ⟨_, _, rfl⟩)
    aligned := fun p f h => fd (fc.aligned p f ⟨h.sim, h.frame⟩) (begins_aligned h.begins)
    indented := fun p f d h => fd (fc.indented p f d ⟨h.sim, h.frame⟩)
      (begins_setCtx h.begins (fun _ h => h) (fun _ h => h) fun s pos ctx => by
        simp only [indentedFns]
        split
        · exact .inr ⟨_, _, rfl⟩
        · exact .inl ⟨_, rfl, rfl⟩)
    refDiverge := fun i => fd (fc.refDiverge i) (by
      constructor <;> intros <;> simp_all [divergeFns])
    refUndefined := fun i h => fd (fc.refUndefined i h) (by
      constructor <;> intros
      · simp_all [undefinedFns]
      · simp_all [undefinedFns]
      · exact hT.undefined i h _)
    refDefined := fun i p f he h => ⟨h.sim, h.frame, by
      constructor
      · intro s pos ctx r hpos hr
        have := h.begins.ok s pos ctx r hpos hr
        exact ⟨fun h => hT.starts i p he _ (this.1 h), fun h => hT.empty i p he _ (this.2 h)⟩
      · intro s pos ctx e hpos hr hc
        exact hT.starts i p he _ (h.begins.err s pos ctx e hpos hr hc)
      · intro s pos ctx e hpos hr
        exact hT.starts i p he _ (h.begins.raise s pos ctx e hpos hr)⟩ }

theorem begins_denote {env : Env τ ρ Γ} (hT : T.OK env) (n : Nat) (p : P τ ρ Γ α) :
    Begins T p (denote env n p) := ((begins_closed hT).denote n p).begins

/-! ### What a derivation says about the lookahead -/

theorem der_begins {env : Env τ ρ Γ} {s : List τ} {col : Nat → Nat → Prop} (hT : T.OK env)
    {p : P τ ρ Γ α} {m i : Nat} {es : List Step} {v : α} {j : Nat}
    (h : Der env s col p m i es v j) : es = [] → i ≤ s.length →
    (i < j → p.starts T s[i]?) ∧ (j = i → p.empty T s[i]?) := by
  induction h with
  | pure => exact fun _ _ => ⟨fun h => by omega, fun _ => trivial⟩
  | pureFn => exact fun _ _ => ⟨fun h => by omega, fun _ => trivial⟩
  | eof => exact fun _ _ => ⟨fun h => by omega, fun _ => by simp [P.empty]⟩
  | eofSkip => intro h; cases h
  | satisfy h1 h2 =>
    exact fun _ _ => ⟨fun _ => ⟨_, h1, by simp [h2]⟩, fun h => by omega⟩
  | satisfySkip => intro h; cases h
  | sym h1 h2 => exact fun _ _ => ⟨fun _ => ⟨_, h1, h2⟩, fun h => by omega⟩
  | symSkip => intro h; cases h
  | symInsert => intro h; cases h
  | literal h1 =>
    rename_i x ss hx _ _
    have : 0 < x.length := List.length_pos_iff.2 hx
    exact fun _ _ => ⟨fun _ => starts_literal h1, fun h => by omega⟩
  | literalSkip => intro h; cases h
  | literalInsert => intro h; cases h
  | regexp h1 =>
    rename_i mt v _ i j
    intro _ hi
    have hb := mt.bounds _ _ _ _ hi h1
    exact ⟨fun h => ⟨s, i, j, _, rfl, hb.1, hb.2, h1, by simp, fun h' => by omega⟩,
      fun h => ⟨s, i, v, rfl, by rw [h1, h]⟩⟩
  | regexpSkip => intro h; cases h
  | fmap _ _ ih =>
    intro he hi
    exact ⟨fun h => .inl ((ih he hi).1 h), (ih he hi).2⟩
  | altL _ ih => exact fun he hi => ⟨fun h => .inl ((ih he hi).1 h), fun h => .inl ((ih he hi).2 h)⟩
  | altR _ ih => exact fun he hi => ⟨fun h => .inr ((ih he hi).1 h), fun h => .inr ((ih he hi).2 h)⟩
  | bind d1 d2 ih1 ih2 =>
    rename_i i es a j es' b l
    intro he hi
    obtain ⟨rfl, rfl⟩ := List.append_eq_nil_iff.1 he
    have o1 := der_inOrder d1 hi
    have l1 := o1.1.le
    have l2 := (der_inOrder d2 o1.2).1.le
    have h1 := ih1 rfl hi
    have h2 := ih2 rfl o1.2
    by_cases hlt : i < j
    · exact ⟨fun _ => .inl (h1.1 hlt), fun h => by omega⟩
    · obtain hij : j = i := by omega
      subst hij
      exact ⟨fun h => .inr ⟨h1.2 rfl, _, h2.1 h⟩, fun h => ⟨h1.2 rfl, _, h2.2 h⟩⟩
  | seqWith d1 d2 ih1 ih2 =>
    rename_i i es a j es' b l
    intro he hi
    obtain ⟨rfl, rfl⟩ := List.append_eq_nil_iff.1 he
    have o1 := der_inOrder d1 hi
    have l1 := o1.1.le
    have l2 := (der_inOrder d2 o1.2).1.le
    have h1 := ih1 rfl hi
    have h2 := ih2 rfl o1.2
    by_cases hlt : i < j
    · exact ⟨fun _ => .inl (h1.1 hlt), fun h => by omega⟩
    · obtain hij : j = i := by omega
      subst hij
      exact ⟨fun h => .inr ⟨h1.2 rfl, h2.1 h⟩, fun h => ⟨h1.2 rfl, h2.2 h⟩⟩
  | maybeNone => exact fun _ _ => ⟨fun h => by omega, fun _ => trivial⟩
  | maybeSome _ ih => exact fun he hi => ⟨(ih he hi).1, fun _ => trivial⟩
  | manyNil => exact fun _ _ => ⟨fun h => by omega, fun _ => trivial⟩
  | manyCons d1 d2 ih1 ih2 =>
    rename_i i es a j es' b l
    intro he hi
    obtain ⟨rfl, rfl⟩ := List.append_eq_nil_iff.1 he
    have o1 := der_inOrder d1 hi
    have l1 := o1.1.le
    refine ⟨fun _ => ?_, fun _ => trivial⟩
    by_cases hlt : i < j
    · exact .inl ((ih1 rfl hi).1 hlt)
    · exact .inr ((ih1 rfl hi).2 (by omega))
  | attempt _ ih => exact ih
  | label _ ih => exact ih
  | recover _ ih => exact fun he hi => ih (by simpa using he) hi
  | recoverWith _ ih => exact ih
  | recoverWithInsert => intro h; cases h
  | recoverWithFn _ ih => exact ih
  | recoverWithFnInsert => intro h; cases h
  | block _ _ ih => exact ih
  | aligned _ _ ih => exact ih
  | indented _ _ _ ih => exact ih
  | ref hx _ ih =>
    exact fun he hi => ⟨fun h => hT.starts _ _ hx _ ((ih he hi).1 h),
      fun h => hT.empty _ _ hx _ ((ih he hi).2 h)⟩

theorem der_goesOn {env : Env τ ρ Γ} {s : List τ} {col : Nat → Nat → Prop} (hT : T.OK env)
    {p : P τ ρ Γ α} {m i : Nat} {v : α} {j : Nat} (h : Der env s col p m i [] v j)
    (hi : i ≤ s.length) {F : Option τ → Prop} (hF : F s[j]?) : p.goesOn T F s[i]? := by
  have hb := der_begins hT h rfl hi
  have hle := (der_inOrder h hi).1.le
  by_cases hlt : i < j
  · exact .inl (hb.1 hlt)
  · obtain rfl : j = i := by omega
    exact .inr ⟨hb.2 rfl, hF⟩

/-! ### Completeness -/

/-- The run does not return, or succeeds with this value at this position. -/
def Good (v : α) (j : Nat) (o : Out (Simple τ α)) : Prop :=
  o = .diverge ∨ ∃ r, o = .ret (.ok r) ∧ r.value = v ∧ r.pos = j

/-- Where `p` cannot begin, it fails without consuming anything, or does not return. -/
theorem not_begins {p : P τ ρ Γ α} {f : ParseFns τ α} (hs : Sim f) (hf : Framed f)
    (h : Begins T p f) {s : List τ} {i : Nat} {c : Ctx τ} (hi : i ≤ s.length)
    (h1 : ¬ p.starts T s[i]?) (h2 : ¬ p.empty T s[i]?) :
    f.fast s i c = .diverge ∨ ∃ e, f.fast s i c = .ret (.error e) ∧ e.consumed = false := by
  cases hr : f.fast s i c with
  | diverge => exact .inl rfl
  | raise x => exact absurd (h.raise s i c x hi hr) h1
  | ret y =>
    cases y with
    | ok r =>
      have hlo := (framed_fast hs hf hi hr).lo
      have := h.ok s i c r hi hr
      by_cases hlt : i < r.pos
      · exact absurd (this.1 hlt) h1
      · exact absurd (this.2 (by omega)) h2
    | error e =>
      right
      cases hc : e.consumed with
      | false => exact ⟨e, rfl, hc⟩
      | true => exact absurd (h.err s i c e hi hr hc) h1

omit [BEq τ] in
theorem Good.le {v : α} {j : Nat} {o o' : Out (Simple τ α)} (h : Good v j o') (hle : o.Le o') :
    Good v j o := by
  rcases hle with hle | hle
  · exact .inl hle
  · rw [hle]; exact h

omit [BEq τ] in
theorem good_acc (f : FastFn τ α) (s : List τ) (n : Nat) :
    ∀ pos ctx c c' (w : List α) x l, Good x l (manyFastLoop f s n pos ctx c w) → ∀ v,
      Good (v ++ x) l (manyFastLoop f s n pos ctx c' (v ++ w)) := by
  induction n with
  | zero => intro pos ctx c c' w x l h v; exact .inl rfl
  | succ n ih =>
    intro pos ctx c c' w x l h v
    simp only [manyFastLoop, Out.bind_def] at h ⊢
    cases hr : f s pos ctx with
    | diverge => exact .inl rfl
    | raise e => simp [hr, Good] at h
    | ret y =>
      simp only [hr, Out.bind_ret] at h ⊢
      cases y with
      | ok r =>
        simp only at h ⊢
        split at h
        · next hc =>
          rw [if_pos hc, List.append_assoc]
          exact ih _ _ _ _ _ _ _ h v
        · simp [Good] at h
      | error e =>
        simp only at h ⊢
        split at h
        · simp [Good] at h
        · next hc =>
          rw [if_neg hc]
          simp only [Good, reduceCtorEq, Out.ret.injEq, Simple.ok.injEq, false_or] at h
          obtain ⟨r, rfl, rfl, rfl⟩ := h
          exact .inr ⟨_, rfl, rfl, rfl⟩

theorem ll1_complete {env : Env τ ρ Γ} {s : List τ} (hT : T.OK env) (D : LocDisc s)
    (hcol : ∀ i c c', D.col i c → D.col i c' → c = c')
    (henv : D.layout ∨ ∀ x q, env x = some q → q.All P.notLayout)
    {p : P τ ρ Γ α} {m i : Nat} {es : List Step} {v : α} {j : Nat}
    (h : Der env s D.col p m i es v j) : es = [] → i ≤ s.length →
    (D.layout ∨ p.All P.notLayout) →
    ∀ F, p.LL1 T F → F s[j]? → ∀ n ctx, CtxOK D ctx i → ctx.mark = m →
    Good v j ((denote env n p).fast s i ctx) := by
  have hsim : ∀ {α : Type} (p : P τ ρ Γ α) n, Sim (denote env n p) := fun p n => sim_denote env n p
  have hfr : ∀ {α : Type} (p : P τ ρ Γ α) n, Framed (denote env n p) := fun p n => frame_denote env n p
  have hbg : ∀ {α : Type} (p : P τ ρ Γ α) n, Begins T p (denote env n p) := fun p n => begins_denote hT n p
  have hctx : ∀ {α : Type} (p : P τ ρ Γ α) (_ : D.layout ∨ p.All P.notLayout) n i ctx r, i ≤ s.length →
      CtxOK D ctx i → (denote env n p).fast s i ctx = .ret (.ok r) →
      CtxOK D r.ctx r.pos ∧ r.ctx.mark = ctx.mark := by
    intro α p hp n i ctx r hi hc hr
    have h1 := (hsim p n).ok hr 0 none
    have h2 : OkSound .. :=
      (((sound_closed env D henv).denote n p).sound hp).fn i ctx 0 none _ hi hc h1
    have h3 : OkFrame .. := hfr p n s i ctx 0 none _ hi h1
    exact ⟨h2.ctx, h3.ctx.mark⟩
  induction h with
  | pure => intro _ _ _ F _ _ n ctx _ _; exact .inr ⟨_, rfl, rfl, rfl⟩
  | pureFn h =>
    intro _ _ _ F _ _ n ctx _ _
    subst h
    exact .inr ⟨_, rfl, rfl, rfl⟩
  | eof =>
    intro _ _ _ F _ _ n ctx _ _
    show Good _ _ (eofFast s s.length ctx)
    rw [eofFast, if_pos rfl]
    exact .inr ⟨_, rfl, rfl, rfl⟩
  | eofSkip => intro h; cases h
  | satisfy h1 h2 =>
    intro _ _ _ F _ _ n ctx _ _
    show Good _ _ (satisfyFast _ s _ ctx)
    simp only [satisfyFast, testAt, h1, h2, Out.ofExcept_ok, Out.bind_def, Out.bind_ret]
    exact .inr ⟨_, rfl, rfl, rfl⟩
  | satisfySkip => intro h; cases h
  | sym h1 h2 =>
    intro _ _ _ F _ _ n ctx _ _
    show Good _ _ (symFast _ _ s _ ctx)
    simp only [symFast, symAt, h1, h2, if_true]
    exact .inr ⟨_, rfl, rfl, rfl⟩
  | symSkip => intro h; cases h
  | symInsert => intro h; cases h
  | literal h1 =>
    intro _ _ _ F _ _ n ctx _ _
    show Good _ _ (literalFast _ _ s _ ctx)
    rw [literalFast, if_pos (show startsWith _ s _ = true from h1)]
    exact .inr ⟨_, rfl, rfl, rfl⟩
  | literalSkip => intro h; cases h
  | literalInsert => intro h; cases h
  | regexp h1 =>
    intro _ _ _ F _ _ n ctx _ _
    show Good _ _ (regexpFast _ s _ ctx)
    simp only [regexpFast, Matcher.at, h1, Out.ofExcept_ok, Out.bind_def, Out.bind_ret]
    exact .inr ⟨_, rfl, rfl, rfl⟩
  | regexpSkip => intro h; cases h
  | fmap d hv ih =>
    intro he hi hl F hF hj n ctx hc hm
    rcases ih he hi (hl.imp_right fun h => h.2) F hF hj n ctx hc hm with h | ⟨r, h, rfl, rfl⟩
    · left
      show fmapFast _ _ s _ ctx = _
      simp only [fmapFast, Out.bind_def]
      rw [show (denoteWith n (table env n) _).fast s _ ctx = _ from h]; rfl
    · right
      refine ⟨{ r with value := _ }, ?_, rfl, rfl⟩
      show fmapFast _ _ s _ ctx = _
      simp only [fmapFast, Out.bind_def]
      rw [show (denoteWith n (table env n) _).fast s _ ctx = _ from h]
      simp [Simple.fmapM, Ok.fmapM, hv]
  | altL d ih =>
    intro he hi hl F hF hj n ctx hc hm
    rcases ih he hi (hl.imp_right fun h => h.2.1) F hF.1 hj n ctx hc hm with h | ⟨r, h, rfl, rfl⟩
    · left
      show altFast _ _ s _ ctx = _
      simp only [altFast, Out.bind_def]
      rw [show (denoteWith n (table env n) _).fast s _ ctx = _ from h]; rfl
    · right
      refine ⟨r, ?_, rfl, rfl⟩
      show altFast _ _ s _ ctx = _
      simp only [altFast, Out.bind_def]
      rw [show (denoteWith n (table env n) _).fast s _ ctx = _ from h]; rfl
  | altR d ih =>
    rename_i p q m i es v j
    intro he hi hl F hF hj n ctx hc hm
    subst he
    have hgo := der_goesOn hT d hi hj
    have hno : ¬ (p.starts T s[i]? ∨ p.empty T s[i]?) := fun h => hF.2.2 _ h hgo
    have hfirst := not_begins (c := ctx) (hsim p n) (hfr p n) (hbg p n) hi (fun h => hno (.inl h))
      fun h => hno (.inr h)
    rcases hfirst with h1 | ⟨e, h1, h2⟩
    · left
      show altFast _ _ s _ ctx = _
      simp only [altFast, Out.bind_def]
      rw [show (denoteWith n (table env n) p).fast s _ ctx = _ from h1]; rfl
    · rcases ih rfl hi (hl.imp_right fun h => h.2.2) F hF.2.1 hj n ctx hc hm with h | ⟨r, h, rfl, rfl⟩
      · left
        show altFast _ _ s _ ctx = _
        simp only [altFast, Out.bind_def]
        rw [show (denoteWith n (table env n) p).fast s _ ctx = _ from h1]
        simp only [Out.bind_ret, h2]
        rw [show (denoteWith n (table env n) q).fast s _ ctx = _ from h]; rfl
      · right
        refine ⟨if r.consumed then r else r.setExpected (e.expected ++ r.expected), ?_, ?_, ?_⟩
        · show altFast _ _ s _ ctx = _
          simp only [altFast, Out.bind_def]
          rw [show (denoteWith n (table env n) p).fast s _ ctx = _ from h1]
          simp only [Out.bind_ret, h2]
          rw [show (denoteWith n (table env n) q).fast s _ ctx = _ from h]
          simp only [Bool.false_eq_true, if_false, Out.bind_ret]
          split <;> rfl
        · split <;> simp
        · split <;> simp
  | bind d1 d2 ih1 ih2 =>
    rename_i p k m i es a j es' b l
    intro he hi hl F hF hj n ctx hc hm
    obtain ⟨rfl, rfl⟩ := List.append_eq_nil_iff.1 he
    have hj1 := (der_inOrder d1 hi).2
    have hl1 := hl.imp_right (fun h : (P.bind p k).All P.notLayout => h.2.1)
    have hl2 := hl.imp_right (fun h : (P.bind p k).All P.notLayout => h.2.2 a)
    rcases ih1 rfl hi hl1 _ hF.1 ⟨a, der_goesOn hT d2 hj1 hj⟩ n ctx hc hm with h | ⟨r, h, rfl, rfl⟩
    · left
      show bindFast (denoteWith n (table env n) p) (fun a => denoteWith n (table env n) (k a)) s i ctx = _
      simp only [bindFast, Out.bind_def]
      rw [show (denoteWith n (table env n) p).fast s _ ctx = _ from h]; rfl
    · have hc' := hctx p hl1 n i ctx r hi hc h
      rcases ih2 rfl hj1 hl2 F (hF.2 _) hj n r.ctx hc'.1 (hc'.2.trans hm) with h2 | ⟨r2, h2, rfl, rfl⟩
      · left
        show bindFast (denoteWith n (table env n) p) (fun a => denoteWith n (table env n) (k a)) s i ctx = _
        simp only [bindFast, Out.bind_def]
        rw [show (denoteWith n (table env n) p).fast s _ ctx = _ from h]
        simp only [Out.bind_ret]
        rw [show (denoteWith n (table env n) _).fast s _ _ = _ from h2]; rfl
      · right
        refine ⟨r2.prependExpected r.expected r.consumed, ?_, by simp, by simp⟩
        show bindFast (denoteWith n (table env n) p) (fun a => denoteWith n (table env n) (k a)) s i ctx = _
        simp only [bindFast, Out.bind_def]
        rw [show (denoteWith n (table env n) p).fast s _ ctx = _ from h]
        simp only [Out.bind_ret]
        rw [show (denoteWith n (table env n) _).fast s _ _ = _ from h2]; rfl
  | seqWith d1 d2 ih1 ih2 =>
    rename_i p q merge m i es a j es' b l
    intro he hi hl F hF hj n ctx hc hm
    obtain ⟨rfl, rfl⟩ := List.append_eq_nil_iff.1 he
    have hj1 := (der_inOrder d1 hi).2
    have hl1 := hl.imp_right (fun h : (P.seqWith p q merge).All P.notLayout => h.2.1)
    have hl2 := hl.imp_right (fun h : (P.seqWith p q merge).All P.notLayout => h.2.2)
    rcases ih1 rfl hi hl1 _ hF.1 (der_goesOn hT d2 hj1 hj) n ctx hc hm with h | ⟨r, h, rfl, rfl⟩
    · left
      show seqFast _ _ _ s _ ctx = _
      simp only [seqFast, Out.bind_def]
      rw [show (denoteWith n (table env n) p).fast s _ ctx = _ from h]; rfl
    · have hc' := hctx p hl1 n i ctx r hi hc h
      rcases ih2 rfl hj1 hl2 F hF.2 hj n r.ctx hc'.1 (hc'.2.trans hm) with h2 | ⟨r2, h2, rfl, rfl⟩
      · left
        show seqFast _ _ _ s _ ctx = _
        simp only [seqFast, Out.bind_def]
        rw [show (denoteWith n (table env n) p).fast s _ ctx = _ from h]
        simp only [Out.bind_ret]
        rw [show (denoteWith n (table env n) _).fast s _ _ = _ from h2]; rfl
      · right
        refine ⟨(r2.fmap fun b => merge r.value b).prependExpected r.expected r.consumed, ?_,
          by simp [Ok.fmap], by simp [Ok.fmap]⟩
        show seqFast _ _ _ s _ ctx = _
        simp only [seqFast, Out.bind_def]
        rw [show (denoteWith n (table env n) p).fast s _ ctx = _ from h]
        simp only [Out.bind_ret]
        rw [show (denoteWith n (table env n) _).fast s _ _ = _ from h2]; rfl
  | maybeNone =>
    rename_i p m i
    intro he hi hl F hF hj n ctx hc hm
    have hno : ¬ (p.starts T s[i]? ∨ p.empty T s[i]?) := fun h => hF.2 _ h hj
    rcases not_begins (c := ctx) (hsim p n) (hfr p n) (hbg p n) hi (fun h => hno (.inl h))
      (fun h => hno (.inr h)) with h1 | ⟨e, h1, h2⟩
    · left
      show maybeFast _ s _ ctx = _
      simp only [maybeFast, Out.bind_def]
      rw [show (denoteWith n (table env n) p).fast s _ ctx = _ from h1]; rfl
    · right
      refine ⟨{ value := none, pos := i, ctx := ctx, expected := e.expected }, ?_, rfl, rfl⟩
      show maybeFast _ s _ ctx = _
      simp only [maybeFast, Out.bind_def]
      rw [show (denoteWith n (table env n) p).fast s _ ctx = _ from h1]
      simp [h2]
  | maybeSome d ih =>
    rename_i p m i es v j
    intro he hi hl F hF hj n ctx hc hm
    rcases ih he hi (hl.imp_right fun h => h.2) F hF.1 hj n ctx hc hm with h | ⟨r, h, rfl, rfl⟩
    · left
      show maybeFast _ s _ ctx = _
      simp only [maybeFast, Out.bind_def]
      rw [show (denoteWith n (table env n) p).fast s _ ctx = _ from h]; rfl
    · right
      refine ⟨r.fmap some, ?_, rfl, rfl⟩
      show maybeFast _ s _ ctx = _
      simp only [maybeFast, Out.bind_def]
      rw [show (denoteWith n (table env n) p).fast s _ ctx = _ from h]; rfl
  | manyNil =>
    rename_i p m i
    intro he hi hl F hF hj n ctx hc hm
    rcases not_begins (c := ctx) (hsim p n) (hfr p n) (hbg p n) hi (fun h => hF.2.2 _ h hj)
      (hF.2.1 _) with h1 | ⟨e, h1, h2⟩
    all_goals
      show Good _ _ (manyFastLoop (denote env n p).fast s n i ctx false [])
      cases n with
      | zero => exact .inl rfl
      | succ n =>
        simp only [manyFastLoop, Out.bind_def, h1]
        first
        | exact .inl rfl
        | exact .inr ⟨_, by simp only [Out.bind_ret, h2]; rfl, rfl, rfl⟩
  | manyCons d1 d2 ih1 ih2 =>
    rename_i p m i es v j es' vs l
    intro he hi hl F hF hj n ctx hc hm
    obtain ⟨rfl, rfl⟩ := List.append_eq_nil_iff.1 he
    have o1 := der_inOrder d1 hi
    have hl1 := hl.imp_right (fun h : (P.many p).All P.notLayout => h.2)
    have hlt : i < j := by
      have := o1.1.le
      rcases Nat.lt_or_ge i j with h | h
      · exact h
      · exact absurd ((der_begins hT d1 rfl hi).2 (by omega)) (hF.2.1 _)
    have hfol : p.starts T s[j]? ∨ F s[j]? := by
      rcases der_goesOn hT d2 o1.2 hj with (h | h) | ⟨_, h⟩
      · exact .inl h
      · exact absurd h (hF.2.1 _)
      · exact .inr h
    show Good _ _ (manyFastLoop (denote env n p).fast s n i ctx false [])
    cases n with
    | zero => exact .inl rfl
    | succ n =>
      simp only [manyFastLoop, Out.bind_def]
      rcases ih1 rfl hi hl1 _ hF.1 hfol (n + 1) ctx hc hm with h | ⟨r, h, rfl, rfl⟩
      · rw [h]; exact .inl rfl
      · have hc' := hctx p hl1 (n + 1) i ctx r hi hc h
        have hcons : r.consumed = true := by
          rw [(framed_fast (hsim p _) (hfr p _) hi h).consumed]; simpa using hlt
        have h2 := ih2 rfl o1.2 hl F hF hj (n + 1) r.ctx hc'.1 (hc'.2.trans hm)
        have h3 : Good vs l (manyFastLoop (denote env (n + 1) p).fast s n r.pos r.ctx false []) :=
          Good.le h2 (manyFastLoop_le (fun _ _ _ => .inr rfl) s (Nat.le_succ n) _ _ _ _)
        rw [h]
        simp only [Out.bind_ret, hcons, if_true]
        exact good_acc _ s n _ _ _ true _ _ _ h3 [r.value]
  | attempt d ih =>
    rename_i p m i es v j
    intro he hi hl F hF hj n ctx hc hm
    rcases ih he hi (hl.imp_right fun h => h.2) F hF hj n ctx hc hm with h | ⟨r, h, rfl, rfl⟩
    · left
      show attemptFast _ s _ ctx = _
      simp only [attemptFast, Out.bind_def]
      rw [show (denoteWith n (table env n) p).fast s _ ctx = _ from h]; rfl
    · right
      refine ⟨r, ?_, rfl, rfl⟩
      show attemptFast _ s _ ctx = _
      simp only [attemptFast, Out.bind_def]
      rw [show (denoteWith n (table env n) p).fast s _ ctx = _ from h]; rfl
  | label d ih =>
    rename_i p x m i es v j
    intro he hi hl F hF hj n ctx hc hm
    rcases ih he hi (hl.imp_right fun h => h.2) F hF hj n ctx hc hm with h | ⟨r, h, rfl, rfl⟩
    · left
      show ((denoteWith n (table env n) p).fast s _ ctx).bind _ = _
      rw [show (denoteWith n (table env n) p).fast s _ ctx = _ from h]; rfl
    · right
      refine ⟨r.setExpected [x], ?_, by simp, by simp⟩
      show ((denoteWith n (table env n) p).fast s _ ctx).bind _ = _
      rw [show (denoteWith n (table env n) p).fast s _ ctx = _ from h]; rfl
  | recover d ih =>
    intro he hi hl F hF hj n ctx hc hm
    exact ih (by simpa using he) hi (hl.imp_right fun h => h.2) F hF hj n ctx hc hm
  | recoverWith d ih =>
    intro he hi hl F hF hj n ctx hc hm
    exact ih he hi (hl.imp_right fun h => h.2) F hF hj n ctx hc hm
  | recoverWithInsert => intro h; cases h
  | recoverWithFn d ih =>
    intro he hi hl F hF hj n ctx hc hm
    exact ih he hi (hl.imp_right fun h => h.2) F hF hj n ctx hc hm
  | recoverWithFnInsert => intro h; cases h
  | block hcl d ih =>
    rename_i p m c i es v j
    intro he hi hl F hF hj n ctx hc hm
    have hl' : D.layout := hl.elim id fun h => h.1.elim
    have hu := hc.updateLoc (Nat.le_refl _) hi
    have hh := hc.here hi hl'
    have hmark : (ctx.updateLoc s i).loc.col = c := hcol _ _ _ hh.2 hcl
    rcases ih he hi (.inl hl') F hF hj n _ (hu.setMark (ctx.updateLoc s i).loc.col) hmark with
      h | ⟨r, h, rfl, rfl⟩
    · left
      show ((denoteWith n (table env n) p).fast s _ _).bind _ = _
      rw [show (denoteWith n (table env n) p).fast s _ _ = _ from h]; rfl
    · right
      refine ⟨{ r with ctx := ctx.updateLoc s i }, ?_, rfl, rfl⟩
      show ((denoteWith n (table env n) p).fast s _ _).bind _ = _
      rw [show (denoteWith n (table env n) p).fast s _ _ = _ from h]; rfl
  | aligned hcl d ih =>
    rename_i p m i es v j
    intro he hi hl F hF hj n ctx hc hm
    have hl' : D.layout := hl.elim id fun h => h.1.elim
    have hu := hc.updateLoc (Nat.le_refl _) hi
    have hh := hc.here hi hl'
    have hmark : (ctx.updateLoc s i).loc.col = m := hcol _ _ _ hh.2 hcl
    have hm' : (ctx.updateLoc s i).mark = m := (updateLoc_mark ..).trans hm
    show Good _ _ (if (ctx.updateLoc s i).mark = (ctx.updateLoc s i).loc.col then
      (denote env n p).fast s i (ctx.updateLoc s i) else _)
    rw [if_pos (hm'.trans hmark.symm)]
    exact ih he hi (.inl hl') F hF hj n _ hu hm'
  | indented hcl hd d ih =>
    rename_i p delta m c i es v j
    intro he hi hl F hF hj n ctx hc hm
    have hl' : D.layout := hl.elim id fun h => h.1.elim
    have hu := hc.updateLoc (Nat.le_refl _) hi
    have hh := hc.here hi hl'
    have hmark : (ctx.updateLoc s i).loc.col = c := hcol _ _ _ hh.2 hcl
    have hm' : (ctx.updateLoc s i).mark = m := (updateLoc_mark ..).trans hm
    show Good _ _ (if ((ctx.updateLoc s i).mark : Int) + delta = (ctx.updateLoc s i).loc.col then
      ((denote env n p).fast s i ((ctx.updateLoc s i).setMark (ctx.updateLoc s i).loc.col)).bind _
      else _)
    rw [if_pos (by rw [hm', hmark]; exact hd)]
    rcases ih he hi (.inl hl') F hF hj n _ (hu.setMark (ctx.updateLoc s i).loc.col) hmark with
      h | ⟨r, h, rfl, rfl⟩
    · left; rw [h]; rfl
    · right; rw [h]; exact ⟨{ r with ctx := ctx.updateLoc s i }, rfl, rfl, rfl⟩
  | ref hx d ih =>
    rename_i x p m i es v j
    intro he hi hl F hF hj n ctx hc hm
    show Good _ _ ((table env n x).fast s i ctx)
    cases n with
    | zero => exact .inl rfl
    | succ n =>
      unfold table
      rw [hx]
      exact ih he hi (henv.imp_right fun h => h x p hx) _ (hT.ll1 x p hx) (hF _ hj) n ctx hc hm

end Reparsec
