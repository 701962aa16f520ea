import Verif.Spec.Fixable
import Verif.Lemmas.Frame

/-!
# Grammars that can always be repaired: the invariant
-/

namespace Reparsec

variable {τ ρ : Type} {Γ : ρ → Type} {α β γ : Type}

/-- What the runs of a fixable parser look like; `k` is `max_insertions`. -/
structure Fixes (k : Int) (sure : Bool) (first rest : Nat) (f : ParseFns τ α) : Prop where
  err : ∀ s pos ctx rem e, pos ≤ s.length → f.fn s pos ctx k rem = .ret (.error e) →
    e.consumed = false
  alone : ∀ s pos ctx rr, pos ≤ s.length → f.fn s pos ctx k none = .ret (.recovered rr) →
    ∃ x ∈ rr.repairs, k - rest ≤ x.ins
  within : ∀ s pos ctx (b : Int) rr, pos ≤ s.length → first ≤ b →
    f.fn s pos ctx k (some b) = .ret (.recovered rr) →
    ∃ x ∈ rr.repairs, b - first ≤ x.ins ∨ k - rest ≤ x.ins
  never : sure = true → ∀ s pos ctx (b : Int) e, pos ≤ s.length → first ≤ b →
    f.fn s pos ctx k (some b) ≠ .ret (.error e)

variable {k : Int} {n : Bool} {h t : Nat}

theorem Fixes.weaken {n' : Bool} {h' t' : Nat} {f : ParseFns τ α} (hf : Fixes k n h t f)
    (hn : n' = true → n = true) (hh : h ≤ h') (ht : t ≤ t') : Fixes k n' h' t' f where
  err := hf.err
  alone s pos ctx rr hp hr := by
    obtain ⟨x, hx, h1⟩ := hf.alone s pos ctx rr hp hr
    exact ⟨x, hx, by omega⟩
  within s pos ctx b rr hp hb hr := by
    obtain ⟨x, hx, h1⟩ := hf.within s pos ctx b rr hp (by omega) hr
    exact ⟨x, hx, by omega⟩
  never h' s pos ctx b e hp hb hr := hf.never (hn h') s pos ctx b e hp (by omega) hr

theorem fixes_pureFn (x : Except Exn α) : Fixes k n h t (pureFnFns x : ParseFns τ α) := by
  constructor <;> intros <;> cases x <;> simp_all [pureFnFns]

theorem fixes_unexpected (x : String) : Fixes k false h t (unexpectedFns x : ParseFns τ Unit) := by
  constructor
  · intro s pos ctx rem e hp hr; simp [unexpectedFns] at hr; subst hr; rfl
  · intro s pos ctx rr hp hr; simp [unexpectedFns] at hr
  · intro s pos ctx b rr hp hb hr; simp [unexpectedFns] at hr
  · intro h; cases h

theorem fixes_eof : Fixes k n h t (eofFns : ParseFns τ Unit) := by
  constructor
  · intro s pos ctx rem e hp hr
    simp only [eofFns, eofFn] at hr
    split at hr
    · simp at hr
    · split at hr
      · simp at hr; subst hr; rfl
      · simp at hr
  · intro s pos ctx rr hp hr
    simp only [eofFns, eofFn] at hr
    split at hr <;> simp at hr
  · intro s pos ctx b rr hp hb hr
    simp only [eofFns, eofFn] at hr
    split at hr
    · simp at hr
    · simp at hr; subst hr
      exact ⟨_, List.mem_singleton.2 rfl, .inr (by simp [makePendingSkip]; omega)⟩
  · intro _ s pos ctx b e hp hb hr
    simp only [eofFns, eofFn] at hr
    split at hr <;> simp at hr

theorem fixes_satisfy (test : τ → Except Exn Bool) : Fixes k false h t (satisfyFns test) := by
  constructor
  · intro s pos ctx rem e hp hr
    simp only [satisfyFns, satisfyFn, Out.bind_def, Out.bind_eq_ret, Out.ofExcept_eq_ret] at hr
    obtain ⟨x, _, hr⟩ := hr
    split at hr
    · simp at hr
    · split at hr
      · simp at hr; subst hr; rfl
      · simp only [Out.bind_eq_ret, Out.ofExcept_eq_ret] at hr
        obtain ⟨y, _, hr⟩ := hr
        split at hr
        · simp at hr
        · simp at hr; subst hr; rfl
  · intro s pos ctx rr hp hr
    simp only [satisfyFns, satisfyFn, Out.bind_def, Out.bind_eq_ret, Out.ofExcept_eq_ret] at hr
    obtain ⟨x, _, hr⟩ := hr
    split at hr <;> simp at hr
  · intro s pos ctx b rr hp hb hr
    simp only [satisfyFns, satisfyFn, Out.bind_def, Out.bind_eq_ret, Out.ofExcept_eq_ret] at hr
    obtain ⟨x, _, hr⟩ := hr
    split at hr
    · simp at hr
    · simp only [Out.bind_eq_ret, Out.ofExcept_eq_ret] at hr
      obtain ⟨y, _, hr⟩ := hr
      split at hr
      · simp at hr; subst hr
        exact ⟨_, List.mem_singleton.2 rfl, .inr (by simp [makeSkip]; omega)⟩
      · simp at hr
  · intro h; cases h

theorem fixes_regexp (m : Matcher τ β) : Fixes k false h t (regexpFns m) := by
  constructor
  · intro s pos ctx rem e hp hr
    simp only [regexpFns, regexpFn, Out.bind_def, Out.bind_eq_ret, Out.ofExcept_eq_ret] at hr
    obtain ⟨x, _, hr⟩ := hr
    split at hr
    · simp at hr
    · split at hr
      · simp at hr; subst hr; rfl
      · simp only [Out.bind_eq_ret, Out.ofExcept_eq_ret] at hr
        obtain ⟨y, _, hr⟩ := hr
        split at hr
        · simp at hr
        · simp at hr; subst hr; rfl
  · intro s pos ctx rr hp hr
    simp only [regexpFns, regexpFn, Out.bind_def, Out.bind_eq_ret, Out.ofExcept_eq_ret] at hr
    obtain ⟨x, _, hr⟩ := hr
    split at hr <;> simp at hr
  · intro s pos ctx b rr hp hb hr
    simp only [regexpFns, regexpFn, Out.bind_def, Out.bind_eq_ret, Out.ofExcept_eq_ret] at hr
    obtain ⟨x, _, hr⟩ := hr
    split at hr
    · simp at hr
    · simp only [Out.bind_eq_ret, Out.ofExcept_eq_ret] at hr
      obtain ⟨y, _, hr⟩ := hr
      split at hr
      · simp at hr; subst hr
        exact ⟨_, List.mem_singleton.2 rfl, .inr (by simp [makeSkip]; omega)⟩
      · simp at hr
  · intro h; cases h

theorem fixes_sym [BEq τ] (x : τ) (l : String) (h1 : 1 ≤ h) : Fixes k n h t (symFns x l) := by
  constructor
  · intro s pos ctx rem e hp hr
    simp only [symFns, symFn] at hr
    split at hr
    · simp at hr
    · split at hr
      · simp at hr; subst hr; rfl
      · simp only [Out.bind_def, Out.bind_eq_ret, Out.ofExcept_eq_ret] at hr
        obtain ⟨y, _, hr⟩ := hr
        split at hr <;> simp at hr
  · intro s pos ctx rr hp hr
    simp only [symFns, symFn] at hr
    split at hr <;> simp at hr
  · intro s pos ctx b rr hp hb hr
    have hb0 : b ≠ 0 := by omega
    simp only [symFns, symFn] at hr
    split at hr
    · simp at hr
    · simp only [Out.bind_def, Out.bind_eq_ret, Out.ofExcept_eq_ret, ne_eq, hb0, not_false_eq_true,
        if_true] at hr
      obtain ⟨y, _, hr⟩ := hr
      split at hr
      all_goals
        simp at hr; subst hr
        exact ⟨_, List.mem_cons_self, .inl (by simp [makeInsert]; omega)⟩
  · intro _ s pos ctx b e hp hb hr
    simp only [symFns, symFn] at hr
    split at hr
    · simp at hr
    · simp only [Out.bind_def, Out.bind_eq_ret, Out.ofExcept_eq_ret] at hr
      obtain ⟨y, _, hr⟩ := hr
      split at hr <;> simp at hr

theorem fixes_literal [BEq τ] (x : List τ) (ss : String) (h1 : 1 ≤ h) :
    Fixes k n h t (literalFns x ss) := by
  constructor
  · intro s pos ctx rem e hp hr
    simp only [literalFns, literalFn] at hr
    split at hr
    · simp at hr
    · split at hr
      · simp at hr; subst hr; rfl
      · simp only [Out.bind_def, Out.bind_eq_ret, Out.ofExcept_eq_ret] at hr
        obtain ⟨y, _, hr⟩ := hr
        split at hr <;> simp at hr
  · intro s pos ctx rr hp hr
    simp only [literalFns, literalFn] at hr
    split at hr <;> simp at hr
  · intro s pos ctx b rr hp hb hr
    have hb0 : b ≠ 0 := by omega
    simp only [literalFns, literalFn] at hr
    split at hr
    · simp at hr
    · simp only [Out.bind_def, Out.bind_eq_ret, Out.ofExcept_eq_ret] at hr
      obtain ⟨y, _, hr⟩ := hr
      split at hr
      all_goals
        simp at hr; subst hr
        exact ⟨_, List.mem_cons_self, .inl (by simp [makeInsert]; omega)⟩
  · intro _ s pos ctx b e hp hb hr
    simp only [literalFns, literalFn] at hr
    split at hr
    · simp at hr
    · simp only [Out.bind_def, Out.bind_eq_ret, Out.ofExcept_eq_ret] at hr
      obtain ⟨y, _, hr⟩ := hr
      split at hr <;> simp at hr

/-- A parser whose results differ from those of `f` only in ways that do not matter here. -/
theorem Fixes.of_results {f : ParseFns τ α} {g : ParseFns τ β} (hf : Fixes k n h t f)
    (hg : ∀ s pos ctx rem r, pos ≤ s.length → g.fn s pos ctx k rem = .ret r → ∃ ctx' r',
      f.fn s pos ctx' k rem = .ret r' ∧
      (∀ e, r = .error e → ∃ e', r' = .error e' ∧ e.consumed = e'.consumed) ∧
      (∀ rr, r = .recovered rr → ∃ rr', r' = .recovered rr' ∧
        ∀ x' ∈ rr'.repairs, ∃ x ∈ rr.repairs, x.ins = x'.ins)) : Fixes k n h t g where
  err s pos ctx rem e hp hr := by
    obtain ⟨ctx', r', h1, h2, h3⟩ := hg s pos ctx rem _ hp hr
    obtain ⟨e', rfl, h4⟩ := h2 e rfl
    rw [h4]; exact hf.err s pos ctx' rem e' hp h1
  alone s pos ctx rr hp hr := by
    obtain ⟨ctx', r', h1, h2, h3⟩ := hg s pos ctx _ _ hp hr
    obtain ⟨rr', rfl, h4⟩ := h3 rr rfl
    obtain ⟨x', hx', h5⟩ := hf.alone s pos ctx' rr' hp h1
    obtain ⟨x, hx, h6⟩ := h4 x' hx'
    exact ⟨x, hx, by omega⟩
  within s pos ctx b rr hp hb hr := by
    obtain ⟨ctx', r', h1, h2, h3⟩ := hg s pos ctx _ _ hp hr
    obtain ⟨rr', rfl, h4⟩ := h3 rr rfl
    obtain ⟨x', hx', h5⟩ := hf.within s pos ctx' b rr' hp hb h1
    obtain ⟨x, hx, h6⟩ := h4 x' hx'
    exact ⟨x, hx, by omega⟩
  never hn s pos ctx b e hp hb hr := by
    obtain ⟨ctx', r', h1, h2, h3⟩ := hg s pos ctx _ _ hp hr
    obtain ⟨e', rfl, h4⟩ := h2 e rfl
    exact hf.never hn s pos ctx' b e' hp hb h1

theorem repairsFmapM_mem' {fn : α → Except Exn β} {l : List (Repair τ α)}
    {l' : List (Repair τ β)} (h : repairsFmapM fn l = .ret l') {r : Repair τ α} (hr : r ∈ l) :
    ∃ p ∈ l', p.ins = r.ins := by
  induction l generalizing l' with
  | nil => simp at hr
  | cons r0 rs ih =>
    simp only [repairsFmapM, Repair.fmapM, Out.bind_def, Out.bind_eq_ret, Out.pure_def,
      Out.ret.injEq, Out.ofExcept_eq_ret] at h
    obtain ⟨r', ⟨v, hv, rfl⟩, rs', h2, rfl⟩ := h
    rcases List.mem_cons.1 hr with rfl | hr
    · exact ⟨_, List.mem_cons_self, rfl⟩
    · obtain ⟨p, hp, h3⟩ := ih h2 hr
      exact ⟨p, List.mem_cons_of_mem _ hp, h3⟩

theorem fixes_fmap {f : ParseFns τ α} (fn : α → Except Exn β) (hf : Fixes k n h t f) :
    Fixes k n h t (fmapFns f fn) := by
  refine hf.of_results fun s pos ctx rem r hp hr => ?_
  simp only [fmapFns, fmapFn, Out.bind_def, Out.bind_eq_ret] at hr
  obtain ⟨x, h1, h2⟩ := hr
  refine ⟨ctx, x, h1, ?_⟩
  rcases Result.fmapM_ret h2 with ⟨o, v, rfl, _, rfl⟩ | ⟨e, rfl, rfl⟩ | ⟨rr, reps, rfl, h3, rfl⟩
  · exact ⟨by simp, by simp⟩
  · exact ⟨fun e' he => ⟨e, rfl, by cases he; rfl⟩, by simp⟩
  · refine ⟨by simp, fun rr' he => ⟨rr, rfl, fun x' hx' => ?_⟩⟩
    cases he
    exact repairsFmapM_mem' h3 hx'

/-- What is left of a candidate after going on with a parser that is always repaired. -/
theorem fixes_contReps {r : Nat} {q : α → ParseFns τ β} {s : List τ} {ra : Recovered τ α}
    {merge : α → β → γ}
    {reps : List (Repair τ γ)} {x : Repair τ α} (hx : x ∈ ra.repairs) (hpos : x.pos ≤ s.length)
    (hq : Fixes k true h r (q x.value)) (hb : h ≤ x.ins)
    (hr : contReps k (fun v p c r => (q v).fn s p c k (some r)) merge ra.repairs = .ret reps) :
    ∃ y ∈ reps, x.ins - h ≤ y.ins ∨ k - r ≤ y.ins := by
  revert hr hx
  generalize ra.repairs = l
  intro hx hr
  induction l generalizing reps with
  | nil => simp at hx
  | cons a l ih =>
    simp only [contReps, Out.bind_def, Out.bind_eq_ret, Out.pure_def, Out.ret.injEq] at hr
    obtain ⟨rb, h1, rest, h2, rfl⟩ := hr
    rcases List.mem_cons.1 hx with rfl | hx
    · cases rb with
      | ok o =>
        refine ⟨_, List.mem_append_left _ (by simp [contOne]; rfl), ?_⟩
        simp only
        split <;> omega
      | error e => exact absurd h1 (hq.never rfl s _ _ _ _ hpos hb)
      | recovered rb =>
        obtain ⟨y, hy, h3⟩ := hq.within s _ _ _ _ hpos hb h1
        refine ⟨_, List.mem_append_left _ (List.mem_map.2 ⟨y, hy, rfl⟩), h3⟩
    · obtain ⟨y, hy, h3⟩ := ih hx h2
      exact ⟨y, List.mem_append_right _ hy, h3⟩

theorem fixes_bind {f : ParseFns τ α} {g : α → ParseFns τ β} {f1 f2 r1 : Nat}
    (hfr : Framed f) (hk : (t : Int) ≤ k)
    (h1 : f1 + f2 ≤ h) (h2 : r1 + f2 ≤ t) (hf : Fixes k n f1 r1 f)
    (hg : ∀ a, Fixes k true f2 t (g a)) : Fixes k n h t (bindFns f g) := by
  have key : ∀ s pos ctx rem ra res (b : Int), pos ≤ s.length →
      f.fn s pos ctx k rem = .ret (.recovered ra) → 
      continueParse ra k (fun v p c r => (g v).fn s p c k (some r)) (fun _ v => v) = .ret res →
      (∃ x ∈ ra.repairs, b ≤ x.ins) → f2 ≤ b →
      ∃ rr, res = .recovered rr ∧ ∃ y ∈ rr.repairs, b - f2 ≤ y.ins ∨ k - t ≤ y.ins := by
    rintro s pos ctx rem ra res b hp hr hc ⟨x, hx, hb⟩ hb2
    obtain ⟨reps, h3, rfl⟩ := continueParse_ret hc
    have hfra : RecFrame .. := hfr s pos ctx k rem _ hp hr
    obtain ⟨y, hy, h4⟩ := fixes_contReps hx (hfra.reps x hx).hi (hg x.value) (by omega) h3
    exact ⟨_, rfl, y, hy, by omega⟩
  constructor
  · intro s pos ctx rem e hp hr
    simp only [bindFns, bindFn, Out.bind_def, Out.bind_eq_ret] at hr
    obtain ⟨x, h3, hr⟩ := hr
    cases x with
    | error e' => simp at hr; subst hr; exact hf.err s pos ctx rem e' hp h3
    | recovered ra =>
      obtain ⟨reps, _, h⟩ := continueParse_ret hr
      cases h
    | ok ra =>
      have hfra : OkFrame .. := hfr s pos ctx k rem _ hp h3
      simp only at hr
      split at hr
      · simp only [Out.bind_eq_ret, Out.pure_def, Out.ret.injEq] at hr
        obtain ⟨y, h4, hr⟩ := hr
        cases y with
        | error e' => exact absurd h4 ((hg _).never rfl s _ _ _ _ hfra.hi (by omega))
        | ok _ => cases hr
        | recovered _ => cases hr
      · next hcons =>
        simp only [Out.bind_eq_ret, Out.pure_def, Out.ret.injEq] at hr
        obtain ⟨y, h4, hr⟩ := hr
        cases y with
        | error e' =>
          have := (hg _).err s _ _ _ _ hfra.hi h4
          simp only [Result.prependExpected, Result.error.injEq] at hr
          subst hr
          simp only [Bool.not_eq_true] at hcons
          simp [Err.prependExpected, this, hcons]
        | ok _ => cases hr
        | recovered _ => cases hr
  · intro s pos ctx rr hp hr
    simp only [bindFns, bindFn, Out.bind_def, Out.bind_eq_ret] at hr
    obtain ⟨x, h3, hr⟩ := hr
    cases x with
    | error e' => simp at hr
    | recovered ra =>
      obtain ⟨x, hx, h4⟩ := hf.alone s pos ctx ra hp h3
      obtain ⟨_, h, y, hy, h5⟩ := key s pos ctx _ ra _ (k - r1) hp h3 hr ⟨x, hx, h4⟩ (by omega)
      cases h
      exact ⟨y, hy, by omega⟩
    | ok ra =>
      have hfra : OkFrame .. := hfr s pos ctx k none _ hp h3
      simp only at hr
      split at hr
      · simp only [Out.bind_eq_ret, Out.pure_def, Out.ret.injEq] at hr
        obtain ⟨y, h4, hr⟩ := hr
        cases y with
        | error e' => simp [Result.prependExpected] at hr
        | ok _ => simp [Result.prependExpected] at hr
        | recovered rr' =>
          obtain ⟨x, hx, h5⟩ := (hg _).within s _ _ _ _ hfra.hi (by omega) h4
          simp only [Result.prependExpected, Result.recovered.injEq] at hr
          subst hr
          exact ⟨_, List.mem_map.2 ⟨x, hx, rfl⟩, by show _ ≤ x.ins; omega⟩
      · simp only [Out.bind_eq_ret, Out.pure_def, Out.ret.injEq] at hr
        obtain ⟨y, h4, hr⟩ := hr
        cases y with
        | error e' => simp [Result.prependExpected] at hr
        | ok _ => simp [Result.prependExpected] at hr
        | recovered rr' =>
          obtain ⟨x, hx, h5⟩ := (hg _).alone s _ _ _ hfra.hi h4
          simp only [Result.prependExpected, Result.recovered.injEq] at hr
          subst hr
          exact ⟨_, List.mem_map.2 ⟨x, hx, rfl⟩, by show _ ≤ x.ins; omega⟩
  · intro s pos ctx b rr hp hb hr
    simp only [bindFns, bindFn, Out.bind_def, Out.bind_eq_ret] at hr
    obtain ⟨x, h3, hr⟩ := hr
    cases x with
    | error e' => simp at hr
    | recovered ra =>
      obtain ⟨x, hx, h4 | h4⟩ := hf.within s pos ctx b ra hp (by omega) h3
      · obtain ⟨_, h, y, hy, h5⟩ := key s pos ctx _ ra _ (b - f1) hp h3 hr ⟨x, hx, h4⟩ (by omega)
        cases h
        exact ⟨y, hy, by omega⟩
      · obtain ⟨_, h, y, hy, h5⟩ := key s pos ctx _ ra _ (k - r1) hp h3 hr ⟨x, hx, h4⟩ (by omega)
        cases h
        exact ⟨y, hy, by omega⟩
    | ok ra =>
      have hfra : OkFrame .. := hfr s pos ctx k _ _ hp h3
      simp only at hr
      split at hr
      · simp only [Out.bind_eq_ret, Out.pure_def, Out.ret.injEq] at hr
        obtain ⟨y, h4, hr⟩ := hr
        cases y with
        | error e' => simp [Result.prependExpected] at hr
        | ok _ => simp [Result.prependExpected] at hr
        | recovered rr' =>
          obtain ⟨x, hx, h5⟩ := (hg _).within s _ _ _ _ hfra.hi (by omega) h4
          simp only [Result.prependExpected, Result.recovered.injEq] at hr
          subst hr
          exact ⟨_, List.mem_map.2 ⟨x, hx, rfl⟩, by show _ ≤ x.ins ∨ _ ≤ x.ins; omega⟩
      · simp only [Out.bind_eq_ret, Out.pure_def, Out.ret.injEq] at hr
        obtain ⟨y, h4, hr⟩ := hr
        cases y with
        | error e' => simp [Result.prependExpected] at hr
        | ok _ => simp [Result.prependExpected] at hr
        | recovered rr' =>
          obtain ⟨x, hx, h5⟩ := (hg _).within s _ _ _ _ hfra.hi (by omega) h4
          simp only [Result.prependExpected, Result.recovered.injEq] at hr
          subst hr
          exact ⟨_, List.mem_map.2 ⟨x, hx, rfl⟩, by show _ ≤ x.ins ∨ _ ≤ x.ins; omega⟩
  · intro hn s pos ctx b e hp hb hr
    simp only [bindFns, bindFn, Out.bind_def, Out.bind_eq_ret] at hr
    obtain ⟨x, h3, hr⟩ := hr
    cases x with
    | error e' => exact hf.never hn s pos ctx b e' hp (by omega) h3
    | recovered ra =>
      obtain ⟨reps, _, h⟩ := continueParse_ret hr
      cases h
    | ok ra =>
      have hfra : OkFrame .. := hfr s pos ctx k _ _ hp h3
      simp only at hr
      split at hr
      all_goals
        simp only [Out.bind_eq_ret, Out.pure_def, Out.ret.injEq] at hr
        obtain ⟨y, h4, hr⟩ := hr
        cases y with
        | error e' => exact absurd h4 ((hg _).never rfl s _ _ _ _ hfra.hi (by omega))
        | ok _ => simp [Result.prependExpected] at hr
        | recovered _ => simp [Result.prependExpected] at hr

theorem mem_setExpected {r : Recovered τ α} {x : Repair τ α} {ex : List String} {b : Int}
    (hx : x ∈ r.repairs) (hb : b ≤ x.ins) : ∃ y ∈ (r.setExpected ex).repairs, b ≤ y.ins :=
  ⟨_, List.mem_map.2 ⟨x, hx, rfl⟩, hb⟩

theorem mem_joined {ra rb : Recovered τ α} {x : Repair τ α} (hx : x ∈ ra.repairs) :
    x ∈ (joinRepairs ra rb).repairs := by
  rw [joinRepairs_repairs]
  unfold joinReps
  split <;> exact List.mem_append_left _ hx

/-- The ways in which `alt` ends. -/
theorem altFn_ends {f g : ParseFns τ α} {s pos ctx ins rem} {r : Result τ α}
    (hpos : pos ≤ s.length) (hf : Framed f) (hg : Framed g)
    (h : (altFns f g).fn s pos ctx ins rem = .ret r) :
    (∃ ra, f.fn s pos ctx ins none = .ret ra ∧ r = ra ∧ ((∃ o, ra = .ok o) ∨ ra.consumed = true)) ∨
    (∃ ea rb, f.fn s pos ctx ins none = .ret (.error ea) ∧ ea.consumed = false ∧
      g.fn s pos ctx ins none = .ret rb ∧
      ((∃ o o', rb = .ok o ∧ r = .ok o') ∨ rb.consumed = true ∧ r = rb)) ∨
    (∃ ea eb, f.fn s pos ctx ins none = .ret (.error ea) ∧ ea.consumed = false ∧
      g.fn s pos ctx ins none = .ret (.error eb) ∧ eb.consumed = false ∧
      altRecover f g s pos ctx ins rem ea.loc (ea.expected ++ eb.expected) = .ret r) := by
  simp only [altFns, altFn, Out.bind_def, Out.bind_eq_ret] at h
  obtain ⟨x, h1, h⟩ := h
  cases x with
  | ok o => simp at h; exact .inl ⟨_, h1, h.symm, .inl ⟨o, rfl⟩⟩
  | recovered rr =>
    have hc := (show RecFrame .. from hf _ _ _ _ _ _ hpos h1).consumed rfl
    simp only [hc, if_true, Out.ret.injEq] at h
    exact .inl ⟨_, h1, h.symm, .inr hc⟩
  | error ea =>
    by_cases hc : ea.consumed = true
    · simp only [hc, if_true, Out.ret.injEq] at h
      exact .inl ⟨_, h1, h.symm, .inr hc⟩
    · simp only [Bool.not_eq_true] at hc
      simp only [hc, Bool.false_eq_true, if_false, altSecond, Out.bind_def, Out.bind_eq_ret] at h
      obtain ⟨y, h2, h⟩ := h
      cases y with
      | ok o =>
        refine .inr (.inl ⟨ea, _, h1, hc, h2, .inl ⟨o, ?_⟩⟩)
        by_cases hc' : o.consumed = true
        · simp only [hc', if_true, Out.ret.injEq] at h; exact ⟨_, rfl, h.symm⟩
        · simp only [Bool.not_eq_true] at hc'; simp only [hc', Bool.false_eq_true, if_false, Out.ret.injEq] at h; exact ⟨_, rfl, h.symm⟩
      | recovered rr =>
        have hc' := (show RecFrame .. from hg _ _ _ _ _ _ hpos h2).consumed rfl
        simp only [hc', if_true, Out.ret.injEq] at h
        exact .inr (.inl ⟨ea, _, h1, hc, h2, .inr ⟨hc', h.symm⟩⟩)
      | error eb =>
        by_cases hc' : eb.consumed = true
        · simp only [hc', if_true, Out.ret.injEq] at h
          exact .inr (.inl ⟨ea, _, h1, hc, h2, .inr ⟨hc', h.symm⟩⟩)
        · simp only [Bool.not_eq_true] at hc'
          simp only [hc', Bool.false_eq_true, if_false] at h
          exact .inr (.inr ⟨ea, eb, h1, hc, h2, hc', h⟩)

theorem Sim.fn_error {f : ParseFns τ α} (h : Sim f) {s pos ctx ins rem e}
    (hf : f.fn s pos ctx ins rem = .ret (.error e)) {ins' rem' o} :
    f.fn s pos ctx ins' rem' ≠ .ret (.ok o) := by
  intro h'
  have := h.ok (h.fast_ok h') ins rem
  rw [this] at hf; cases hf

theorem fixes_alt {f g : ParseFns τ α} (hsf : Sim f) (hff : Framed f) (hgf : Framed g)
    (hfg : (Fixes k true h t f ∧ ∃ n' h', Fixes k n' h' t g) ∨
      (∃ n', Fixes k n' h t f) ∧ Sim g ∧ Fixes k n h t g) :
    Fixes k n h t (altFns f g) := by
  obtain ⟨n1, hf⟩ : ∃ n', Fixes k n' h t f := by
    rcases hfg with ⟨h, _⟩ | ⟨h, _⟩
    · exact ⟨_, h⟩
    · exact h
  obtain ⟨n2, h2, hg⟩ : ∃ n' h', Fixes k n' h' t g := by
    rcases hfg with ⟨_, h⟩ | ⟨_, _, h⟩
    · exact h
    · exact ⟨_, _, h⟩
  have key : ∀ s pos ctx (b : Int) ea ex r, pos ≤ s.length → h ≤ b →
      f.fn s pos ctx k none = .ret (.error ea) →
      (∃ eb, g.fn s pos ctx k none = .ret (.error eb)) →
      altRecover f g s pos ctx k (some b) ea.loc ex = .ret r →
      (∃ rr, r = .recovered rr ∧ ∃ x ∈ rr.repairs, b - h ≤ x.ins ∨ k - t ≤ x.ins) ∨
      n = false ∧ ∃ e, r = .error e ∧ e.consumed = false := by
    rintro s pos ctx b ea ex r hp hb h3 ⟨eb, h3'⟩ h4
    have first : ∀ ra, f.fn s pos ctx k (some b) = .ret (.recovered ra) →
        ∃ x ∈ ra.repairs, b - h ≤ x.ins ∨ k - t ≤ x.ins := fun ra hr =>
      hf.within s pos ctx b ra hp hb hr
    have notok : ∀ o, f.fn s pos ctx k (some b) ≠ .ret (.ok o) := fun o => hsf.fn_error h3
    rcases altRecover_ret h4 with ⟨ra, rb, h5, h6, rfl⟩ | ⟨ra, x, h5, h6, h7, rfl⟩ |
      ⟨x, rb, h5, h6, h7, rfl⟩ | ⟨x, y, h5, h6, h7, h8, rfl⟩
    · obtain ⟨x, hx, h9⟩ := first ra h5
      exact .inl ⟨_, rfl, _, List.mem_map.2 ⟨x, mem_joined hx, rfl⟩, h9⟩
    · obtain ⟨x, hx, h9⟩ := first ra h5
      exact .inl ⟨_, rfl, _, List.mem_map.2 ⟨x, hx, rfl⟩, h9⟩
    · cases x with
      | ok o => exact absurd h5 (notok o)
      | recovered y => exact absurd rfl (h6 y)
      | error e =>
        rcases hfg with ⟨h, _⟩ | ⟨_, _, h⟩
        · exact absurd h5 (h.never rfl s pos ctx b e hp hb)
        · obtain ⟨x, hx, h9⟩ := h.within s pos ctx b rb hp hb h7
          exact .inl ⟨_, rfl, _, List.mem_map.2 ⟨x, hx, rfl⟩, h9⟩
    · cases x with
      | ok o => exact absurd h5 (notok o)
      | recovered y => exact absurd rfl (h6 y)
      | error e =>
        rcases hfg with ⟨h, _⟩ | ⟨_, hsg, h⟩
        · exact absurd h5 (h.never rfl s pos ctx b e hp hb)
        · refine .inr ⟨?_, _, rfl, rfl⟩
          cases y with
          | ok o => exact absurd h7 (hsg.fn_error h3')
          | recovered y => exact absurd rfl (h8 y)
          | error e =>
            cases n with
            | false => rfl
            | true => exact absurd h7 (h.never rfl s pos ctx b e hp hb)
  constructor
  · intro s pos ctx rem e hp hr
    rcases altFn_ends hp hff hgf hr with ⟨ra, h3, rfl, ⟨o, h4⟩ | h4⟩ |
      ⟨ea, rb, h3, h4, h5, ⟨o, o', h6, h7⟩ | ⟨h6, rfl⟩⟩ | ⟨ea, eb, h3, h4, h5, h6, h7⟩
    · cases h4
    · exact hf.err s pos ctx _ e hp h3
    · cases h7
    · exact hg.err s pos ctx _ e hp h5
    · cases rem with
      | none => simp [altRecover] at h7; subst h7; rfl
      | some b =>
        rcases altRecover_ret h7 with ⟨_, _, _, _, h⟩ | ⟨_, _, _, _, _, h⟩ | ⟨_, _, _, _, _, h⟩ |
          ⟨_, _, _, _, _, _, h⟩
        all_goals cases h
        rfl
  · intro s pos ctx rr hp hr
    rcases altFn_ends hp hff hgf hr with ⟨ra, h3, rfl, ⟨o, h4⟩ | h4⟩ |
      ⟨ea, rb, h3, h4, h5, ⟨o, o', h6, h7⟩ | ⟨h6, rfl⟩⟩ | ⟨ea, eb, h3, h4, h5, h6, h7⟩
    · cases h4
    · exact hf.alone s pos ctx _ hp h3
    · cases h7
    · exact hg.alone s pos ctx _ hp h5
    · simp [altRecover] at h7
  · intro s pos ctx b rr hp hb hr
    rcases altFn_ends hp hff hgf hr with ⟨ra, h3, rfl, ⟨o, h4⟩ | h4⟩ |
      ⟨ea, rb, h3, h4, h5, ⟨o, o', h6, h7⟩ | ⟨h6, rfl⟩⟩ | ⟨ea, eb, h3, h4, h5, h6, h7⟩
    · cases h4
    · obtain ⟨x, hx, h⟩ := hf.alone s pos ctx _ hp h3
      exact ⟨x, hx, .inr h⟩
    · cases h7
    · obtain ⟨x, hx, h⟩ := hg.alone s pos ctx _ hp h5
      exact ⟨x, hx, .inr h⟩
    · rcases key s pos ctx b ea _ _ hp hb h3 ⟨_, h5⟩ h7 with ⟨_, h, h'⟩ | ⟨_, _, h, _⟩
      · cases h; exact h'
      · cases h
  · intro hn s pos ctx b e hp hb hr
    rcases altFn_ends hp hff hgf hr with ⟨ra, h3, rfl, ⟨o, h4⟩ | h4⟩ |
      ⟨ea, rb, h3, h4, h5, ⟨o, o', h6, h7⟩ | ⟨h6, rfl⟩⟩ | ⟨ea, eb, h3, h4, h5, h6, h7⟩
    · cases h4
    · have h5 := hf.err s pos ctx _ e hp h3
      rw [show (Result.error e : Result τ α).consumed = e.consumed from rfl, h5] at h4
      cases h4
    · cases h7
    · have h7 := hg.err s pos ctx _ e hp h5
      rw [show (Result.error e : Result τ α).consumed = e.consumed from rfl, h7] at h6
      cases h6
    · rcases key s pos ctx b ea _ _ hp hb h3 ⟨_, h5⟩ h7 with ⟨_, h, h'⟩ | ⟨h, _⟩
      · cases h
      · rw [hn] at h; cases h

theorem fixes_manyLoop {f : ParseFns τ α} (hff : Framed f) (hf : Fixes k n h t f) (s : List τ)
    (fuel : Nat) : ∀ pos ctx c acc r, pos ≤ s.length →
      manyLoop f.fn s k fuel pos ctx c acc = .ret r →
      (∀ e, r ≠ .error e) ∧ ∀ rr, r = .recovered rr → ∃ x ∈ rr.repairs, k - t ≤ x.ins := by
  induction fuel with
  | zero => intro pos ctx c acc r _ h; simp [manyLoop] at h
  | succ fuel ih =>
    intro pos ctx c acc r hp hr
    simp only [manyLoop, Out.bind_def, Out.bind_eq_ret] at hr
    obtain ⟨x, h1, hr⟩ := hr
    cases x with
    | ok o =>
      have hfo : OkFrame .. := hff s pos ctx k _ _ hp h1
      simp only at hr
      split at hr
      · exact ih _ _ _ _ _ hfo.hi hr
      · simp at hr
    | error e =>
      have hc := hf.err s pos ctx _ e hp h1
      simp [hc] at hr
      subst hr
      simp
    | recovered rr =>
      have hfr : RecFrame .. := hff s pos ctx k _ _ hp h1
      obtain ⟨x, hx, h2⟩ := hf.alone s pos ctx rr hp h1
      obtain ⟨reps, h3, rfl⟩ := continueParse_ret hr
      refine ⟨by simp, fun rr' he => ?_⟩
      cases he
      show ∃ y ∈ reps, _
      have hxp := (hfr.reps x hx).hi
      clear hfr h1 hr
      revert hx h3
      generalize rr.repairs = l
      intro hx h3
      induction l generalizing reps with
      | nil => simp at hx
      | cons a l ihl =>
        simp only [contReps, Out.bind_def, Out.bind_eq_ret, Out.pure_def, Out.ret.injEq] at h3
        obtain ⟨rb, h4, rest, h5, rfl⟩ := h3
        rcases List.mem_cons.1 hx with rfl | hx
        · have h6 := ih _ _ _ _ _ hxp h4
          cases rb with
          | ok o =>
            refine ⟨_, List.mem_append_left _ (by simp [contOne]; rfl), ?_⟩
            simp only
            split <;> omega
          | error e => exact absurd rfl (h6.1 e)
          | recovered rb =>
            obtain ⟨y, hy, h7⟩ := h6.2 _ rfl
            exact ⟨_, List.mem_append_left _ (List.mem_map.2 ⟨y, hy, rfl⟩), h7⟩
        · obtain ⟨y, hy, h7⟩ := ihl rest hx h5
          exact ⟨y, List.mem_append_right _ hy, h7⟩

theorem fixes_many {n' : Bool} {h' : Nat} {f : ParseFns τ α} (fuel : Nat) (hff : Framed f)
    (hf : Fixes k n h t f) : Fixes k n' h' t (manyFns fuel f) where
  err s pos ctx rem e hp hr := absurd rfl ((fixes_manyLoop hff hf s fuel _ _ _ _ _ hp hr).1 e)
  alone s pos ctx rr hp hr := (fixes_manyLoop hff hf s fuel _ _ _ _ _ hp hr).2 rr rfl
  within s pos ctx b rr hp hb hr := by
    obtain ⟨x, hx, h⟩ := (fixes_manyLoop hff hf s fuel _ _ _ _ _ hp hr).2 rr rfl
    exact ⟨x, hx, .inr h⟩
  never _ s pos ctx b e hp hb hr := (fixes_manyLoop hff hf s fuel _ _ _ _ _ hp hr).1 e rfl

theorem fixes_attempt {f : ParseFns τ α} (hf : Fixes k n h t f) :
    Fixes k n h t (attemptFns f) where
  err s pos ctx rem e hp hr := by
    cases rem with
    | some b => exact hf.err s pos ctx _ e hp hr
    | none =>
      simp only [attemptFns, attemptFn, Out.bind_def, Out.bind_eq_ret] at hr
      obtain ⟨x, h1, hr⟩ := hr
      cases x with
      | ok _ => simp at hr
      | error e' => simp at hr; subst hr; rfl
  alone s pos ctx rr hp hr := by
    simp only [attemptFns, attemptFn, Out.bind_def, Out.bind_eq_ret] at hr
    obtain ⟨x, h1, hr⟩ := hr
    cases x <;> simp at hr
  within s pos ctx b rr hp hb hr := hf.within s pos ctx b rr hp hb hr
  never hn s pos ctx b e hp hb hr := hf.never hn s pos ctx b e hp hb hr

theorem fixes_label {f : ParseFns τ α} (x : String) (hf : Fixes k n h t f) :
    Fixes k n h t (labelFns f x) := by
  refine hf.of_results fun s pos ctx rem r hp hr => ?_
  simp only [labelFns, Out.bind_def, Out.bind_eq_ret, Out.pure_def, Out.ret.injEq] at hr
  obtain ⟨y, h1, rfl⟩ := hr
  refine ⟨ctx, y, h1, ?_, ?_⟩
  · intro e he
    cases y <;> cases he
    exact ⟨_, rfl, by unfold Err.setExpected; split <;> rfl⟩
  · intro rr he
    cases y <;> cases he
    exact ⟨_, rfl, fun x' hx' => ⟨_, List.mem_map.2 ⟨x', hx', rfl⟩, rfl⟩⟩

theorem fixes_recover {f : ParseFns τ α} (hf : Fixes k n h t f) :
    Fixes k n h t (recoverFns f) := by
  refine hf.of_results fun s pos ctx rem r hp hr => ?_
  simp only [recoverFns, recoverFn, Out.bind_def, Out.bind_eq_ret] at hr
  obtain ⟨y, h1, hr⟩ := hr
  refine ⟨ctx, y, h1, ?_, ?_⟩
  · intro e he
    subst he
    cases y with
    | error e' => simp at hr; subst hr; exact ⟨_, rfl, rfl⟩
    | _ => simp at hr
  · intro rr he
    subst he
    cases y with
    | recovered rr' =>
      simp at hr; subst hr
      exact ⟨_, rfl, fun x' hx' => ⟨_, List.mem_map.2 ⟨x', hx', rfl⟩, rfl⟩⟩
    | _ => simp at hr

theorem fixes_recoverWithFn {n' : Bool} {f : ParseFns τ α} (fn : List τ → Nat → Except Exn α)
    (lbl : α → String) (hf : Fixes k n' h t f) (hn : n' = true ∨ 1 ≤ h) :
    Fixes k n h t (recoverWithFnFns f fn lbl) := by
  constructor
  · intro s pos ctx rem e hp hr
    cases rem with
    | none => exact hf.err s pos ctx _ e hp hr
    | some b =>
      simp only [recoverWithFnFns, recoverWithFnFn, Out.bind_def, Out.bind_eq_ret] at hr
      obtain ⟨x, h1, hr⟩ := hr
      cases x with
      | ok _ => simp at hr
      | error e' =>
        have hc := hf.err s pos ctx _ e' hp h1
        by_cases hb : b = 0
        · simp [hc, hb] at hr; subst hr; exact hc
        · simp only [hc, Bool.false_eq_true, if_false, ne_eq, hb, not_false_eq_true, if_true,
            Out.bind_eq_ret] at hr
          obtain ⟨_, _, hr⟩ := hr
          simp at hr
      | recovered rr =>
        simp only at hr
        split at hr
        · simp at hr
        · split at hr
          · simp only [Out.bind_eq_ret] at hr
            obtain ⟨_, _, hr⟩ := hr
            simp at hr
          · simp at hr
  · intro s pos ctx rr hp hr
    exact hf.alone s pos ctx rr hp hr
  · intro s pos ctx b rr hp hb hr
    simp only [recoverWithFnFns, recoverWithFnFn, Out.bind_def, Out.bind_eq_ret] at hr
    obtain ⟨x, h1, hr⟩ := hr
    cases x with
    | ok _ => simp at hr
    | error e' =>
      have hc := hf.err s pos ctx _ e' hp h1
      by_cases hb0 : b = 0
      · simp [hc, hb0] at hr
      · simp only [hc, Bool.false_eq_true, if_false, ne_eq, hb0, not_false_eq_true, if_true,
          Out.bind_eq_ret] at hr
        obtain ⟨_, _, hr⟩ := hr
        have hnn : n' = true → False := fun h => hf.never h s pos ctx b e' hp hb h1
        simp at hr; subst hr
        refine ⟨_, List.mem_singleton.2 rfl, ?_⟩
        rcases hn with h2 | h2
        · exact absurd h2 hnn
        · left; simp [makeUserInsert]; omega
    | recovered rr' =>
      obtain ⟨x, hx, h2⟩ := hf.within s pos ctx b rr' hp hb h1
      simp only at hr
      split at hr
      · simp at hr; subst hr; exact ⟨x, hx, h2⟩
      · split at hr
        · simp only [Out.bind_eq_ret] at hr
          obtain ⟨_, _, hr⟩ := hr
          simp at hr; subst hr
          exact ⟨x, List.mem_cons_of_mem _ hx, h2⟩
        · simp at hr; subst hr; exact ⟨x, hx, h2⟩
  · intro hn' s pos ctx b e hp hb hr
    simp only [recoverWithFnFns, recoverWithFnFn, Out.bind_def, Out.bind_eq_ret] at hr
    obtain ⟨x, h1, hr⟩ := hr
    cases x with
    | ok _ => simp at hr
    | error e' =>
      have hc := hf.err s pos ctx _ e' hp h1
      rcases hn with h2 | h2
      · exact hf.never h2 s pos ctx b e' hp hb h1
      · have hb0 : b ≠ 0 := by omega
        simp only [hc, Bool.false_eq_true, if_false, ne_eq, hb0, not_false_eq_true, if_true,
          Out.bind_eq_ret] at hr
        obtain ⟨_, _, hr⟩ := hr
        simp at hr
    | recovered rr' =>
      simp only at hr
      split at hr
      · simp at hr
      · split at hr
        · simp only [Out.bind_eq_ret] at hr
          obtain ⟨_, _, hr⟩ := hr
          simp at hr
        · simp at hr

theorem fixes_block {f : ParseFns τ α} (hf : Fixes k n h t f) : Fixes k n h t (blockFns f) := by
  refine hf.of_results fun s pos ctx rem r hp hr => ?_
  simp only [blockFns, Out.bind_def, Out.bind_eq_ret, Out.pure_def, Out.ret.injEq] at hr
  obtain ⟨y, h1, rfl⟩ := hr
  refine ⟨_, y, h1, ?_, ?_⟩
  · intro e he
    cases y <;> cases he
    exact ⟨_, rfl, rfl⟩
  · intro rr he
    cases y <;> cases he
    exact ⟨_, rfl, fun x' hx' => ⟨_, List.mem_map.2 ⟨x', hx', rfl⟩, rfl⟩⟩

theorem fixes_aligned {f : ParseFns τ α} (hf : Fixes k n h t f) :
    Fixes k false h t (alignedFns f) := by
  constructor
  · intro s pos ctx rem e hp hr
    simp only [alignedFns] at hr
    split at hr
    · exact hf.err s pos _ _ e hp hr
    · simp at hr; subst hr; rfl
  · intro s pos ctx rr hp hr
    simp only [alignedFns] at hr
    split at hr
    · exact hf.alone s pos _ rr hp hr
    · simp at hr
  · intro s pos ctx b rr hp hb hr
    simp only [alignedFns] at hr
    split at hr
    · exact hf.within s pos _ b rr hp hb hr
    · simp at hr
  · intro h; cases h

theorem fixes_indented {f : ParseFns τ α} (d : Int) (hf : Fixes k n h t f) :
    Fixes k false h t (indentedFns d f) := by
  have hb := fixes_block hf
  constructor
  · intro s pos ctx rem e hp hr
    simp only [indentedFns] at hr
    split at hr
    · exact hb.err s pos ctx _ e hp hr
    · simp at hr; subst hr; rfl
  · intro s pos ctx rr hp hr
    simp only [indentedFns] at hr
    split at hr
    · exact hb.alone s pos ctx rr hp hr
    · simp at hr
  · intro s pos ctx b rr hp hb' hr
    simp only [indentedFns] at hr
    split at hr
    · exact hb.within s pos ctx b rr hp hb' hr
    · simp at hr
  · intro h; cases h

/-- The induction hypothesis. -/
structure FixesQ (k : Int) (T : FixTable ρ) (p : P τ ρ Γ α) (f : ParseFns τ α) : Prop where
  sim : Sim f
  frame : Framed f
  fixes : ∀ n h t, p.Fixable T n h t → (t : Int) ≤ k → Fixes k n h t f

theorem fixes_closed [BEq τ] {env : Env τ ρ Γ} {T : FixTable ρ} (hT : T.OK env) :
    Closed env (fun {_} p f => FixesQ k T p f) := by
  have fc := frame_closed.closed (τ := τ) env
  have fd : ∀ {α : Type} {p : P τ ρ Γ α} {f : ParseFns τ α}, (Sim f ∧ Framed f) →
      (∀ n h t, p.Fixable T n h t → (t : Int) ≤ k → Fixes k n h t f) →
      FixesQ k T p f := fun h h' => ⟨h.1, h.2, h'⟩
  exact {
    pure := fun x => fd (fc.pure x) fun _ _ _ _ _ => fixes_pureFn (.ok x)
    pureFn := fun x => fd (fc.pureFn x) fun _ _ _ _ _ => fixes_pureFn x
    unexpected := fun x => fd (fc.unexpected x) fun n h t (hx : n = false) _ => by
      subst hx; exact fixes_unexpected x
    eof := fd fc.eof fun _ _ _ _ _ => fixes_eof
    satisfy := fun t => fd (fc.satisfy t) fun n h t (hx : n = false) _ => by
      subst hx; exact fixes_satisfy _
    sym := fun x l => fd (fc.sym x l) fun _ _ _ h1 _ => fixes_sym x l h1
    literal := fun x ss h => fd (fc.literal x ss h) fun _ _ _ h1 _ => fixes_literal x ss h1
    regexp := fun m => fd (fc.regexp m) fun n h t (hx : n = false) _ => by
      subst hx; exact fixes_regexp m
    fmap := fun p f fn h => fd (fc.fmap p f fn ⟨h.sim, h.frame⟩) fun n a t h1 h2 =>
      fixes_fmap fn (h.fixes n a t h1 h2)
    alt := fun p q f g hf hg => fd (fc.alt p q f g ⟨hf.sim, hf.frame⟩ ⟨hg.sim, hg.frame⟩) (by
      intro n a t h1 h2
      refine fixes_alt hf.sim hf.frame hg.frame ?_
      rcases h1 with ⟨h3, n', a', h4⟩ | ⟨⟨n', h3⟩, h4⟩
      · exact .inl ⟨hf.fixes _ _ _ h3 h2, n', a', hg.fixes _ _ _ h4 h2⟩
      · exact .inr ⟨⟨n', hf.fixes _ _ _ h3 h2⟩, hg.sim, hg.fixes _ _ _ h4 h2⟩)
    bind := fun p f c g hf hg =>
      fd (fc.bind p f c g ⟨hf.sim, hf.frame⟩ fun a => ⟨(hg a).sim, (hg a).frame⟩) (by
        rintro n a t ⟨f1, f2, r1, h1, h2, h3, h4⟩ h5
        refine fixes_bind hf.frame h5 h1 h2 (hf.fixes _ _ _ h3 (by omega)) fun v => ?_
        obtain ⟨r2, h6, h7⟩ := h4 v
        exact ((hg v).fixes _ _ _ h7 (by omega)).weaken id (Nat.le_refl _) h6)
    seqWith := fun p f q g merge hf hg =>
      fd (fc.seqWith p f q g merge ⟨hf.sim, hf.frame⟩ ⟨hg.sim, hg.frame⟩) (by
        rw [seqFns_eq]
        rintro n a t ⟨f1, f2, r1, r2, h1, h2, h3, h4, h6⟩ h5
        refine fixes_bind hf.frame h5 h1 h2 (hf.fixes _ _ _ h4 (by omega)) fun v => ?_
        exact fixes_fmap _ ((hg.fixes _ _ _ h6 (by omega)).weaken id (Nat.le_refl _) h3))
    maybe := fun p f h => fd (fc.maybe p f ⟨h.sim, h.frame⟩) (by
      rintro n a t ⟨n', a', h1⟩ h2
      have hp := h.fixes _ _ _ h1 h2
      have hrun : ∀ s pos ctx rem r, pos ≤ s.length → (maybeFns f).fn s pos ctx k rem = .ret r →
          (∀ e, r ≠ .error e) ∧ ∀ rr, r = .recovered rr → ∃ x ∈ rr.repairs, k - t ≤ x.ins := by
        intro s pos ctx rem r hpos hr
        simp only [maybeFns, maybeFn, Out.bind_def, Out.bind_eq_ret] at hr
        obtain ⟨y, h3, hr⟩ := hr
        cases y with
        | ok o => simp at hr; subst hr; simp
        | error e =>
          have hc := hp.err s pos ctx _ e hpos h3
          simp [hc] at hr; subst hr; simp
        | recovered rr =>
          have hc := (show RecFrame .. from h.frame _ _ _ _ _ _ hpos h3).consumed rfl
          simp only [hc, if_true, Out.ret.injEq] at hr
          subst hr
          refine ⟨by simp [Result.fmap], fun rr' he => ?_⟩
          cases he
          obtain ⟨x, hx, h4⟩ := hp.alone s pos ctx rr hpos h3
          exact ⟨_, List.mem_map.2 ⟨x, hx, rfl⟩, h4⟩
      constructor
      · intro s pos ctx rem e hpos hr
        exact absurd rfl ((hrun s pos ctx rem _ hpos hr).1 e)
      · intro s pos ctx rr hpos hr
        exact (hrun s pos ctx _ _ hpos hr).2 rr rfl
      · intro s pos ctx b rr hpos _ hr
        obtain ⟨x, hx, h⟩ := (hrun s pos ctx _ _ hpos hr).2 rr rfl
        exact ⟨x, hx, .inr h⟩
      · intro _ s pos ctx b e hpos _ hr
        exact absurd rfl ((hrun s pos ctx _ _ hpos hr).1 e))
    many := fun p f fuel h => fd (fc.many p f fuel ⟨h.sim, h.frame⟩)
      fun n a t ⟨n', a', h1⟩ h2 => fixes_many fuel h.frame (h.fixes _ _ _ h1 h2)
    attempt := fun p f h => fd (fc.attempt p f ⟨h.sim, h.frame⟩) fun n a t h1 h2 =>
      fixes_attempt (h.fixes n a t h1 h2)
    label := fun p f x h => fd (fc.label p f x ⟨h.sim, h.frame⟩) fun n a t h1 h2 =>
      fixes_label x (h.fixes n a t h1 h2)
    recover := fun p f h => fd (fc.recover p f ⟨h.sim, h.frame⟩) fun n a t h1 h2 =>
      fixes_recover (h.fixes n a t h1 h2)
    recoverWith := fun p f x vs h => fd (fc.recoverWith p f x vs ⟨h.sim, h.frame⟩) (by
      rintro n a t ⟨n', h1, h3⟩ h2
      rw [recoverWithFns_eq]
      exact fixes_recoverWithFn _ _ (h.fixes n' a t h1 h2) h3)
    recoverWithFn := fun p f fn lbl h => fd (fc.recoverWithFn p f fn lbl ⟨h.sim, h.frame⟩) (by
      rintro n a t ⟨n', h1, h3⟩ h2
      exact fixes_recoverWithFn _ _ (h.fixes n' a t h1 h2) h3)
    block := fun p f h => fd (fc.block p f ⟨h.sim, h.frame⟩) fun n a t h1 h2 =>
      fixes_block (h.fixes n a t h1 h2)
    aligned := fun p f h => fd (fc.aligned p f ⟨h.sim, h.frame⟩) (by
      rintro n a t ⟨rfl, n', h1⟩ h2
      exact fixes_aligned (h.fixes _ _ _ h1 h2))
    indented := fun p f d h => fd (fc.indented p f d ⟨h.sim, h.frame⟩) (by
      rintro n a t ⟨rfl, n', h1⟩ h2
      exact fixes_indented d (h.fixes _ _ _ h1 h2))
    refDiverge := fun i => fd (fc.refDiverge i) (by
      intros; constructor <;> intros <;> simp_all [divergeFns])
    refUndefined := fun i h => fd (fc.refUndefined i h) (by
      intros; constructor <;> intros <;> simp_all [undefinedFns])
    refDefined := fun i p f he h => ⟨h.sim, h.frame, fun n a t h1 h2 =>
      (h.fixes _ _ _ (hT i p he) (by have := h1.2.2; omega)).weaken h1.1 h1.2.1 h1.2.2⟩ }

theorem fixes_denote [BEq τ] {env : Env τ ρ Γ} {T : FixTable ρ} (hT : T.OK env) (fuel : Nat)
    (p : P τ ρ Γ α) {n : Bool} {h t : Nat} (hp : p.Fixable T n h t) (hk : (t : Int) ≤ k) :
    Fixes k n h t (denote env fuel p) :=
  ((fixes_closed hT).denote fuel p).fixes n h t hp hk

end Reparsec
