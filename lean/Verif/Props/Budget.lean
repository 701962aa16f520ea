import Verif.Lemmas.Budget
import Verif.Props.Samples

/-!
# C74: raising `max_insertions` does not lose repairs
-/

namespace Reparsec

variable {τ ρ : Type} {Γ : ρ → Type} {α : Type}

/-- The same repair, up to what `f` shows of its operations (and up to the two fields `unwrap` never looks
at: the number of insertions left and the context). -/
structure SameRepair {δ : Type} (f : OpItem → δ) (x y : Repair τ α) : Prop where
  cost : x.cost = y.cost
  value : x.value = y.value
  pos : x.pos = y.pos
  ops : x.ops.map f = y.ops.map f
  expected : x.expected = y.expected
  consumed : x.consumed = y.consumed
  prio : x.prio = none ↔ y.prio = none

/-- `r` is the result with few insertions allowed, `r'` the result with more: both are the same success; or an
error has stayed one or has become repairs; or the repairs of `r` are among those of `r'`, in the same order. -/
def NoWorse {δ : Type} (f : OpItem → δ) : Result τ α → Result τ α → Prop
  | .ok x, .ok y => x.value = y.value ∧ x.pos = y.pos ∧ x.expected = y.expected
  | .error _, .error _ => True
  | .error _, .recovered _ => True
  | .recovered x, .recovered y => Among (SameRepair f) x.repairs y.repairs
  | _, _ => False

/-- At most one of `attempt` and `recover_with`/`recover_with_fn` is used. -/
def OneKind (env : Env τ ρ Γ) (p : P τ ρ Γ α) : Prop :=
  Everywhere env P.notAttempt p ∨ Everywhere env P.notInsert p

theorem CandIs.same {δ : Type} {f : OpItem → δ} {rel : Nat → Loc → Prop}
    (hf : ∀ q (i j : OpItem), rel q i.loc → rel q j.loc → i.op = j.op → i.expected = j.expected →
      i.consumed = j.consumed → f i = f j)
    {c d : Cand α} {x y : Repair τ α} (hc : CandIs rel c x) (hd : CandIs rel d y) (h : CandLe c d) :
    SameRepair f x y := by
  obtain ⟨-, h1, h2, h3, h4, h5, h6, h7⟩ := CandLe.iff.1 h
  refine ⟨hc.cost.symm.trans (h1.trans hd.cost), hc.value.symm.trans (h4.trans hd.value),
    hc.stop.symm.trans (h5.trans hd.stop), ?_, hc.wants.symm.trans (h6.trans hd.wants),
    hc.begun.symm.trans (h7.trans hd.begun), by rw [← hc.auto, ← hd.auto, h2]⟩
  have ha := hc.fixes
  have hb := hd.fixes
  rw [h3] at ha
  generalize d.fixes = l at ha hb
  generalize x.ops = xs at ha
  generalize y.ops = ys at hb
  induction ha generalizing ys with
  | nil => cases hb; rfl
  | cons a _ ih =>
    cases hb with
    | cons b hb =>
      rw [List.map_cons, List.map_cons, ih _ hb,
        hf _ _ _ a.1 b.1 (a.2.1.symm.trans b.2.1) (a.2.2.1.symm.trans b.2.2.1)
          (a.2.2.2.symm.trans b.2.2.2)]

theorem among_each {R : α → α → Prop} {β : Type} {S : β → β → Prop} {T : α → β → Prop}
    (hs : ∀ a b x y, T a x → T b y → R a b → S x y) {as bs : List α} (h : Among R as bs) :
    ∀ {xs ys : List β}, Each T as xs → Each T bs ys → Among S xs ys := by
  induction h with
  | nil => intro xs ys h _; cases h; exact .nil
  | take h _ ih =>
    intro xs ys hx hy
    cases hx with
    | cons a hx =>
      cases hy with
      | cons b hy => exact .take (hs _ _ _ _ a b h) (ih hx hy)
  | drop _ ih =>
    intro xs ys hx hy
    cases hy with
    | cons b hy => exact .drop (ih hx hy)

section
variable [BEq τ] {env : Env τ ρ Γ} {p : P τ ρ Γ α} {s : List τ} {k k' : Int}

theorem budget_noWorse {δ : Type} {f : OpItem → δ} (D : LocDisc s) (c : Nat → Nat)
    (hcol : D.col = fun q x => x = c q) (hc : CtxOK D (initCtx D.g) 0)
    (hf : ∀ q (i j : OpItem), D.rel q i.loc → D.rel q j.loc → i.op = j.op → i.expected = j.expected →
      i.consumed = j.consumed → f i = f j)
    (hl : D.layout ∨ Everywhere env P.notLayout p) (hp : OneKind env p) (hk : Fewer k k')
    {r' : Result τ α} (hr : Returns env p s (recovering k' D.g) r') :
    ∃ r, Returns env p s (recovering k D.g) r ∧ NoWorse f r r' := by
  rcases findsTo_cases (k := k') D hc hl with h | ⟨o', h1, h2⟩
  · exact absurd h (returns_not_hangs hr)
  have calm : o'.calm := by
    cases o' with
    | raises e => exact (returns_not_raises hr h2).elim
    | accepts => trivial
    | rejects => trivial
    | repairs => trivial
  have main : ∃ A o, Rec env s D.col k p 0 0 (some k) o ∧ FindLe A (some k) (some k') o o' := by
    rw [hcol] at h1 ⊢
    rcases hp with ⟨hp, he⟩ | ⟨hp, he⟩
    · refine ⟨True, h1.budget True c ?_ hk (Nat.zero_le _) ?_ calm _ hk⟩
      · exact fun x q h => (he x q h).mono fun _ h => ⟨fun _ => h, .inl trivial⟩
      · exact hp.mono fun _ h => ⟨fun _ => h, .inl trivial⟩
    · refine ⟨False, h1.budget False c ?_ hk (Nat.zero_le _) ?_ calm _ hk⟩
      · exact fun x q h => (he x q h).mono fun _ h => ⟨fun h => h.elim, .inr h⟩
      · exact hp.mono fun _ h => ⟨fun h => h.elim, .inr h⟩
  obtain ⟨A, o, h3, h4⟩ := main
  have h5 := rec_findsTo D hc (by rw [hcol]; exact fun _ _ _ h h' => h.trans h'.symm) hl h3
  cases o with
  | accepts v j w =>
    obtain ⟨r, hr1, rfl, rfl, rfl⟩ := h5
    refine ⟨_, hr1, ?_⟩
    cases o' with
    | accepts =>
      obtain ⟨r2, hr2, rfl, rfl, rfl⟩ := h2
      cases returns_unique hr hr2
      exact h4
    | rejects => exact h4.elim
    | repairs => exact h4.elim
    | raises => exact h4.elim
  | rejects q w b =>
    obtain ⟨e, hr1, -⟩ := h5
    refine ⟨_, hr1, ?_⟩
    cases o' with
    | accepts => exact h4.elim
    | rejects =>
      obtain ⟨r2, hr2, -⟩ := h2
      cases returns_unique hr hr2
      trivial
    | repairs =>
      obtain ⟨r2, hr2, -⟩ := h2
      cases returns_unique hr hr2
      trivial
    | raises => exact h4.elim
  | repairs cs q w b =>
    obtain ⟨r, hr1, -, -, -, he⟩ := h5
    refine ⟨_, hr1, ?_⟩
    cases o' with
    | accepts => exact h4.elim
    | rejects => exact h4.elim
    | repairs =>
      obtain ⟨r2, hr2, -, -, -, he2⟩ := h2
      cases returns_unique hr hr2
      exact among_each (fun _ _ _ _ hx hy h => hx.same hf hy h) h4.2.2 he he2
    | raises => exact h4.elim
  | raises => cases o' <;> exact h4.elim

theorem opItem_ext {i j : OpItem} (h1 : i.loc = j.loc) (h2 : i.op = j.op)
    (h3 : i.expected = j.expected) (h4 : i.consumed = j.consumed) : i = j := by
  cases i; cases j; simp_all

/-- **C74**: if `p.parse(s, recover=True, max_insertions=k')` returns, then with any smaller `max_insertions`
(`k' < 0` means no limit) the call returns too, and with the larger one nothing is lost: a success is the same
success, and every repair found with `k` insertions is found with `k'` as well, with the same operations at the
same locations, the same value, cost and end — and in the same order. The parser may use `attempt` or
`recover_with`, but not both. -/
theorem C74_default (hp : OneKind env p) (hk : Fewer k k') {r' : Result τ α}
    (hr : Returns env p s (recovering k' defaultGetLoc) r') :
    ∃ r, Returns env p s (recovering k defaultGetLoc) r ∧ NoWorse id r r' :=
  budget_noWorse (defaultDisc s) (fun _ => 0) rfl defaultDisc_ctx
    (fun _ _ _ h1 h2 => opItem_ext (h1.trans h2.symm)) (.inl trivial) hp hk hr

/-- C74 for any `get_loc`, for parsers without layout combinators; locations are not compared. -/
theorem C74_any (gl : Loc → List τ → Nat → Loc) (hl : Everywhere env P.notLayout p) (hp : OneKind env p)
    (hk : Fewer k k') {r' : Result τ α} (hr : Returns env p s (recovering k' gl) r') :
    ∃ r, Returns env p s (recovering k gl) r ∧
      NoWorse (fun i : OpItem => (i.op, i.expected, i.consumed)) r r' :=
  budget_noWorse (flatDisc gl s) (fun _ => 0) rfl ⟨rfl, trivial⟩
    (fun _ _ _ _ _ h1 h2 h3 => by simp [h1, h2, h3]) (.inr hl) hp hk hr

end

/-- C74 for `scannerless.parse`. -/
theorem C74_text {env : Env Char ρ Γ} {p : P Char ρ Γ α} {s : List Char} {k k' : Int}
    (hp : OneKind env p) (hk : Fewer k k') {r' : Result Char α}
    (hr : Returns env p s (recovering k' scannerlessGetLoc) r') :
    ∃ r, Returns env p s (recovering k scannerlessGetLoc) r ∧ NoWorse id r r' :=
  budget_noWorse (scannerlessDisc s) (fun q => (exactLoc s q).col) rfl (scannerlessDisc_ctx s)
    (fun _ _ _ h1 h2 => opItem_ext (h1.trans h2.symm)) (.inl trivial) hp hk hr

/-- C74 for `lexer.parse`. -/
theorem C74_tokens {env : Env Token ρ Γ} {p : P Token ρ Γ α} {s : List Token} {k k' : Int}
    (hl : IndexSafe s ∨ Everywhere env P.notLayout p) (hp : OneKind env p) (hk : Fewer k k')
    {r' : Result Token α} (hr : Returns env p s (recovering k' lexerGetLoc) r') :
    ∃ r, Returns env p s (recovering k lexerGetLoc) r ∧ NoWorse id r r' :=
  budget_noWorse (lexerDisc s) (fun q => (locFromStream s q).col) rfl (lexerDisc_ctx s)
    (fun _ _ _ h1 h2 => opItem_ext (h1.trans h2.symm)) hl hp hk hr

/-! ### What the user sees -/

theorem SameRepair.better {δ : Type} {f : OpItem → δ} {x y z : Repair τ α} (h : SameRepair f x y) :
    x.Better z ↔ y.Better z := by
  have : x.prio ≠ none ↔ y.prio ≠ none := not_congr h.prio
  unfold Repair.Better
  rw [h.cost, h.pos, this]

/-- C74: what `unwrap(recover=True)` could repair with `k`, it can repair with `k'`, and the repair it picks is
not worse: it does not cost more, and if it costs the same it does not stop earlier. -/
theorem C74_still_repaired {δ : Type} {f : OpItem → δ} {x y : Recovered τ α}
    (h : NoWorse f (.recovered x) (.recovered y)) {a : Repair τ α} (ha : IsChoice x.repairs a) :
    ∃ b, IsChoice y.repairs b ∧ ¬ a.Better b ∧ b.cost ≤ a.cost ∧
      (b.cost = a.cost → a.pos ≤ b.pos) := by
  obtain ⟨b', hb', hs⟩ := Among.mem h ha.best.1
  cases hy : y.repairs with
  | nil => rw [hy] at hb'; cases hb'
  | cons z zs =>
    have hb := minRepair_choice zs z
    rw [hy] at hb'
    have hn : ¬ a.Better (minRepair z zs) := fun h => hb.best.2 b' hb' (hs.better.1 h)
    refine ⟨_, hb, hn, ?_, fun h => ?_⟩
    · exact Nat.le_of_not_lt fun h => hn (.inl h)
    · exact Nat.le_of_not_lt fun h' => hn (.inr ⟨h.symm, .inl h'⟩)

/-- C74, as the user sees it: with the default `get_loc`, a value from `unwrap(recover=True)` with `k` insertions
means a value with `k'` insertions (if that call returns at all); without any error, it is the same value. -/
theorem C74_unwrap [BEq τ] {env : Env τ ρ Γ} {p : P τ ρ Γ α} {s : List τ} {k k' : Int} (fmt : Loc → String)
    (hp : OneKind env p) (hk : Fewer k k') {r r' : Result τ α}
    (hr : Returns env p s (recovering k defaultGetLoc) r)
    (hr' : Returns env p s (recovering k' defaultGetLoc) r') {v : α}
    (hv : r.unwrap fmt true = .ok v) :
    ∃ v', r'.unwrap fmt true = .ok v' ∧ (r.unwrap fmt false = .ok v → v' = v) := by
  obtain ⟨r0, h0, hn⟩ := C74_default hp hk hr'
  cases returns_unique hr h0
  cases r with
  | error e => cases hv
  | ok x =>
    cases r' with
    | ok y =>
      refine ⟨y.value, rfl, fun _ => ?_⟩
      cases hv
      exact hn.1.symm
    | error => exact hn.elim
    | recovered => exact hn.elim
  | recovered x =>
    cases r' with
    | ok => exact hn.elim
    | error => exact hn.elim
    | recovered y =>
      have hx : x.repairs ≠ [] := by
        intro h
        simp [Result.unwrap, h] at hv
      have hy : y.repairs ≠ [] := by
        intro h
        have h' : Among (SameRepair id) x.repairs y.repairs := hn
        rw [h] at h'
        cases hxr : x.repairs with
        | nil => exact hx hxr
        | cons a l => rw [hxr] at h'; cases h'
      obtain ⟨a, -, ha, -⟩ := C28_unwrap_uses_best fmt y hy
      obtain ⟨b, -, -, hb⟩ := C28_unwrap_uses_best fmt x hx
      exact ⟨_, ha, fun h => by rw [hb] at h; cases h⟩

/-! ### Both kinds together -/

namespace Samples

/-- `sym("x") >> (satisfy(str.isdigit).recover_with("1") | attempt(sym("c") >> sym("d"))) << eof()` -/
def both : P Char Empty (fun _ => Unit) Char :=
  .seql (.seqr (.sym 'x' "'x'")
    (.alt (.recoverWith (.satisfy fun c => .ok c.isDigit) '1' "'1'")
      (.attempt (.seqr (.sym 'c' "'c'") (.sym 'd' "'d'"))))) .eof

/-- `(sym("(") >> sym("a").sep_by(sym(",")) << sym(")")) << eof()`: neither kind. -/
def brackets : P Char Empty (fun _ => Unit) (List Char) :=
  .seql (.seqr (.sym '(' "'('") (.seql (.sepBy (.sym 'a' "'a'") (.sym ',' "','")) (.sym ')' "')'"))) .eof

theorem brackets_oneKind : OneKind noEnv brackets := by
  refine .inl ⟨?_, fun i => i.elim⟩
  simp only [brackets, P.seql, P.seqr, P.sepBy, P.seq, P.All, P.notAttempt, and_self, P.map]

end Samples

/-- C74: `OneKind` is needed. With `attempt` and `recover_with` together the cheapest repair of `"c"` can get
lost: one insertion in a row allows to insert `x` and `d` around the `c` (cost 2); when two in a row are allowed,
`recover_with` repairs first, so the alternative is no longer tried, and the `c` has to be skipped (cost 3). -/
theorem C74_false :
    Samples.run Samples.noEnv Samples.both "c" true false 1 =
      .ret (.error ⟨[⟨⟨0, 0, 0⟩, "0", ["'x'"], some (.insert "'x'")⟩,
        ⟨⟨1, 0, 0⟩, "1", ["'d'"], some (.insert "'d'")⟩]⟩) ∧
    Samples.run Samples.noEnv Samples.both "c" true false 2 =
      .ret (.error ⟨[⟨⟨0, 0, 0⟩, "0", ["'x'"], some (.insert "'x'")⟩,
        ⟨⟨0, 0, 0⟩, "0", ["'d'"], some (.insert "'1'")⟩,
        ⟨⟨0, 0, 0⟩, "0", ["end of file"], some (.skip 1)⟩]⟩) := ⟨rfl, rfl⟩

/-- A case that meets the hypotheses: `"(a,"` cannot be repaired with `max_insertions=0` or `1`, and can with `2`. -/
example : Fewer 1 2 ∧ Fewer 2 (-1) ∧ OneKind Samples.noEnv Samples.brackets ∧
    Samples.run Samples.noEnv Samples.brackets "(a," true true 2 = .ret (.ok ['a', 'a']) :=
  ⟨.inr (by decide), .inl (by decide), Samples.brackets_oneKind, rfl⟩

end Reparsec
