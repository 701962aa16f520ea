import Verif.Lemmas.LangLemmas
import Verif.Lemmas.Locs
import Verif.Props.Modes

/-!
# C24 - C27, C41, C46: values, repairs and the grammar

The specification is `Spec/Grammar.lean`: `Der` (derivations with edits) and `Lang` (words).
-/

namespace Reparsec

variable {τ ρ : Type} {Γ : ρ → Type} {α β : Type}

/-- The edit that an operation of a repair reports: what is done, and at which position. -/
def OpItem.edit (i : OpItem) : Edit := ⟨i.loc.pos, i.op⟩

/-- The edits that a candidate repair reports. -/
def Repair.edits (r : Repair τ α) : List Edit := r.ops.map OpItem.edit

/-- The edits that a `ParseError` reports. -/
def ParseError.edits (e : ParseError) : List Edit :=
  e.errors.filterMap fun i => i.op.map fun op => ⟨i.loc.pos, op⟩

/-- No notion of columns. -/
def anyCol : Nat → Nat → Prop := fun _ _ => True

/-- Columns for `Parser.parse`: always 0. -/
def zeroCol : Nat → Nat → Prop := fun _ c => c = 0

/-- Columns of a text: the number of characters since the last newline. -/
def textCol (s : List Char) : Nat → Nat → Prop := fun i c => c = (lineStart s i).length

/-! ### From `sound_denote` to `parse` -/

section
variable [BEq τ] {env : Env τ ρ Γ} {p : P τ ρ Γ α} {s : List τ}

theorem returns_recovering {k : Int} {gl : Loc → List τ → Nat → Loc} {r : Result τ α}
    (h : Returns env p s (recovering k gl) r) :
    ∃ n, (denote env n p).fn s 0 (initCtx gl) k (some k) = .ret r := by
  obtain ⟨n, h⟩ := h
  exact ⟨n, by simpa only [parse, recovering, if_true] using h⟩

theorem returns_plain {gl : Loc → List τ → Nat → Loc} {r : Result τ α}
    (h : Returns env p s (plain gl) r) :
    ∃ n x, (denote env n p).fast s 0 (initCtx gl) = .ret x ∧ x.toResult = r := by
  obtain ⟨n, h⟩ := h
  simp only [parse, plain, Bool.false_eq_true, if_false, Out.bind_def, Out.bind_eq_ret,
    Out.pure_def, Out.ret.injEq] at h
  obtain ⟨x, h1, h2⟩ := h
  exact ⟨n, x, h1, h2⟩

theorem sound_recovering (D : LocDisc s) (hc : CtxOK D (initCtx D.g) 0)
    (h : D.layout ∨ Everywhere env P.notLayout p) {k : Int} {r : Result τ α}
    (hr : Returns env p s (recovering k D.g) r) :
    ResSound env D p 0 (initCtx D.g) k (some k) r := by
  obtain ⟨n, hr⟩ := returns_recovering hr
  exact (sound_denote env D p h n).fn 0 _ k (some k) r (Nat.zero_le _) hc hr

theorem sound_plain (D : LocDisc s) (hc : CtxOK D (initCtx D.g) 0)
    (h : D.layout ∨ Everywhere env P.notLayout p) {r : Result τ α}
    (hr : Returns env p s (plain D.g) r) :
    (∃ o, r = .ok o ∧ OkSound env D p 0 (initCtx D.g) o) ∨
      ∃ e, r = .error e ∧ ErrLoc env D p 0 0 e.loc := by
  obtain ⟨n, x, h1, rfl⟩ := returns_plain hr
  have hs := sound_denote env D p h n
  cases x with
  | ok o =>
    exact .inl ⟨o, rfl, hs.fn 0 _ 0 none (.ok o) (Nat.zero_le _) hc
      ((sim_denote env n p).ok h1 _ _)⟩
  | error e => exact .inr ⟨e, rfl, hs.fast 0 _ e (Nat.zero_le _) hc h1⟩

omit [BEq τ] in
theorem anyDisc_ctx (gl : Loc → List τ → Nat → Loc) : CtxOK (anyDisc gl s) (initCtx gl) 0 :=
  ⟨rfl, trivial⟩

omit [BEq τ] in
theorem defaultDisc_ctx : CtxOK (defaultDisc s) (initCtx defaultGetLoc) 0 := ⟨rfl, rfl, rfl⟩

theorem exactLoc_zero (s : List Char) : exactLoc s 0 = ⟨0, 0, 0⟩ := by
  simp [exactLoc, lineStart]

theorem scannerlessDisc_ctx (s : List Char) :
    CtxOK (scannerlessDisc s) (initCtx scannerlessGetLoc) 0 :=
  ⟨rfl, (exactLoc_zero s).symm, Nat.le_refl _⟩

theorem lexerDisc_ctx (s : List Token) : CtxOK (lexerDisc s) (initCtx lexerGetLoc) 0 :=
  ⟨rfl, .inl rfl⟩

theorem OpsMatch.opsEq {rel : Nat → Loc → Prop} {es : List Edit} {is : List OpItem}
    (h : OpsMatch rel es is) : es.map (·.op) = is.map (·.op) := by
  induction h with
  | nil => rfl
  | cons h1 _ _ ih => simp [h1, ih]

theorem OpsMatch.editsEq {rel : Nat → Loc → Prop} (hrel : ∀ p loc, rel p loc → loc.pos = p)
    {es : List Edit} {is : List OpItem} (h : OpsMatch rel es is) : es = is.map OpItem.edit := by
  induction h with
  | nil => rfl
  | cons h1 h2 _ ih => simp [OpItem.edit, h1, hrel _ _ h2, ← ih]

omit [BEq τ] in
theorem defaultRel : ∀ p loc, (defaultDisc s).rel p loc → loc.pos = p := by
  intro p loc h
  have h : loc = _ := h
  rw [h]

theorem scannerlessRel {s : List Char} : ∀ p loc, (scannerlessDisc s).rel p loc → loc.pos = p := by
  intro p loc h
  have h : loc = _ := h
  rw [h]; rfl

omit [BEq τ] in
/-- `unwrap` on a recovered result: the value returned and the errors reported are those of one
candidate repair. -/
theorem unwrap_candidate (fmt : Loc → String) {r : Result τ α} {v : α} {pe : ParseError}
    (hv : r.unwrap fmt true = .ok v) (he : r.unwrap fmt false = .error pe) :
    ∃ rr x, r = .recovered rr ∧ x ∈ rr.repairs ∧ v = x.value ∧ pe.edits = x.edits ∧
      pe.errors.length = x.ops.length := by
  cases r with
  | ok r => simp [Result.unwrap] at he
  | error e => simp [Result.unwrap] at hv
  | recovered rr =>
    simp only [Result.unwrap] at hv he
    cases hr : rr.repairs with
    | nil => simp [hr] at hv
    | cons y ys =>
      simp only [hr, if_true, Bool.false_eq_true, if_false, Except.ok.injEq,
        Except.error.injEq] at hv he
      refine ⟨rr, minRepair y ys, rfl, by rw [hr]; exact minRepair_mem y ys, hv.symm, ?_, ?_⟩
      · rw [← he]
        simp only [ParseError.edits, errorItems, Repair.edits, List.filterMap_map]
        induction (minRepair y ys).ops with
        | nil => rfl
        | cons i is ih => simpa [OpItem.edit] using ih
      · rw [← he]; simp [errorItems]

end

/-- The parser is `eof()`. -/
def P.isEof : {α : Type} → P τ ρ Γ α → Bool
  | _, .eof => true
  | _, _ => false

theorem Der.of_isEof [BEq τ] {env : Env τ ρ Γ} {s : List τ} {col} {q : P τ ρ Γ α} {m i es v j}
    (h : Der env s col q m i es v j) (he : q.isEof = true) :
    j = s.length ∧ (es = [] → i = s.length) := by
  cases h <;> simp_all [P.isEof]

theorem Lang.of_isEof [BEq τ] {env : Env τ ρ Γ} {q : P τ ρ Γ α} {w v}
    (h : Lang env q w v) (he : q.isEof = true) : w = [] := by
  cases h <;> simp_all [P.isEof]

theorem Derives.inOrder [BEq τ] {env : Env τ ρ Γ} {s : List τ} {col} {p : P τ ρ Γ α} {m i es v j}
    (h : Derives env s col p m i es v j) (hi : i ≤ s.length) : InOrder i es j ∧ j ≤ s.length := by
  obtain ⟨st, rfl, h⟩ := h
  exact der_inOrder h hi

theorem Derives.lang [BEq τ] {env : Env τ ρ Γ} {s : List τ} {col} {p : P τ ρ Γ α} {m i es v j}
    (tok : String → List τ) (hb : es ≠ [] → ∀ x : τ, (x == x) = true)
    (henv : es ≠ [] → ∀ i q, env i = some q → q.All (P.labelled env tok))
    (h : Derives env s col p m i es v j) (hi : i ≤ s.length)
    (hp : es ≠ [] → p.All (P.labelled env tok)) : Lang env p (edited tok s i es j) v := by
  obtain ⟨st, rfl, h⟩ := h
  simp only [ne_eq, edits_eq_nil] at hb henv hp
  exact h.lang tok hb henv hi hp

/-! ### C24 -/

section
variable [BEq τ] {env : Env τ ρ Γ} {p : P τ ρ Γ α} {s : List τ}

/-- C24. What plain parsing returns is derived by the grammar from the part of the input that was
read, and that part, as a word, is assigned this value by the grammar. -/
theorem C24_accepted (fmt : Loc → String) {gl : Loc → List τ → Nat → Loc} {r : Result τ α}
    {b : Bool} {v : α} (h : Returns env p s (plain gl) r) (hv : r.unwrap fmt b = .ok v) :
    ∃ j, j ≤ s.length ∧ Derives env s anyCol p 0 0 [] v j ∧ Lang env p (s.take j) v := by
  rcases sound_plain (anyDisc gl s) (anyDisc_ctx gl) (.inl trivial) h with ⟨o, rfl, ho⟩ | ⟨e, rfl, _⟩
  · simp only [Result.unwrap, Except.ok.injEq] at hv
    subst hv
    refine ⟨o.pos, (der_inOrder ho.der (Nat.zero_le _)).2, ⟨[], rfl, ho.der⟩, ?_⟩
    have := ho.der.lang (fun _ => []) (by simp) (by simp) (Nat.zero_le _) (by simp)
    simpa [edited, slice] using this
  · simp [Result.unwrap] at hv

/-- C24, for a parser that ends with `<< eof()`: the whole input is in the language. -/
theorem C24_accepted_whole (fmt : Loc → String) {gl : Loc → List τ → Nat → Loc} {r : Result τ α}
    {b : Bool} {v : α} (h : Returns env (P.seql p .eof) s (plain gl) r)
    (hv : r.unwrap fmt b = .ok v) : Lang env p s v := by
  obtain ⟨j, hj, ⟨st, hst, hd⟩, -⟩ := C24_accepted fmt h hv
  obtain rfl := edits_eq_nil.1 hst
  have key : ∀ {q : P τ ρ Γ α} {es m i v j}, Der env s anyCol (P.seql q .eof) m i es v j →
      es = [] → Der env s anyCol q m i [] v s.length := by
    intro q es m i v j h hes
    unfold P.seql at h
    cases h with
    | seqWith h1 h2 =>
      obtain ⟨rfl, rfl⟩ := List.append_eq_nil_iff.1 hes
      rw [← (h2.of_isEof rfl).2 rfl]; exact h1
  have hd := key hd rfl
  have := hd.lang (fun _ => []) (by simp) (by simp) (Nat.zero_le _) (by simp)
  simpa [edited, slice] using this

/-- C24 with exact columns: under `scannerless.parse` the layout combinators in the grammar are
respected too. -/
theorem C24_accepted_text {env : Env Char ρ Γ} {p : P Char ρ Γ α} {s : List Char}
    (fmt : Loc → String) {r : Result Char α} {b : Bool} {v : α}
    (h : Returns env p s (plain scannerlessGetLoc) r) (hv : r.unwrap fmt b = .ok v) :
    ∃ j, j ≤ s.length ∧ Derives env s (textCol s) p 0 0 [] v j := by
  rcases sound_plain (scannerlessDisc s) (scannerlessDisc_ctx s) (.inl trivial) h with
    ⟨o, rfl, ho⟩ | ⟨e, rfl, _⟩
  · simp only [Result.unwrap, Except.ok.injEq] at hv
    subst hv
    exact ⟨o.pos, (der_inOrder ho.der (Nat.zero_le _)).2, [], rfl, ho.der⟩
  · simp [Result.unwrap] at hv

/-! ### C25 -/

/-- C25, for any `get_loc`: each candidate repair comes with a derivation of its value from the
input, up to the repair's position, that applies exactly the operations of the repair, in order,
without overlap. -/
theorem C25_candidates {k : Int} {gl : Loc → List τ → Nat → Loc} {rr : Recovered τ α}
    (h : Returns env p s (recovering k gl) (.recovered rr)) :
    ∀ x ∈ rr.repairs, ∃ es, es.map (·.op) = x.ops.map (·.op) ∧
      Derives env s anyCol p 0 0 es x.value x.pos ∧ InOrder 0 es x.pos ∧ x.pos ≤ s.length := by
  intro x hx
  have hs : RecSound .. := sound_recovering (anyDisc gl s) (anyDisc_ctx gl) (.inl trivial) h
  obtain ⟨es, hes⟩ := hs.reps x hx
  have ho := der_inOrder hes.der (Nat.zero_le _)
  exact ⟨edits es, hes.ops.opsEq, ⟨es, rfl, hes.der⟩, ho.1, ho.2⟩

/-- C25, with `Parser.parse`'s default locations: the derivation applies the operations at the
reported positions. -/
theorem C25_candidates_default {k : Int} {rr : Recovered τ α}
    (h : Returns env p s (recovering k defaultGetLoc) (.recovered rr)) :
    ∀ x ∈ rr.repairs, Derives env s zeroCol p 0 0 x.edits x.value x.pos := by
  intro x hx
  have hs : RecSound .. := sound_recovering (defaultDisc s) defaultDisc_ctx (.inl trivial) h
  obtain ⟨es, hes⟩ := hs.reps x hx
  exact ⟨es, hes.ops.editsEq defaultRel, hes.der⟩

/-- C25, under `scannerless.parse`. -/
theorem C25_candidates_text {env : Env Char ρ Γ} {p : P Char ρ Γ α} {s : List Char} {k : Int}
    {rr : Recovered Char α}
    (h : Returns env p s (recovering k scannerlessGetLoc) (.recovered rr)) :
    ∀ x ∈ rr.repairs, Derives env s (textCol s) p 0 0 x.edits x.value x.pos := by
  intro x hx
  have hs : RecSound .. :=
    sound_recovering (scannerlessDisc s) (scannerlessDisc_ctx s) (.inl trivial) h
  obtain ⟨es, hes⟩ := hs.reps x hx
  exact ⟨es, hes.ops.editsEq scannerlessRel, hes.der⟩

/-- C25 as seen by the user: the value of `unwrap(recover=True)` is derived from the input by
applying exactly the edits of the `ParseError` that `unwrap()` raises. -/
theorem C25_reported (fmt : Loc → String) {k : Int} {r : Result τ α} {v : α} {pe : ParseError}
    (h : Returns env p s (recovering k defaultGetLoc) r) (hv : r.unwrap fmt true = .ok v)
    (he : r.unwrap fmt false = .error pe) :
    pe.edits.length = pe.errors.length ∧
      ∃ j, j ≤ s.length ∧ Derives env s zeroCol p 0 0 pe.edits v j := by
  obtain ⟨rr, x, rfl, hx, rfl, h2, h3⟩ := unwrap_candidate fmt hv he
  have hd := C25_candidates_default h x hx
  rw [h2]
  exact ⟨by rw [h3]; simp [Repair.edits], x.pos, (hd.inOrder (Nat.zero_le _)).2, hd⟩

/-- The same for `scannerless.parse`. -/
theorem C25_reported_text {env : Env Char ρ Γ} {p : P Char ρ Γ α} {s : List Char}
    (fmt : Loc → String) {k : Int} {r : Result Char α} {v : α} {pe : ParseError}
    (h : Returns env p s (recovering k scannerlessGetLoc) r) (hv : r.unwrap fmt true = .ok v)
    (he : r.unwrap fmt false = .error pe) :
    pe.edits.length = pe.errors.length ∧
      ∃ j, j ≤ s.length ∧ Derives env s (textCol s) p 0 0 pe.edits v j := by
  obtain ⟨rr, x, rfl, hx, rfl, h2, h3⟩ := unwrap_candidate fmt hv he
  have hd := C25_candidates_text h x hx
  rw [h2]
  exact ⟨by rw [h3]; simp [Repair.edits], x.pos, (hd.inOrder (Nat.zero_le _)).2, hd⟩

/-! ### C26, C27 -/

/-- How many elements an operation skips or inserts. -/
def opCount : RepairOp → Nat
  | .skip n => n
  | .insert _ => 1

/-- C26. The cost of a candidate repair is the number of elements its operations skip plus the
number of elements they insert; every operation does something. -/
theorem C26_cost {k : Int} {gl : Loc → List τ → Nat → Loc} {rr : Recovered τ α}
    (h : Returns env p s (recovering k gl) (.recovered rr)) :
    ∀ x ∈ rr.repairs, x.cost = (x.ops.map fun i => opCount i.op).sum ∧ 1 ≤ x.cost ∧
      ∀ i ∈ x.ops, 1 ≤ opCount i.op := by
  intro x hx
  obtain ⟨n, h⟩ := returns_recovering h
  have hf : RecFrame .. := frame_denote env n p s 0 _ _ _ _ (Nat.zero_le _) h
  have hf := hf.reps x hx
  have heq : ∀ o, RepairOp.size o = opCount o := by intro o; cases o <;> rfl
  have h1 : ∀ i ∈ x.ops, 1 ≤ opCount i.op := fun i hi => heq _ ▸ hf.size i hi
  have h2 : x.cost = (x.ops.map fun i => opCount i.op).sum := by
    rw [hf.cost, opsSize]; simp only [heq]
  refine ⟨h2, ?_, h1⟩
  cases ho : x.ops with
  | nil => exact absurd ho hf.ops
  | cons i is =>
    have := h1 i (by simp [ho])
    rw [h2, ho]; simp; omega

/-- C27, for any `get_loc`: the derivation that explains the repair (C25) has at most
`max_insertions` insertions at each input position. -/
theorem C27_candidates {k : Int} (hk : 0 ≤ k) {gl : Loc → List τ → Nat → Loc}
    {rr : Recovered τ α} (h : Returns env p s (recovering k gl) (.recovered rr)) :
    ∀ x ∈ rr.repairs, ∃ es, es.map (·.op) = x.ops.map (·.op) ∧
      Derives env s anyCol p 0 0 es x.value x.pos ∧ ∀ q, (insertsAt q es : Int) ≤ k := by
  intro x hx
  have hs : RecSound .. := sound_recovering (anyDisc gl s) (anyDisc_ctx gl) (.inl trivial) h
  obtain ⟨es, hes⟩ := hs.reps x hx
  refine ⟨edits es, hes.ops.opsEq, ⟨es, rfl, hes.der⟩, ?_⟩
  exact (hes.budget ⟨hk, fun k' h => by cases h; exact ⟨hk, Int.le_refl _⟩⟩).all

/-- C27, with the default locations: at most `max_insertions` reported insertions at one position. -/
theorem C27_default {k : Int} (hk : 0 ≤ k) {rr : Recovered τ α}
    (h : Returns env p s (recovering k defaultGetLoc) (.recovered rr)) :
    ∀ x ∈ rr.repairs, ∀ q, (insertsAt q x.edits : Int) ≤ k := by
  intro x hx
  have hs : RecSound .. := sound_recovering (defaultDisc s) defaultDisc_ctx (.inl trivial) h
  obtain ⟨es, hes⟩ := hs.reps x hx
  have := (hes.budget ⟨hk, fun k' h => by cases h; exact ⟨hk, Int.le_refl _⟩⟩).all
  rwa [hes.ops.editsEq defaultRel] at this

/-- C27, under `scannerless.parse`. -/
theorem C27_text {env : Env Char ρ Γ} {p : P Char ρ Γ α} {s : List Char} {k : Int} (hk : 0 ≤ k)
    {rr : Recovered Char α}
    (h : Returns env p s (recovering k scannerlessGetLoc) (.recovered rr)) :
    ∀ x ∈ rr.repairs, ∀ q, (insertsAt q x.edits : Int) ≤ k := by
  intro x hx
  have hs : RecSound .. :=
    sound_recovering (scannerlessDisc s) (scannerlessDisc_ctx s) (.inl trivial) h
  obtain ⟨es, hes⟩ := hs.reps x hx
  have := (hes.budget ⟨hk, fun k' h => by cases h; exact ⟨hk, Int.le_refl _⟩⟩).all
  rwa [hes.ops.editsEq scannerlessRel] at this

/-- C27, `max_insertions = 0`: nothing is inserted. -/
theorem C27_zero {gl : Loc → List τ → Nat → Loc} {rr : Recovered τ α}
    (h : Returns env p s (recovering 0 gl) (.recovered rr)) :
    ∀ x ∈ rr.repairs, ∀ i ∈ x.ops, ∀ l, i.op ≠ .insert l := by
  intro x hx i hi l hl
  obtain ⟨es, h1, -, h2⟩ := C27_candidates (Int.le_refl _) h x hx
  have : RepairOp.insert l ∈ es.map (·.op) := by
    rw [h1]; exact List.mem_map.2 ⟨i, hi, hl⟩
  obtain ⟨e, he, heq⟩ := List.mem_map.1 this
  have h3 := h2 e.pos
  have h4 : 0 < insertsAt e.pos es := by
    unfold insertsAt
    refine List.length_pos_iff.2 fun hnil => ?_
    have := List.filter_eq_nil_iff.1 hnil e he
    simp [heq] at this
  omega

/-! ### C41 -/

/-- C41, with the default locations. -/
theorem C41_default {k : Int} {rr : Recovered τ α}
    (h : Returns env p s (recovering k defaultGetLoc) (.recovered rr)) :
    ∀ x ∈ rr.repairs, InOrder 0 x.edits s.length := by
  intro x hx
  have hd := (C25_candidates_default h x hx).inOrder (Nat.zero_le _)
  simpa using hd.1.append (es' := []) hd.2

/-- C41, under `scannerless.parse`. -/
theorem C41_text {env : Env Char ρ Γ} {p : P Char ρ Γ α} {s : List Char} {k : Int}
    {rr : Recovered Char α}
    (h : Returns env p s (recovering k scannerlessGetLoc) (.recovered rr)) :
    ∀ x ∈ rr.repairs, InOrder 0 x.edits s.length := by
  intro x hx
  have hd := (C25_candidates_text h x hx).inOrder (Nat.zero_le _)
  simpa using hd.1.append (es' := []) hd.2

/-- What `InOrder` says about two of the edits: the later one starts at or after the end of the
earlier one, and everything lies within the input. -/
theorem C41_meaning {es : List Edit} {i j : Nat} (h : InOrder i es j) :
    (∀ e ∈ es, i ≤ e.pos ∧ e.pos + e.op.width ≤ j) ∧
      es.Pairwise fun a b => a.pos + a.op.width ≤ b.pos := by
  induction es generalizing i with
  | nil => simp
  | cons e es ih =>
    have h1 := h.1
    have h2 := ih h.2
    have h3 := h.2.le
    constructor
    · intro e' he
      rcases List.mem_cons.1 he with rfl | he
      · exact ⟨h1, h3⟩
      · have := h2.1 e' he; omega
    · exact List.pairwise_cons.2 ⟨fun b hb => (h2.1 b hb).1, h2.2⟩

/-! ### C46 -/

/-- C46. If the labels of the terminals say what they insert, applying the reported edits to the
input (up to where the repair stopped) gives a word to which the grammar assigns the repaired
value. -/
theorem C46_candidates [ReflBEq τ] (tok : String → List τ) (hp : Everywhere env (P.labelled env tok) p)
    {k : Int} {rr : Recovered τ α}
    (h : Returns env p s (recovering k defaultGetLoc) (.recovered rr)) :
    ∀ x ∈ rr.repairs, Lang env p (edited tok s 0 x.edits x.pos) x.value := by
  intro x hx
  exact (C25_candidates_default h x hx).lang tok (fun _ x => BEq.rfl) (fun _ => hp.2)
    (Nat.zero_le _) (fun _ => hp.1)

theorem der_eof_end {q : P τ ρ Γ β} {s : List τ} {col} {es m i v j}
    (h : Derives env s col (P.seql q .eof) m i es v j) : j = s.length := by
  obtain ⟨st, -, h⟩ := h
  unfold P.seql at h
  cases h with
  | seqWith h1 h2 => exact (h2.of_isEof rfl).1

/-- `Lang` of `q << eof()` is `Lang` of `q`. -/
theorem lang_seql_eof {q : P τ ρ Γ β} {w : List τ} {v : β}
    (h : Lang env (P.seql q .eof) w v) : Lang env q w v := by
  unfold P.seql at h
  cases h with
  | seqWith h1 h2 => rw [h2.of_isEof rfl, List.append_nil]; exact h1

/-- C46 as seen by the user, for a parser that ends with `<< eof()`: applying the edits of the
`ParseError` to the whole input gives a word of the language, with the value that
`unwrap(recover=True)` returns. -/
theorem C46_reported [ReflBEq τ] (tok : String → List τ) (hp : Everywhere env (P.labelled env tok) p)
    (fmt : Loc → String) {k : Int} {r : Result τ α} {v : α} {pe : ParseError}
    (h : Returns env (P.seql p .eof) s (recovering k defaultGetLoc) r)
    (hv : r.unwrap fmt true = .ok v) (he : r.unwrap fmt false = .error pe) :
    Lang env p (edited tok s 0 pe.edits s.length) v := by
  obtain ⟨rr, x, rfl, hx, rfl, h2, h3⟩ := unwrap_candidate fmt hv he
  have hd := C25_candidates_default h x hx
  have hl := C46_candidates tok (p := P.seql p .eof) ⟨⟨trivial, hp.1, trivial⟩, hp.2⟩ h x hx
  rw [der_eof_end hd] at hl
  rw [h2]
  exact lang_seql_eof hl

/-- The same for `scannerless.parse`. -/
theorem C46_reported_text {env : Env Char ρ Γ} {p : P Char ρ Γ α} {s : List Char}
    (tok : String → List Char) (hp : Everywhere env (P.labelled env tok) p)
    (fmt : Loc → String) {k : Int} {r : Result Char α} {v : α} {pe : ParseError}
    (h : Returns env (P.seql p .eof) s (recovering k scannerlessGetLoc) r)
    (hv : r.unwrap fmt true = .ok v) (he : r.unwrap fmt false = .error pe) :
    Lang env p (edited tok s 0 pe.edits s.length) v := by
  obtain ⟨rr, x, rfl, hx, rfl, h2, h3⟩ := unwrap_candidate fmt hv he
  have hd := C25_candidates_text h x hx
  have hl := hd.lang tok (fun _ x => BEq.rfl) (fun _ => hp.2)
    (Nat.zero_le _) (fun _ => ⟨trivial, hp.1, trivial⟩)
  rw [der_eof_end hd] at hl
  rw [h2]
  exact lang_seql_eof hl

instance : ReflBEq Token := ⟨by intro t; simp [BEq.beq]⟩

/-- The errors are these edits, in this order: the same operations, located at the tokens at the positions of the
edits (at the end of the input: where the last token ends). -/
def ReportsEdits (s : List Token) (es : List Edit) (is : List ErrorItem) : Prop :=
  es.length = is.length ∧ ∀ x ∈ es.zip is, x.2.op = some x.1.op ∧ TokenLoc s x.1.pos x.2.loc

theorem OpsMatch.reports {s : List Token} {fmt : Loc → String} {α : Type} {x : Repair Token α} {es : List Edit}
    (h : OpsMatch (lexerDisc s).rel es x.ops) : ReportsEdits s es (errorItems fmt x) := by
  unfold errorItems
  generalize x.ops = is at h
  induction h with
  | nil => exact ⟨rfl, fun x hx => by cases hx⟩
  | cons h1 h2 _ ih =>
    refine ⟨congrArg (· + 1) ih.1, fun y hy => ?_⟩
    rcases List.mem_cons.1 hy with rfl | hy
    · refine ⟨congrArg some h1, ?_⟩
      have h2 : _ = _ := h2
      simp only [h2]
      exact tokenLoc_locFromStream _ _
    · exact ih.2 y hy

/-- The same for `lexer.parse`, where errors are located in the text: they say at which tokens there is something to
be inserted or skipped. (Layout combinators where the locations are right, see C36.) -/
theorem C46_reported_tokens {env : Env Token ρ Γ} {p : P Token ρ Γ α} {s : List Token}
    (tok : String → List Token) (hp : Everywhere env (P.labelled env tok) p)
    (hl : IndexSafe s ∨ Everywhere env P.notLayout p)
    (fmt : Loc → String) {k : Int} {r : Result Token α} {v : α} {pe : ParseError}
    (h : Returns env (P.seql p .eof) s (recovering k lexerGetLoc) r)
    (hv : r.unwrap fmt true = .ok v) (he : r.unwrap fmt false = .error pe) :
    ∃ es, ReportsEdits s es pe.errors ∧ InOrder 0 es s.length ∧
      Lang env p (edited tok s 0 es s.length) v := by
  cases r with
  | ok r => simp [Result.unwrap] at he
  | error e => simp [Result.unwrap] at hv
  | recovered rr =>
    simp only [Result.unwrap] at hv he
    cases hr : rr.repairs with
    | nil => simp [hr] at hv
    | cons y ys =>
      simp only [hr, if_true, Bool.false_eq_true, if_false, Except.ok.injEq,
        Except.error.injEq] at hv he
      subst hv he
      have hs : RecSound .. := sound_recovering (lexerDisc s) (lexerDisc_ctx s)
        (hl.imp_right fun (h : Everywhere env P.notLayout p) =>
          (⟨⟨trivial, h.1, trivial⟩, h.2⟩ : Everywhere env P.notLayout (P.seql p .eof))) h
      obtain ⟨es, hes⟩ := hs.reps (minRepair y ys) (by rw [hr]; exact minRepair_mem y ys)
      have hd : Derives env s _ (P.seql p .eof) 0 0 (edits es) _ _ := ⟨es, rfl, hes.der⟩
      have hL := hd.lang tok (fun _ x => BEq.rfl) (fun _ => hp.2)
        (Nat.zero_le _) (fun _ => ⟨trivial, hp.1, trivial⟩)
      have ho := hd.inOrder (Nat.zero_le _)
      rw [der_eof_end hd] at hL ho
      exact ⟨edits es, hes.ops.reports, ho.1, lang_seql_eof hL⟩

end

/-! ### Concrete cases -/

example : ∃ r, Returns Samples.nestEnv Samples.nest "((x))".toList (plain defaultGetLoc) r ∧
    r.unwrap defaultFmtLoc false = .ok 2 := ⟨_, ⟨30, rfl⟩, rfl⟩

/-- A parse with three errors of both kinds: the reported edits of `"((yx)z"`. -/
example : ∃ r pe, Returns Samples.nestEnv Samples.nest "((yx)z".toList
      (recovering 5 defaultGetLoc) r ∧
    r.unwrap defaultFmtLoc true = .ok 2 ∧ r.unwrap defaultFmtLoc false = .error pe ∧
    pe.edits = [⟨2, .skip 1⟩, ⟨5, .insert "')'"⟩, ⟨5, .skip 1⟩] :=
  ⟨_, _, ⟨30, rfl⟩, rfl, rfl, rfl⟩

/-- What the labels of `nest` stand for. -/
def Samples.tok : String → List Char
  | "'('" => ['(']
  | "')'" => [')']
  | "'x'" => ['x']
  | _ => []

example : Everywhere Samples.nestEnv (P.labelled Samples.nestEnv Samples.tok) Samples.nest :=
  ⟨by simp [Samples.nest, P.seql, P.All, P.labelled], by
    intro i q h
    simp only [Samples.nestEnv, Option.some.injEq] at h
    subst h
    simp [P.All, P.map, P.seqr, P.seql, P.labelled, Samples.tok]⟩

/-- Applying those edits gives `"((x))"`. -/
example : edited Samples.tok "((yx)z".toList 0
    [⟨2, .skip 1⟩, ⟨5, .insert "')'"⟩, ⟨5, .skip 1⟩] 6 = "((x))".toList := rfl

/-- With `max_insertions = 0` there are still repairs. -/
example : ∃ rr : Recovered Char Nat, rr.repairs.length = 1 ∧
    Returns Samples.nestEnv Samples.nest "((yx))".toList (recovering 0 defaultGetLoc)
      (.recovered rr) := ⟨_, by rfl, ⟨30, rfl⟩⟩

end Reparsec
