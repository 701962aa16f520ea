import Verif.Lemmas.Stack
import Verif.Spec.Stack
import Verif.Lemmas.Frame

/-!
# How much stack is enough
-/

namespace Reparsec.Stk

variable {τ α β γ : Type}

/-! ### Every run that ends needs finitely many frames -/

theorem Conv.call {b : Frames → Out α} {o : Out α} (h : Conv (fun m => b (some m)) o) :
    Conv (fun m => Stk.call b (some m)) o :=
  Conv.succ h

/-- The functions with more and more frames come to those without limit. -/
def ConvL (f : LFns τ α) : Prop := ConvFns (fun m => f (some m)) (f none)

theorem ConvL.framed {f : LFns τ α} (h : ConvL f) : ConvL (framed f) :=
  ⟨fun s pos ctx => Conv.call (b := fun d => (f d).fast s pos ctx) (h.fast s pos ctx),
   fun s pos ctx ins rem => Conv.call (b := fun d => (f d).fn s pos ctx ins rem)
    (h.fn s pos ctx ins rem)⟩

theorem ConvL.framedFn {p f : LFns τ α} (hp : ConvL p) (h : ConvL f) : ConvL (framedFn p f) :=
  ⟨fun s pos ctx => hp.fast s pos ctx,
   fun s pos ctx ins rem => Conv.call (b := fun d => (f d).fn s pos ctx ins rem)
    (h.fn s pos ctx ins rem)⟩

theorem Conv.continueParse {ra : Recovered τ α} {ins : Int}
    {k : Frames → α → Nat → Ctx τ → Int → Out (Result τ β)} {merge : α → β → γ}
    (hk : ∀ v p c r, Conv (fun m => k (some m) v p c r) (k none v p c r)) :
    Conv (fun m => Stk.continueParse (some m) ra ins k merge)
      (Stk.continueParse none ra ins k merge) :=
  Conv.call (b := fun d => Reparsec.continueParse ra ins
    (fun v p c r => Stk.call (fun d => k d v p c r) d) merge)
    (Reparsec.Conv.continueParse fun v p c r => Conv.call (b := fun d => k d v p c r) (hk v p c r))

theorem ConvL.bind {f : LFns τ α} {g : α → LFns τ β} (hf : ConvL f) (hg : ∀ a, ConvL (g a)) :
    ConvL (bindFns f g) := by
  refine ConvL.framed ⟨?_, ?_⟩
  · intro s pos ctx
    refine (hf.fast _ _ _).bind fun r => ?_
    cases r with
    | error e => exact .refl _
    | ok r => exact ((hg _).framed.fast _ _ _).bind fun _ => .refl _
  · intro s pos ctx ins rem
    refine (hf.fn _ _ _ _ _).bind fun r => ?_
    cases r with
    | error e => exact .refl _
    | ok r =>
      simp only; split
      · exact ((hg _).framed.fn _ _ _ _ _).bind fun _ => .refl _
      · exact ((hg _).framed.fn _ _ _ _ _).bind fun _ => .refl _
    | recovered r =>
      exact Conv.continueParse
        (k := fun d v p c r => (Stk.framed (g v) d).fn s p c ins (some r))
        fun _ _ _ _ => (hg _).framed.fn _ _ _ _ _

theorem ConvL.seq {f : LFns τ α} {g : LFns τ β} (merge : α → β → γ) (hf : ConvL f)
    (hg : ConvL g) : ConvL (seqFns f g merge) := by
  refine ConvL.framed ⟨?_, ?_⟩
  · intro s pos ctx
    refine (hf.fast _ _ _).bind fun r => ?_
    cases r with
    | error e => exact .refl _
    | ok r => exact (hg.fast _ _ _).bind fun _ => .refl _
  · intro s pos ctx ins rem
    refine (hf.fn _ _ _ _ _).bind fun r => ?_
    cases r with
    | error e => exact .refl _
    | ok r => exact (hg.fn _ _ _ _ _).bind fun _ => .refl _
    | recovered r =>
      exact Conv.continueParse (k := fun d _ p c r => (g d).fn s p c ins (some r))
        fun _ _ _ _ => hg.fn _ _ _ _ _

theorem Conv.manyFast {p : LFns τ α} (h : ConvL p) (s : List τ) (n : Nat) (pos ctx c v) :
    Conv (fun m => manyFastLoop (p (some m)).fast s n pos ctx c v)
      (manyFastLoop (p none).fast s n pos ctx c v) := by
  induction n generalizing pos ctx c v with
  | zero => exact .diverge
  | succ n ih =>
    refine (h.fast _ _ _).bind fun r => ?_
    cases r with
    | ok r =>
      simp only; split
      · exact ih _ _ _ _
      · exact .refl _
    | error e => exact .refl _

theorem Conv.manyLoop {p : LFns τ α} (h : ConvL p) (s : List τ) (ins : Int) (n : Nat)
    (pos ctx c v) : Conv (fun m => Stk.manyLoop p s ins n (some m) pos ctx c v)
      (Stk.manyLoop p s ins n none pos ctx c v) := by
  induction n generalizing pos ctx c v with
  | zero => exact .diverge
  | succ n ih =>
    refine (h.fn _ _ _ _ _).bind fun r => ?_
    cases r with
    | ok r =>
      simp only; split
      · exact ih _ _ _ _
      · exact .refl _
    | error e => exact .refl _
    | recovered r =>
      exact Conv.continueParse
        (k := fun d _ p' c _ => Stk.call (fun d => Stk.manyLoop p s ins n d p' c false []) d)
        fun _ p' c _ => Conv.call (b := fun d => Stk.manyLoop p s ins n d p' c false []) (ih _ _ _ _)

theorem ConvL.many {p : LFns τ α} (h : ConvL p) (n : Nat) : ConvL (manyFns n p) :=
  ConvL.framed ⟨fun s _ _ => Conv.manyFast h s n _ _ _ _, fun s _ _ ins _ => Conv.manyLoop h s ins n _ _ _ _⟩

variable {ρ : Type} {Γ : ρ → Type} [BEq τ]

theorem denoteWith_conv (n : Nat) {t : (i : ρ) → LFns τ (Γ i)} (ht : ∀ i, ConvL (t i))
    (p : P τ ρ Γ α) : ConvL (denoteWith n t p) := by
  induction p with
  | pure | pureFn | unexpected | eof | satisfy | sym | literal | regexp =>
    exact ConvL.framed (.refl _)
  | fmap p fn ih => exact ConvL.framed (ConvFns.fmap fn ih)
  | alt p q ihp ihq => exact ConvL.framed (ConvFns.alt ihp ihq)
  | bind p k ihp ihk => exact ConvL.bind ihp ihk
  | seqWith p q merge ihp ihq => exact ConvL.seq merge ihp ihq
  | maybe p ih => exact ConvL.framed (ConvFns.maybe ih)
  | many p ih => exact ConvL.many ih n
  | attempt p ih => exact ConvL.framed (ConvFns.attempt ih)
  | label p x ih => exact ConvL.framed (ConvFns.label x ih)
  | recover p ih => exact ConvL.framedFn ih (ConvFns.recover ih)
  | recoverWith p x vs ih => exact ConvL.framedFn ih (ConvFns.recoverWith x vs ih)
  | recoverWithFn p fn lbl ih => exact ConvL.framedFn ih (ConvFns.recoverWithFn fn lbl ih)
  | block p ih => exact ConvL.framed (ConvFns.block ih)
  | aligned p ih => exact ConvL.framed (ConvFns.aligned ih)
  | indented delta p ih => exact ConvL.framed (ConvFns.indented delta ih)
  | ref i => exact ht i

theorem table_conv (env : Env τ ρ Γ) (n : Nat) (i : ρ) : ConvL (table env n i) := by
  induction n generalizing i with
  | zero => exact ConvL.framed (.refl _)
  | succ n ih =>
    simp only [table]
    cases env i with
    | none => exact ConvL.framed (ConvL.framed (.refl _))
    | some p => exact ConvL.framed (denoteWith_conv n ih p)

theorem parse_conv (env : Env τ ρ Γ) (n : Nat) (p : P τ ρ Γ α) (s : List τ) (r : Bool) (m : Int)
    (gl : Loc → List τ → Nat → Loc) :
    Conv (fun d => parse env n (some d) p s r m gl) (Reparsec.parse env n p s r m gl) := by
  have h : ConvL (framed (denote env n p)) :=
    ConvL.framed (denoteWith_conv n (table_conv env n) p)
  rw [← parse_none]
  cases r with
  | true =>
    exact Conv.call (b := fun d => (framed (denote env n p) d).fn s 0 (initCtx gl) m (some m))
      (h.fn _ _ _ _ _)
  | false =>
    exact Conv.call
      (b := fun d => ((framed (denote env n p) d).fast s 0 (initCtx gl)).bind fun r =>
        .ret r.toResult) ((h.fast _ _ _).bind fun _ => .refl _)

/-! ### Frames for a parser of a given height -/

omit [BEq τ] in
theorem call_succ {ω : Type} (b : Frames → Out ω) (m : Nat) : call b (some (m + 1)) = b (some m) :=
  rfl

omit [BEq τ] in
theorem framed_fast (f : LFns τ α) (m : Nat) :
    (framed f (some (m + 1))).fast = (f (some m)).fast := rfl

omit [BEq τ] in
theorem framed_fn (f : LFns τ α) (m : Nat) : (framed f (some (m + 1))).fn = (f (some m)).fn := rfl

omit [BEq τ] in
theorem framedFn_fn (p f : LFns τ α) (m : Nat) :
    (framedFn p f (some (m + 1))).fn = (f (some m)).fn := rfl

omit [BEq τ] in
theorem fast_of_succ {f : LFns τ α} {g : FastFn τ α} {h : Nat}
    (hf : ∀ m, h ≤ m → (f (some m)).fast = g) {m : Nat} (hm : h + 1 ≤ m) :
    (framed f (some m)).fast = g := by
  obtain ⟨m, rfl⟩ : ∃ k, m = k + 1 := ⟨m - 1, by omega⟩
  exact hf m (by omega)

/-- Without recovery the height is enough. -/
theorem fast_enough (n : Nat) (t : (i : ρ) → LFns τ (Γ i)) (t' : (i : ρ) → ParseFns τ (Γ i))
    {p : P τ ρ Γ α} {h : Nat} (hp : Height p h) {m : Nat} (hm : h ≤ m) :
    (denoteWith n t p (some m)).fast = (Reparsec.denoteWith n t' p).fast := by
  induction hp generalizing m with
  | pure | pureFn | unexpected | eof | satisfy | sym | literal | regexp =>
    exact fast_of_succ (h := 0) (fun m _ => rfl) (by omega)
  | fmap fn _ ih =>
    refine fast_of_succ (fun m hm => ?_) hm
    funext s pos ctx
    simp only [fmapFns, fmapFast, ih hm, Reparsec.denoteWith]
  | alt _ _ ihp ihq =>
    refine fast_of_succ (fun m hm => ?_) hm
    funext s pos ctx
    simp only [altFns, altFast, ihp hm, ihq hm, Reparsec.denoteWith]
  | @bind _ _ h p k _ _ ihp ihk =>
    refine fast_of_succ (h := h + 1) (fun m hm => ?_) hm
    have hk : ∀ a, (framed (denoteWith n t (k a)) (some m)).fast =
        (Reparsec.denoteWith n t' (k a)).fast :=
      fun a => fast_of_succ (fun m hm => ihk a hm) hm
    funext s pos ctx
    simp only [bindFast, hk, ihp (m := m) (by omega), Reparsec.denoteWith, Reparsec.bindFns]
  | seqWith merge _ _ ihp ihq =>
    refine fast_of_succ (fun m hm => ?_) hm
    funext s pos ctx
    simp only [seqFast, ihp hm, ihq hm, Reparsec.denoteWith, Reparsec.seqFns]
  | maybe _ ih =>
    refine fast_of_succ (fun m hm => ?_) hm
    funext s pos ctx
    simp only [maybeFns, maybeFast, ih hm, Reparsec.denoteWith]
  | many _ ih =>
    refine fast_of_succ (fun m hm => ?_) hm
    simp only [ih hm, Reparsec.denoteWith, Reparsec.manyFns]
  | attempt _ ih =>
    refine fast_of_succ (fun m hm => ?_) hm
    funext s pos ctx
    simp only [attemptFns, attemptFast, ih hm, Reparsec.denoteWith]
  | label x _ ih =>
    refine fast_of_succ (fun m hm => ?_) hm
    funext s pos ctx
    simp only [labelFns, ih hm, Reparsec.denoteWith]
  | recover _ ih => exact ih (by omega)
  | recoverWith x vs _ ih => exact ih (by omega)
  | recoverWithFn fn lbl _ ih => exact ih (by omega)
  | block _ ih =>
    refine fast_of_succ (fun m hm => ?_) hm
    funext s pos ctx
    simp only [blockFns, ih hm, Reparsec.denoteWith]
  | aligned _ ih =>
    refine fast_of_succ (fun m hm => ?_) hm
    funext s pos ctx
    simp only [alignedFns, ih hm, Reparsec.denoteWith]
  | indented d _ ih =>
    refine fast_of_succ (fun m hm => ?_) hm
    funext s pos ctx
    simp only [indentedFns, ih hm, Reparsec.denoteWith]

/-- The frames that are enough with recovery, for a parser of height `h` with `l` tokens to go. -/
def need (h l : Nat) : Nat := 3 * h * (l + 1)

omit [BEq τ] in
theorem need_succ (h l : Nat) : need (h + 1) l = need h l + 3 * l + 3 := by
  simp only [need, Nat.mul_add, Nat.add_mul]; omega

omit [BEq τ] in
theorem need_mono (h : Nat) {l l' : Nat} (hl : l ≤ l') : need h l ≤ need h l' :=
  Nat.mul_le_mul_left _ (by omega)

omit [BEq τ] in
theorem le_need (h l : Nat) : h ≤ need h l := by
  have : 3 * h * 1 ≤ need h l := Nat.mul_le_mul_left _ (by omega)
  omega

omit [BEq τ] in
theorem contReps_congr {ins : Int} {c c' : α → Nat → Ctx τ → Int → Out (Result τ β)}
    {merge : α → β → γ} (l : List (Repair τ α))
    (h : ∀ r ∈ l, c r.value r.pos r.ctx r.ins = c' r.value r.pos r.ctx r.ins) :
    contReps ins c merge l = contReps ins c' merge l := by
  induction l with
  | nil => rfl
  | cons r rs ih =>
    simp only [contReps]
    rw [h r (by simp), ih fun r hr => h r (by simp [hr])]

omit [BEq τ] in
theorem continueParse_enough {ra : Recovered τ α} {ins : Int}
    {c : Frames → α → Nat → Ctx τ → Int → Out (Result τ β)}
    {c' : α → Nat → Ctx τ → Int → Out (Result τ β)} {merge : α → β → γ} {m : Nat}
    (h : ∀ r ∈ ra.repairs, c (some m) r.value r.pos r.ctx r.ins = c' r.value r.pos r.ctx r.ins) :
    continueParse (some (m + 2)) ra ins c merge = Reparsec.continueParse ra ins c' merge := by
  simp only [continueParse, Reparsec.continueParse, call]
  rw [contReps_congr _ h]

omit [BEq τ] in
theorem manyLoop_enough {f : LFns τ α} {g : ParseFns τ α} (hg : Framed g) (s : List τ) (ins : Int)
    {k : Nat → Nat} (hk : ∀ l l', l ≤ l' → k l ≤ k l') (hk2 : ∀ l, 2 ≤ k l)
    (hf : ∀ pos ctx rem m, pos ≤ s.length → k (s.length - pos) ≤ m →
      (f (some m)).fn s pos ctx ins rem = g.fn s pos ctx ins rem)
    (n pos : Nat) (ctx : Ctx τ) (c : Bool) (v : List α) (m : Nat) (hp : pos ≤ s.length)
    (hm : k (s.length - pos) + 3 * (s.length - pos) ≤ m) :
    manyLoop f s ins n (some m) pos ctx c v = Reparsec.manyLoop g.fn s ins n pos ctx c v := by
  induction n generalizing pos ctx c v m with
  | zero => rfl
  | succ n ih =>
    simp only [manyLoop, Reparsec.manyLoop, Out.bind_def]
    rw [hf pos ctx none m hp (by omega)]
    cases hr : g.fn s pos ctx ins none with
    | diverge => rfl
    | raise e => rfl
    | ret r =>
      have hfr := hg s pos ctx ins none r hp hr
      cases r with
      | error e => rfl
      | ok r =>
        have hfr : OkFrame s pos ctx r := hfr
        have := hk (s.length - r.pos) (s.length - pos) (by have := hfr.lo; omega)
        simp only [Out.bind]
        split
        · exact ih _ _ _ _ _ hfr.hi (by have := hfr.lo; omega)
        · rfl
      | recovered r =>
        have hfr : RecFrame s pos ctx none r := hfr
        simp only [Out.bind]
        obtain ⟨m, rfl⟩ : ∃ x, m = x + 2 := ⟨m - 2, by have := hk2 (s.length - pos); omega⟩
        refine continueParse_enough fun x hx => ?_
        have hx := hfr.reps x hx
        have h1 := hx.lt rfl
        have h2 := hx.hi
        have h3 := hk (s.length - x.pos) (s.length - pos) (by omega)
        have h4 := hk2 (s.length - pos)
        obtain ⟨m, rfl⟩ : ∃ x, m = x + 1 := ⟨m - 1, by omega⟩
        exact ih _ _ _ _ _ h2 (by omega)

/-- The two parsers do the same at this position. -/
def AgreeAt (f g : ParseFns τ α) (s : List τ) (pos : Nat) (ins : Int) : Prop :=
  (∀ ctx, f.fast s pos ctx = g.fast s pos ctx) ∧
    ∀ ctx rem, f.fn s pos ctx ins rem = g.fn s pos ctx ins rem

omit [BEq τ] in
theorem AgreeAt.fmap {f g : ParseFns τ α} {s : List τ} {pos : Nat} {ins : Int}
    (fn : α → Except Exn β) (h : AgreeAt f g s pos ins) :
    AgreeAt (fmapFns f fn) (fmapFns g fn) s pos ins := by
  constructor
  · intro ctx; simp only [fmapFns, fmapFast, h.1]
  · intro ctx rem; simp only [fmapFns, fmapFn, h.2]

omit [BEq τ] in
theorem AgreeAt.alt {f g f' g' : ParseFns τ α} {s : List τ} {pos : Nat} {ins : Int}
    (h : AgreeAt f g s pos ins) (h' : AgreeAt f' g' s pos ins) :
    AgreeAt (altFns f f') (altFns g g') s pos ins := by
  constructor
  · intro ctx; simp only [altFns, altFast, h.1, h'.1]
  · intro ctx rem; simp only [altFns, altFn, altSecond, altRecover, h.2, h'.2]

omit [BEq τ] in
theorem AgreeAt.maybe {f g : ParseFns τ α} {s : List τ} {pos : Nat} {ins : Int}
    (h : AgreeAt f g s pos ins) : AgreeAt (maybeFns f) (maybeFns g) s pos ins := by
  constructor
  · intro ctx; simp only [maybeFns, maybeFast, h.1]
  · intro ctx rem; simp only [maybeFns, maybeFn, h.2]

omit [BEq τ] in
theorem AgreeAt.attempt {f g : ParseFns τ α} {s : List τ} {pos : Nat} {ins : Int}
    (h : AgreeAt f g s pos ins) : AgreeAt (attemptFns f) (attemptFns g) s pos ins := by
  constructor
  · intro ctx; simp only [attemptFns, attemptFast, h.1]
  · intro ctx rem; simp only [attemptFns, attemptFn, h.1, h.2]

omit [BEq τ] in
theorem AgreeAt.label {f g : ParseFns τ α} {s : List τ} {pos : Nat} {ins : Int} (x : String)
    (h : AgreeAt f g s pos ins) : AgreeAt (labelFns f x) (labelFns g x) s pos ins := by
  constructor
  · intro ctx; simp only [labelFns, h.1]
  · intro ctx rem; simp only [labelFns, h.2]

omit [BEq τ] in
theorem AgreeAt.recover {f g : ParseFns τ α} {s : List τ} {pos : Nat} {ins : Int}
    (h : AgreeAt f g s pos ins) : AgreeAt (recoverFns f) (recoverFns g) s pos ins := by
  constructor
  · intro ctx; simp only [recoverFns, h.1]
  · intro ctx rem; simp only [recoverFns, recoverFn, h.2]

omit [BEq τ] in
theorem AgreeAt.recoverWith {f g : ParseFns τ α} {s : List τ} {pos : Nat} {ins : Int} (x : α)
    (vs : String) (h : AgreeAt f g s pos ins) :
    AgreeAt (recoverWithFns f x vs) (recoverWithFns g x vs) s pos ins := by
  constructor
  · intro ctx; simp only [recoverWithFns, h.1]
  · intro ctx rem; simp only [recoverWithFns, Reparsec.recoverWithFn, h.2]

omit [BEq τ] in
theorem AgreeAt.recoverWithFn {f g : ParseFns τ α} {s : List τ} {pos : Nat} {ins : Int}
    (fn : List τ → Nat → Except Exn α) (lbl : α → String) (h : AgreeAt f g s pos ins) :
    AgreeAt (recoverWithFnFns f fn lbl) (recoverWithFnFns g fn lbl) s pos ins := by
  constructor
  · intro ctx; simp only [recoverWithFnFns, h.1]
  · intro ctx rem; simp only [recoverWithFnFns, recoverWithFnFn, h.2]

omit [BEq τ] in
theorem AgreeAt.block {f g : ParseFns τ α} {s : List τ} {pos : Nat} {ins : Int}
    (h : AgreeAt f g s pos ins) : AgreeAt (blockFns f) (blockFns g) s pos ins := by
  constructor
  · intro ctx; simp only [blockFns, h.1]
  · intro ctx rem; simp only [blockFns, h.2]

omit [BEq τ] in
theorem AgreeAt.aligned {f g : ParseFns τ α} {s : List τ} {pos : Nat} {ins : Int}
    (h : AgreeAt f g s pos ins) : AgreeAt (alignedFns f) (alignedFns g) s pos ins := by
  constructor
  · intro ctx; simp only [alignedFns, h.1]
  · intro ctx rem; simp only [alignedFns, h.2]

omit [BEq τ] in
theorem AgreeAt.indented {f g : ParseFns τ α} {s : List τ} {pos : Nat} {ins : Int} (d : Int)
    (h : AgreeAt f g s pos ins) : AgreeAt (indentedFns d f) (indentedFns d g) s pos ins := by
  constructor
  · intro ctx; simp only [indentedFns, h.1]
  · intro ctx rem; simp only [indentedFns, h.2]

/-- With recovery: `need` frames are enough. -/
theorem fn_enough (env : Env τ ρ Γ) (n : Nat) {p : P τ ρ Γ α} {h : Nat} (hp : Height p h)
    {s : List τ} {pos : Nat} (ins : Int) {m : Nat} (hpos : pos ≤ s.length)
    (hm : need h (s.length - pos) ≤ m) :
    AgreeAt (denote env n p (some m)) (Reparsec.denote env n p) s pos ins := by
  induction hp generalizing pos m with
  | pure | pureFn | unexpected | eof | satisfy | sym | literal | regexp =>
    rw [need_succ] at hm
    obtain ⟨m, rfl⟩ : ∃ k, m = k + 1 := ⟨m - 1, by omega⟩
    exact ⟨fun _ => rfl, fun _ _ => rfl⟩
  | fmap fn _ ih =>
    rw [need_succ] at hm
    obtain ⟨m, rfl⟩ : ∃ k, m = k + 1 := ⟨m - 1, by omega⟩
    exact (ih hpos (m := m) (by omega)).fmap fn
  | alt _ _ ihp ihq =>
    rw [need_succ] at hm
    obtain ⟨m, rfl⟩ : ∃ k, m = k + 1 := ⟨m - 1, by omega⟩
    exact (ihp hpos (m := m) (by omega)).alt (ihq hpos (m := m) (by omega))
  | @bind _ _ h p k h1 h2 ihp ihk =>
    rw [need_succ, need_succ] at hm
    refine ⟨fun ctx => ?_, fun ctx rem => ?_⟩
    · have := le_need h (s.length - pos)
      exact congrFun (congrFun (congrFun (fast_enough (m := m) n (table env n) (Reparsec.table env n)
        (.bind h1 h2) (by omega)) s) pos) ctx
    obtain ⟨m, rfl⟩ : ∃ k, m = k + 4 := ⟨m - 4, by omega⟩
    show bindFn _ _ _ _ _ _ _ _ = Reparsec.bindFn _ _ _ _ _ _ _
    simp only [bindFn, Reparsec.bindFn, Out.bind_def]
    have e1 : (denoteWith n (table env n) p (some (m + 3))).fn s pos ctx ins rem = _ :=
      (ihp hpos (m := m + 3) (by omega)).2 ctx rem
    rw [e1]
    show ((Reparsec.denote env n p).fn s pos ctx ins rem).bind _ =
      ((Reparsec.denote env n p).fn s pos ctx ins rem).bind _
    cases hr : (Reparsec.denote env n p).fn s pos ctx ins rem with
    | diverge => rfl
    | raise e => rfl
    | ret r =>
      have hfr := frame_denote env n p s pos ctx ins rem r hpos hr
      cases r with
      | error e => rfl
      | ok r =>
        have hfr : OkFrame s pos ctx r := hfr
        have := need_mono h (l := s.length - r.pos) (l' := s.length - pos) (by have := hfr.lo; omega)
        have e2 : ∀ rem, (framed (denoteWith n (table env n) (k r.value)) (some (m + 3))).fn s r.pos
            r.ctx ins rem = _ :=
          fun rem => (ihk r.value hfr.hi (m := m + 2) (by omega)).2 r.ctx rem
        simp only [Out.bind, e2]
        rfl
      | recovered r =>
        have hfr : RecFrame s pos ctx rem r := hfr
        refine continueParse_enough fun x hx => ?_
        have hx := hfr.reps x hx
        have := need_mono h (l := s.length - x.pos) (l' := s.length - pos) (by have := hx.lo; omega)
        exact (ihk x.value hx.hi (m := m) (by omega)).2 x.ctx _
  | @seqWith _ _ _ h p q merge h1 h2 ihp ihq =>
    rw [need_succ] at hm
    refine ⟨fun ctx => ?_, fun ctx rem => ?_⟩
    · have := le_need h (s.length - pos)
      exact congrFun (congrFun (congrFun (fast_enough (m := m) n (table env n) (Reparsec.table env n)
        (.seqWith merge h1 h2) (by omega)) s) pos) ctx
    obtain ⟨m, rfl⟩ : ∃ k, m = k + 3 := ⟨m - 3, by omega⟩
    show seqFn _ _ _ _ _ _ _ _ _ = Reparsec.seqFn _ _ _ _ _ _ _ _
    simp only [seqFn, Reparsec.seqFn, Out.bind_def]
    have e1 : (denoteWith n (table env n) p (some (m + 2))).fn s pos ctx ins rem = _ :=
      (ihp hpos (m := m + 2) (by omega)).2 ctx rem
    rw [e1]
    show ((Reparsec.denote env n p).fn s pos ctx ins rem).bind _ =
      ((Reparsec.denote env n p).fn s pos ctx ins rem).bind _
    cases hr : (Reparsec.denote env n p).fn s pos ctx ins rem with
    | diverge => rfl
    | raise e => rfl
    | ret r =>
      have hfr := frame_denote env n p s pos ctx ins rem r hpos hr
      cases r with
      | error e => rfl
      | ok r =>
        have hfr : OkFrame s pos ctx r := hfr
        have := need_mono h (l := s.length - r.pos) (l' := s.length - pos) (by have := hfr.lo; omega)
        have e2 : ∀ rem, (denoteWith n (table env n) q (some (m + 2))).fn s r.pos
            r.ctx ins rem = _ :=
          fun rem => (ihq hfr.hi (m := m + 2) (by omega)).2 r.ctx rem
        simp only [Out.bind, e2]
        rfl
      | recovered r =>
        have hfr : RecFrame s pos ctx rem r := hfr
        refine continueParse_enough fun x hx => ?_
        have hx := hfr.reps x hx
        have := need_mono h (l := s.length - x.pos) (l' := s.length - pos) (by have := hx.lo; omega)
        exact (ihq hx.hi (m := m) (by omega)).2 x.ctx _
  | maybe _ ih =>
    rw [need_succ] at hm
    obtain ⟨m, rfl⟩ : ∃ k, m = k + 1 := ⟨m - 1, by omega⟩
    exact (ih hpos (m := m) (by omega)).maybe
  | @many _ h p h1 ih =>
    rw [need_succ] at hm
    refine ⟨fun ctx => ?_, fun ctx rem => ?_⟩
    · have := le_need h (s.length - pos)
      exact congrFun (congrFun (congrFun (fast_enough (m := m) n (table env n) (Reparsec.table env n)
        (.many h1) (by omega)) s) pos) ctx
    obtain ⟨m, rfl⟩ : ∃ k, m = k + 1 := ⟨m - 1, by omega⟩
    have hh : 1 ≤ h := by cases h1 <;> omega
    exact manyLoop_enough (frame_denote env n p) s ins (k := need h) (fun _ _ => need_mono h)
      (fun l => by obtain ⟨h, rfl⟩ : ∃ k, h = k + 1 := ⟨h - 1, by omega⟩
                   rw [need_succ]; omega)
      (fun pos ctx rem m hp hm => (ih hp hm).2 ctx rem) n pos ctx false [] m hpos (by omega)
  | attempt _ ih =>
    rw [need_succ] at hm
    obtain ⟨m, rfl⟩ : ∃ k, m = k + 1 := ⟨m - 1, by omega⟩
    exact (ih hpos (m := m) (by omega)).attempt
  | label x _ ih =>
    rw [need_succ] at hm
    obtain ⟨m, rfl⟩ : ∃ k, m = k + 1 := ⟨m - 1, by omega⟩
    exact (ih hpos (m := m) (by omega)).label x
  | @recover _ h p h1 ih =>
    rw [need_succ] at hm
    obtain ⟨m, rfl⟩ : ∃ k, m = k + 1 := ⟨m - 1, by omega⟩
    refine ⟨fun ctx => ?_, fun ctx rem => ?_⟩
    · have := le_need h (s.length - pos)
      exact (ih hpos (m := m + 1) (by omega)).1 ctx
    · exact ((ih hpos (m := m) (by omega)).recover ).2 ctx rem
  | @recoverWith _ h p x vs h1 ih =>
    rw [need_succ] at hm
    obtain ⟨m, rfl⟩ : ∃ k, m = k + 1 := ⟨m - 1, by omega⟩
    refine ⟨fun ctx => ?_, fun ctx rem => ?_⟩
    · have := le_need h (s.length - pos)
      exact (ih hpos (m := m + 1) (by omega)).1 ctx
    · exact ((ih hpos (m := m) (by omega)).recoverWith x vs ).2 ctx rem
  | @recoverWithFn _ h p fn lbl h1 ih =>
    rw [need_succ] at hm
    obtain ⟨m, rfl⟩ : ∃ k, m = k + 1 := ⟨m - 1, by omega⟩
    refine ⟨fun ctx => ?_, fun ctx rem => ?_⟩
    · have := le_need h (s.length - pos)
      exact (ih hpos (m := m + 1) (by omega)).1 ctx
    · exact ((ih hpos (m := m) (by omega)).recoverWithFn fn lbl ).2 ctx rem
  | block _ ih =>
    rw [need_succ] at hm
    obtain ⟨m, rfl⟩ : ∃ k, m = k + 1 := ⟨m - 1, by omega⟩
    exact (ih hpos (m := m) (by omega)).block
  | aligned _ ih =>
    rw [need_succ] at hm
    obtain ⟨m, rfl⟩ : ∃ k, m = k + 1 := ⟨m - 1, by omega⟩
    exact (ih hpos (m := m) (by omega)).aligned
  | indented d _ ih =>
    rw [need_succ] at hm
    obtain ⟨m, rfl⟩ : ∃ k, m = k + 1 := ⟨m - 1, by omega⟩
    exact (ih hpos (m := m) (by omega)).indented d

end Reparsec.Stk
