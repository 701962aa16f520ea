import Verif.Spec.Threads
import Verif.Spec.Objects

/-!
# What a thread does to its own objects

`wp p g Q`: run from the objects `g` that belong to the thread, `p` accesses no other objects (apart from
those it creates), and however new addresses are chosen, `Q` holds at the end.

`Sim`: such a run does the same as a run of the model with one heap (`Model/Heap.lean`), up to the
addresses of objects.
-/

namespace Reparsec.Thr

open Heaped (OpCell RepCell OkCell FailCell HOp HRepair HOk HErr HRecovered HSimple HResult Heap HM upd)

variable {τ α β γ : Type}

/-- What a run does, for all choices of new addresses. -/
def wp : Prog τ α → Store τ → (Store τ → Out α → Prop) → Prop
  | .ret a, g, Q => Q g (.ret a)
  | .raise e, g, Q => Q g (.raise e)
  | .diverge, g, Q => Q g .diverge
  | .new c x k, g, Q => ∀ a, g c a = none → wp (k a) (g.put c a x) Q
  | .get c a k, g, Q => ∃ x, g c a = some x ∧ wp (k x) g Q
  | .set c a f k, g, Q => ∃ x, g c a = some x ∧ wp k (g.put c a (f x)) Q

theorem wp_mono {p : Prog τ α} {g : Store τ} {Q Q' : Store τ → Out α → Prop}
    (h : wp p g Q) (hQ : ∀ g o, Q g o → Q' g o) : wp p g Q' := by
  induction p generalizing g with
  | ret a => exact hQ _ _ h
  | raise e => exact hQ _ _ h
  | diverge => exact hQ _ _ h
  | new c x k ih => exact fun a ha => ih a (h a ha)
  | get c a k ih => obtain ⟨x, hx, hk⟩ := h; exact ⟨x, hx, ih x hk⟩
  | set c a f k ih => obtain ⟨x, hx, hk⟩ := h; exact ⟨x, hx, ih hk⟩

theorem wp_bind {p : Prog τ α} {f : α → Prog τ β} {g : Store τ} {Q : Store τ → Out β → Prop}
    (h : wp p g fun g' o => match o with
      | .ret a => wp (f a) g' Q
      | .raise e => Q g' (.raise e)
      | .diverge => Q g' .diverge) : wp (p >>= f) g Q := by
  induction p generalizing g with
  | ret a => exact h
  | raise e => exact h
  | diverge => exact h
  | new c x k ih => exact fun a ha => ih a (h a ha)
  | get c a k ih => obtain ⟨x, hx, hk⟩ := h; exact ⟨x, hx, ih x hk⟩
  | set c a f k ih => obtain ⟨x, hx, hk⟩ := h; exact ⟨x, hx, ih hk⟩

theorem put_same (g : Store τ) (c : Cls) (a : Nat) (x : Cell τ c) : g.put c a x c a = some x := by
  simp [Store.put]

theorem put_ne (g : Store τ) (c : Cls) (a : Nat) (x : Cell τ c) {b : Nat} (h : b ≠ a) :
    g.put c a x c b = g c b := by
  simp [Store.put, h]

theorem put_cls (g : Store τ) (c : Cls) (a : Nat) (x : Cell τ c) {c' : Cls} (h : c ≠ c') (b : Nat) :
    g.put c a x c' b = g c' b := by
  simp [Store.put, h]

/-! ### Addresses -/

/-- Where the objects of the other model are. -/
abbrev AddrMap := Cls → Nat → Option Nat

/-- More objects. -/
def AddrMap.le (m m' : AddrMap) : Prop := ∀ c n a, m c n = some a → m' c n = some a

theorem AddrMap.le.rfl {m : AddrMap} : m.le m := fun _ _ _ h => h

theorem AddrMap.le.trans {m m' m'' : AddrMap} (h : m.le m') (h' : m'.le m'') : m.le m'' :=
  fun _ _ _ e => h' _ _ _ (h _ _ _ e)

/-- The cells of a heap. -/
def cell (h : Heap τ) : (c : Cls) → Nat → Cell τ c
  | .op => h.ops
  | .rep => h.reps
  | .ok => h.oks
  | .fail => h.fails

/-- How many there are. -/
def size (h : Heap τ) : Cls → Nat
  | .op => h.nOps
  | .rep => h.nReps
  | .ok => h.nOks
  | .fail => h.nFails

/-- The objects of `h` are in `g`, at the addresses given by `m`. -/
structure Match (m : AddrMap) (h : Heap τ) (g : Store τ) : Prop where
  cells : ∀ {c n a}, m c n = some a → g c a = some (cell h c n)
  inj : ∀ {c n n' a}, m c n = some a → m c n' = some a → n = n'
  fresh : ∀ {c n}, size h c ≤ n → m c n = none

/-- One more object. -/
def AddrMap.add (m : AddrMap) (c : Cls) (n a : Nat) : AddrMap := fun c' n' =>
  if c' = c ∧ n' = n then some a else m c' n'

theorem le_add {m : AddrMap} {c : Cls} {n a : Nat} (h : m c n = none) : m.le (m.add c n a) := by
  intro c' n' a' e
  unfold AddrMap.add
  split
  · next hc => obtain ⟨rfl, rfl⟩ := hc; rw [h] at e; cases e
  · exact e

theorem add_same (m : AddrMap) (c : Cls) (n a : Nat) : m.add c n a c n = some a := by
  simp [AddrMap.add]

/-- Both sides change one cell. -/
theorem Match.update {m : AddrMap} {h h' : Heap τ} {g : Store τ} (hM : Match m h g) {c : Cls}
    {n a : Nat} (hn : m c n = some a) (x : Cell τ c)
    (hc : ∀ b, cell h' c b = if b = n then x else cell h c b)
    (hc' : ∀ c', c ≠ c' → cell h' c' = cell h c') (hs : size h' = size h) :
    Match m h' (g.put c a x) := by
  refine ⟨?_, hM.inj, fun {c n} hn => hM.fresh (by rw [← hs]; exact hn)⟩
  intro c' n' a' e
  by_cases hcc : c = c'
  · subst hcc
    rw [hc]
    by_cases hnn : n' = n
    · subst hnn
      rw [hn] at e; cases e
      rw [put_same, if_pos rfl]
    · have : a' ≠ a := fun ha => hnn (hM.inj e (ha ▸ hn))
      rw [put_ne _ _ _ _ this, if_neg hnn]
      exact hM.cells e
  · rw [put_cls _ _ _ _ hcc, hc' _ hcc]
    exact hM.cells e

/-- Both sides add one cell. -/
theorem Match.alloc {m : AddrMap} {h h' : Heap τ} {g : Store τ} (hM : Match m h g) {c : Cls}
    {a : Nat} (ha : g c a = none) (x : Cell τ c)
    (hc : ∀ b, cell h' c b = if b = size h c then x else cell h c b)
    (hc' : ∀ c', c ≠ c' → cell h' c' = cell h c') (hs : size h' c = size h c + 1)
    (hs' : ∀ c', c ≠ c' → size h' c' = size h c') :
    Match (m.add c (size h c) a) h' (g.put c a x) := by
  have hfresh : m c (size h c) = none := hM.fresh (Nat.le_refl _)
  have hne : ∀ n, m c n ≠ some a := fun n e => by rw [hM.cells e] at ha; cases ha
  refine ⟨?_, ?_, ?_⟩
  · intro c' n' a' e
    unfold AddrMap.add at e
    split at e
    · next hcc =>
      obtain ⟨rfl, rfl⟩ := hcc
      cases e
      rw [put_same, hc, if_pos rfl]
    · next hcc =>
      by_cases hcc' : c = c'
      · subst hcc'
        have hn' : n' ≠ size h c := fun hn' => hcc ⟨rfl, hn'⟩
        have ha' : a' ≠ a := fun ha' => hne n' (ha' ▸ e)
        rw [put_ne _ _ _ _ ha', hc, if_neg hn']
        exact hM.cells e
      · rw [put_cls _ _ _ _ hcc', hc' _ hcc']
        exact hM.cells e
  · intro c' n n' a' e e'
    unfold AddrMap.add at e e'
    split at e
    · next hcc =>
      obtain ⟨rfl, rfl⟩ := hcc
      cases e
      split at e'
      · next h2 => exact h2.2.symm
      · exact absurd e' (hne _)
    · split at e'
      · next h2 =>
        obtain ⟨rfl, rfl⟩ := h2
        cases e'
        exact absurd e (hne _)
      · exact hM.inj e e'
  · intro c' n hn
    unfold AddrMap.add
    split
    · next hcc =>
      obtain ⟨rfl, rfl⟩ := hcc
      rw [hs] at hn
      omega
    · next hcc =>
      apply hM.fresh
      by_cases hcc' : c = c'
      · subst hcc'; rw [hs] at hn; omega
      · rw [← hs' _ hcc']; exact hn

/-! ### Handles -/

/-- The same `OpItem`. -/
inductive ROp (m : AddrMap) : HOp → HOp → Prop where
  | mk {n a op loc} : m .op n = some a → ROp m ⟨a, op, loc⟩ ⟨n, op, loc⟩

/-- The same list. -/
inductive RList (R : α → α → Prop) : List α → List α → Prop where
  | nil : RList R [] []
  | cons {x y xs ys} : R x y → RList R xs ys → RList R (x :: xs) (y :: ys)

/-- The same `Repair`. -/
inductive RRep (m : AddrMap) : HRepair α → HRepair α → Prop where
  | mk {n a cost ins ops ops' v pos} : m .rep n = some a → RList (ROp m) ops ops' →
      RRep m ⟨a, cost, ins, ops, v, pos⟩ ⟨n, cost, ins, ops', v, pos⟩

/-- The same `Ok`. -/
inductive ROk (m : AddrMap) : HOk α → HOk α → Prop where
  | mk {n a v pos} : m .ok n = some a → ROk m ⟨a, v, pos⟩ ⟨n, v, pos⟩

/-- The same `Error`. -/
inductive RErr (m : AddrMap) : HErr → HErr → Prop where
  | mk {n a loc} : m .fail n = some a → RErr m ⟨a, loc⟩ ⟨n, loc⟩

/-- The same `Recovered`. -/
inductive RRec (m : AddrMap) : HRecovered α → HRecovered α → Prop where
  | mk {n a reps reps' mp loc} : m .fail n = some a → RList (RRep m) reps reps' →
      RRec m ⟨a, reps, mp, loc⟩ ⟨n, reps', mp, loc⟩

/-- The same `SimpleResult`. -/
inductive RSimple (m : AddrMap) : HSimple α → HSimple α → Prop where
  | ok {x y} : ROk m x y → RSimple m (.ok x) (.ok y)
  | error {x y} : RErr m x y → RSimple m (.error x) (.error y)

/-- The same `Result`. -/
inductive RResult (m : AddrMap) : HResult α → HResult α → Prop where
  | ok {x y} : ROk m x y → RResult m (.ok x) (.ok y)
  | error {x y} : RErr m x y → RResult m (.error x) (.error y)
  | recovered {x y} : RRec m x y → RResult m (.recovered x) (.recovered y)

/-- The same value. -/
def RVal (_ : AddrMap) (x y : α) : Prop := x = y

theorem RList.mono {R R' : α → α → Prop} (hR : ∀ x y, R x y → R' x y) {xs ys : List α}
    (h : RList R xs ys) : RList R' xs ys := by
  induction h with
  | nil => exact .nil
  | cons h _ ih => exact .cons (hR _ _ h) ih

theorem RList.append {R : α → α → Prop} {xs ys xs' ys' : List α}
    (h : RList R xs ys) (h' : RList R xs' ys') : RList R (xs ++ xs') (ys ++ ys') := by
  induction h with
  | nil => exact h'
  | cons h _ ih => exact .cons h ih

theorem ROp.mono {m m' : AddrMap} (hm : m.le m') {x y : HOp} (h : ROp m x y) : ROp m' x y := by
  cases h with | mk h => exact .mk (hm _ _ _ h)

theorem ROps.mono {m m' : AddrMap} (hm : m.le m') {x y : List HOp} (h : RList (ROp m) x y) :
    RList (ROp m') x y := RList.mono (fun _ _ => ROp.mono hm) h

theorem RRep.mono {m m' : AddrMap} (hm : m.le m') {x y : HRepair α} (h : RRep m x y) :
    RRep m' x y := by
  cases h with | mk h ho => exact .mk (hm _ _ _ h) (ho.mono fun _ _ => ROp.mono hm)

theorem RReps.mono {m m' : AddrMap} (hm : m.le m') {x y : List (HRepair α)}
    (h : RList (RRep m) x y) : RList (RRep m') x y := RList.mono (fun _ _ => RRep.mono hm) h

theorem ROk.mono {m m' : AddrMap} (hm : m.le m') {x y : HOk α} (h : ROk m x y) : ROk m' x y := by
  cases h with | mk h => exact .mk (hm _ _ _ h)

theorem RErr.mono {m m' : AddrMap} (hm : m.le m') {x y : HErr} (h : RErr m x y) :
    RErr m' x y := by
  cases h with | mk h => exact .mk (hm _ _ _ h)

theorem RRec.mono {m m' : AddrMap} (hm : m.le m') {x y : HRecovered α} (h : RRec m x y) :
    RRec m' x y := by
  cases h with | mk h ho => exact .mk (hm _ _ _ h) (ho.mono fun _ _ => RRep.mono hm)

theorem RResult.mono {m m' : AddrMap} (hm : m.le m') {x y : HResult α} (h : RResult m x y) :
    RResult m' x y := by
  cases h with
  | ok h => exact .ok (h.mono hm)
  | error h => exact .error (h.mono hm)
  | recovered h => exact .recovered (h.mono hm)

/-! ### Simulation -/

/-- The same outcome. -/
def ROut (R : α → α → Prop) : Out α → Out α → Prop
  | .ret x, .ret y => R x y
  | .raise e, .raise e' => e = e'
  | .diverge, .diverge => True
  | _, _ => False

/-- From the objects `g`, at addresses `m`, the code does what is described by an outcome and a heap. -/
def Sim (R : AddrMap → α → α → Prop) (m : AddrMap) (g : Store τ) (p : Prog τ α)
    (oh : Out α × Heap τ) : Prop :=
  wp p g fun g' o => ∃ m', m.le m' ∧ Match m' oh.2 g' ∧ ROut (R m') o oh.1

theorem Sim.ret {R : AddrMap → α → α → Prop} {m : AddrMap} {h : Heap τ} {g : Store τ} {x y : α}
    (hM : Match m h g) (hR : R m x y) : Sim R m g (Pure.pure x) (.ret y, h) :=
  ⟨m, .rfl, hM, hR⟩

/-- As `Sim.bind`, when it matters what the first part does to the heap. -/
theorem Sim.bind' {R : AddrMap → α → α → Prop} {S : AddrMap → β → β → Prop} {m : AddrMap}
    {g : Store τ} {h : Heap τ} {p : Prog τ α} {x : HM τ α} {f : α → Prog τ β} {k : α → HM τ β}
    (hp : Sim R m g p (x h))
    (hf : ∀ m' g' h' a b, m.le m' → Match m' h' g' → R m' a b → x h = (.ret b, h') →
      Sim S m' g' (f a) (k b h')) :
    Sim S m g (p >>= f) ((x >>= k) h) := by
  refine wp_bind (wp_mono hp ?_)
  rintro g' o ⟨m', hm, hM, ho⟩
  have e : (x >>= k) h = match x h with
    | (.ret a, h') => k a h'
    | (.raise e, h') => (.raise e, h')
    | (.diverge, h') => (.diverge, h') := rfl
  rw [e]
  rcases hx : x h with ⟨xo, h'⟩
  rw [hx] at hM ho
  cases o <;> cases xo <;> try (exact ho.elim)
  · exact ⟨m', hm, hM, trivial⟩
  · exact ⟨m', hm, hM, ho⟩
  · refine wp_mono (hf m' g' h' _ _ hm hM ho hx) ?_
    rintro g2 o2 ⟨m2, hm2, h2⟩
    exact ⟨m2, hm.trans hm2, h2⟩

/-- The first part of a computation. -/
theorem Sim.bind {R : AddrMap → α → α → Prop} {S : AddrMap → β → β → Prop} {m : AddrMap}
    {g : Store τ} {h : Heap τ} {p : Prog τ α} {x : HM τ α} {f : α → Prog τ β} {k : α → HM τ β}
    (hp : Sim R m g p (x h))
    (hf : ∀ m' g' h' a b, m.le m' → Match m' h' g' → R m' a b → Sim S m' g' (f a) (k b h')) :
    Sim S m g (p >>= f) ((x >>= k) h) :=
  hp.bind' fun m' g' h' a b hm hM hab _ => hf m' g' h' a b hm hM hab

theorem Sim.hget {R : AddrMap → α → α → Prop} {m : AddrMap} {h : Heap τ} {g : Store τ}
    {p : Prog τ α} {k : Heap τ → HM τ α} (hk : Sim R m g p (k h h)) :
    Sim R m g p ((HM.get >>= k) h) := hk

theorem Sim.hmodify {R : AddrMap → α → α → Prop} {m : AddrMap} {h : Heap τ} {g : Store τ}
    {p : Prog τ α} {F : Heap τ → Heap τ} {k : Unit → HM τ α} (hk : Sim R m g p (k () (F h))) :
    Sim R m g p ((HM.modify F >>= k) h) := hk

theorem Sim.ofExcept {m : AddrMap} {h : Heap τ} {g : Store τ}
    (hM : Match m h g) (x : Except Exn α) :
    Sim RVal m g (Prog.ofExcept x) (HM.ofExcept x h) := by
  cases x with
  | ok x => exact ⟨m, .rfl, hM, rfl⟩
  | error e => exact ⟨m, .rfl, hM, rfl⟩

theorem Sim.raise {R : AddrMap → α → α → Prop} {m : AddrMap} {h : Heap τ} {g : Store τ}
    (hM : Match m h g) (e : Exn) : Sim R m g (.raise e) (HM.raise e h) := ⟨m, .rfl, hM, rfl⟩

theorem Sim.diverge {R : AddrMap → α → α → Prop} {m : AddrMap} {h : Heap τ} {g : Store τ}
    (hM : Match m h g) : Sim R m g .diverge (HM.diverge h) := ⟨m, .rfl, hM, trivial⟩

/-! ### Reading -/

section

variable {R : AddrMap → α → α → Prop} {m : AddrMap} {h : Heap τ} {g : Store τ} {n a : Nat}
  {oh : Out α × Heap τ}

theorem Sim.opExpected {f} (hM : Match m h g) (hn : m .op n = some a)
    (hf : Sim R m g (f (h.ops n).expected) oh) : Sim R m g (opExpected a >>= f) oh :=
  ⟨_, hM.cells hn, hf⟩
theorem Sim.opConsumed {f} (hM : Match m h g) (hn : m .op n = some a)
    (hf : Sim R m g (f (h.ops n).consumed) oh) : Sim R m g (opConsumed a >>= f) oh :=
  ⟨_, hM.cells hn, hf⟩
theorem Sim.repPrio {f} (hM : Match m h g) (hn : m .rep n = some a)
    (hf : Sim R m g (f (h.reps n).prio) oh) : Sim R m g (repPrio a >>= f) oh :=
  ⟨_, hM.cells hn, hf⟩
theorem Sim.repCtx {f} (hM : Match m h g) (hn : m .rep n = some a)
    (hf : Sim R m g (f (h.reps n).ctx) oh) : Sim R m g (repCtx a >>= f) oh :=
  ⟨_, hM.cells hn, hf⟩
theorem Sim.repExpected {f} (hM : Match m h g) (hn : m .rep n = some a)
    (hf : Sim R m g (f (h.reps n).expected) oh) : Sim R m g (repExpected a >>= f) oh :=
  ⟨_, hM.cells hn, hf⟩
theorem Sim.repConsumed {f} (hM : Match m h g) (hn : m .rep n = some a)
    (hf : Sim R m g (f (h.reps n).consumed) oh) : Sim R m g (repConsumed a >>= f) oh :=
  ⟨_, hM.cells hn, hf⟩
theorem Sim.okCtx {f} (hM : Match m h g) (hn : m .ok n = some a)
    (hf : Sim R m g (f (h.oks n).ctx) oh) : Sim R m g (okCtx a >>= f) oh :=
  ⟨_, hM.cells hn, hf⟩
theorem Sim.okExpected {f} (hM : Match m h g) (hn : m .ok n = some a)
    (hf : Sim R m g (f (h.oks n).expected) oh) : Sim R m g (okExpected a >>= f) oh :=
  ⟨_, hM.cells hn, hf⟩
theorem Sim.okConsumed {f} (hM : Match m h g) (hn : m .ok n = some a)
    (hf : Sim R m g (f (h.oks n).consumed) oh) : Sim R m g (okConsumed a >>= f) oh :=
  ⟨_, hM.cells hn, hf⟩
theorem Sim.failExpected {f} (hM : Match m h g) (hn : m .fail n = some a)
    (hf : Sim R m g (f (h.fails n).expected) oh) : Sim R m g (failExpected a >>= f) oh :=
  ⟨_, hM.cells hn, hf⟩
theorem Sim.failConsumed {f} (hM : Match m h g) (hn : m .fail n = some a)
    (hf : Sim R m g (f (h.fails n).consumed) oh) : Sim R m g (failConsumed a >>= f) oh :=
  ⟨_, hM.cells hn, hf⟩

end

/-! ### Creating -/

theorem sim_newOp {m : AddrMap} {h : Heap τ} {g : Store τ} (hM : Match m h g) (op : RepairOp)
    (loc : Loc) (e : List String) (b : Bool) :
    Sim ROp m g (newOp op loc e b) (Heaped.newOp op loc e b h) := by
  intro a ha
  refine ⟨_, le_add (hM.fresh (Nat.le_refl _)), hM.alloc ha ⟨e, b⟩ ?_ ?_ rfl ?_, ?_⟩
  · exact fun _ => rfl
  · intro c' hc; cases c' <;> first | rfl | exact absurd rfl hc
  · intro c' hc; cases c' <;> first | rfl | exact absurd rfl hc
  · exact .mk (add_same _ _ _ _)

theorem sim_newRepair {m : AddrMap} {h : Heap τ} {g : Store τ} (hM : Match m h g) (cost : Nat)
    (prio : Option Nat) (ins : Int) {ops ops' : List HOp} (hops : RList (ROp m) ops ops')
    (v : α) (pos : Nat) (ctx : Ctx τ) (e : List String) (b : Bool) :
    Sim RRep m g (newRepair cost prio ins ops v pos ctx e b)
      (Heaped.newRepair cost prio ins ops' v pos ctx e b h) := by
  intro a ha
  have hle := le_add (a := a) (hM.fresh (Nat.le_refl (size h .rep)))
  refine ⟨_, hle, hM.alloc ha ⟨prio, ctx, e, b⟩ ?_ ?_ rfl ?_, ?_⟩
  · exact fun _ => rfl
  · intro c' hc; cases c' <;> first | rfl | exact absurd rfl hc
  · intro c' hc; cases c' <;> first | rfl | exact absurd rfl hc
  · exact .mk (add_same _ _ _ _) (ROps.mono hle hops)

theorem sim_newOk {m : AddrMap} {h : Heap τ} {g : Store τ} (hM : Match m h g) (v : α) (pos : Nat)
    (ctx : Ctx τ) (e : List String) (b : Bool) :
    Sim ROk m g (newOk v pos ctx e b) (Heaped.newOk v pos ctx e b h) := by
  intro a ha
  refine ⟨_, le_add (hM.fresh (Nat.le_refl _)), hM.alloc ha ⟨ctx, e, b⟩ ?_ ?_ rfl ?_, ?_⟩
  · exact fun _ => rfl
  · intro c' hc; cases c' <;> first | rfl | exact absurd rfl hc
  · intro c' hc; cases c' <;> first | rfl | exact absurd rfl hc
  · exact .mk (add_same _ _ _ _)

theorem sim_newErr {m : AddrMap} {h : Heap τ} {g : Store τ} (hM : Match m h g) (loc : Loc)
    (e : List String) (b : Bool) :
    Sim RErr m g (newErr loc e b) (Heaped.newErr loc e b h) := by
  intro a ha
  refine ⟨_, le_add (hM.fresh (Nat.le_refl _)), hM.alloc ha ⟨e, b⟩ ?_ ?_ rfl ?_, ?_⟩
  · exact fun _ => rfl
  · intro c' hc; cases c' <;> first | rfl | exact absurd rfl hc
  · intro c' hc; cases c' <;> first | rfl | exact absurd rfl hc
  · exact .mk (add_same _ _ _ _)

theorem sim_newRecovered {m : AddrMap} {h : Heap τ} {g : Store τ} (hM : Match m h g)
    {reps reps' : List (HRepair α)} (hreps : RList (RRep m) reps reps') (mp : Option Nat)
    (loc : Loc) (e : List String) (b : Bool) :
    Sim RRec m g (newRecovered reps mp loc e b) (Heaped.newRecovered reps' mp loc e b h) := by
  intro a ha
  have hle := le_add (a := a) (hM.fresh (Nat.le_refl (size h .fail)))
  refine ⟨_, hle, hM.alloc ha ⟨e, b⟩ ?_ ?_ rfl ?_, ?_⟩
  · exact fun _ => rfl
  · intro c' hc; cases c' <;> first | rfl | exact absurd rfl hc
  · intro c' hc; cases c' <;> first | rfl | exact absurd rfl hc
  · exact .mk (add_same _ _ _ _) (RReps.mono hle hreps)

/-! ### Updating -/

/-- The code updates the objects of the thread to those of `h'`, and creates none. -/
def Upd (m : AddrMap) (g : Store τ) (p : Prog τ Unit) (h' : Heap τ) : Prop :=
  wp p g fun g' o => o = .ret () ∧ Match m h' g'

theorem Sim.upd {S : AddrMap → β → β → Prop} {m : AddrMap} {g : Store τ} {p : Prog τ Unit}
    {h' : Heap τ} {f : Unit → Prog τ β} {oh : Out β × Heap τ} (hp : Upd m g p h')
    (hf : ∀ g', Match m h' g' → Sim S m g' (f ()) oh) : Sim S m g (p >>= f) oh := by
  refine wp_bind (wp_mono hp ?_)
  rintro g' o ⟨rfl, hM⟩
  exact hf g' hM

theorem Upd.bind {m : AddrMap} {g : Store τ} {p : Prog τ Unit} {h' h2 : Heap τ}
    {f : Unit → Prog τ Unit} (hp : Upd m g p h')
    (hf : ∀ g', Match m h' g' → Upd m g' (f ()) h2) : Upd m g (p >>= f) h2 := by
  refine wp_bind (wp_mono hp ?_)
  rintro g' o ⟨rfl, hM⟩
  exact hf g' hM

theorem Upd.nil {m : AddrMap} {g : Store τ} {h : Heap τ} (hM : Match m h g) :
    Upd m g (Pure.pure ()) h := ⟨rfl, hM⟩

section

variable {m : AddrMap} {h h' : Heap τ} {g : Store τ} {n a : Nat}

theorem Upd.opExpected {f} (hM : Match m h g) (hn : m .op n = some a)
    (hf : Upd m g (f (h.ops n).expected) h') : Upd m g (Thr.opExpected a >>= f) h' :=
  ⟨_, hM.cells hn, hf⟩
theorem Upd.opConsumed {f} (hM : Match m h g) (hn : m .op n = some a)
    (hf : Upd m g (f (h.ops n).consumed) h') : Upd m g (Thr.opConsumed a >>= f) h' :=
  ⟨_, hM.cells hn, hf⟩
theorem Upd.repPrio {f} (hM : Match m h g) (hn : m .rep n = some a)
    (hf : Upd m g (f (h.reps n).prio) h') : Upd m g (Thr.repPrio a >>= f) h' :=
  ⟨_, hM.cells hn, hf⟩
theorem Upd.repExpected {f} (hM : Match m h g) (hn : m .rep n = some a)
    (hf : Upd m g (f (h.reps n).expected) h') : Upd m g (Thr.repExpected a >>= f) h' :=
  ⟨_, hM.cells hn, hf⟩
theorem Upd.repConsumed {f} (hM : Match m h g) (hn : m .rep n = some a)
    (hf : Upd m g (f (h.reps n).consumed) h') : Upd m g (Thr.repConsumed a >>= f) h' :=
  ⟨_, hM.cells hn, hf⟩
theorem Upd.okExpected {f} (hM : Match m h g) (hn : m .ok n = some a)
    (hf : Upd m g (f (h.oks n).expected) h') : Upd m g (Thr.okExpected a >>= f) h' :=
  ⟨_, hM.cells hn, hf⟩
theorem Upd.okConsumed {f} (hM : Match m h g) (hn : m .ok n = some a)
    (hf : Upd m g (f (h.oks n).consumed) h') : Upd m g (Thr.okConsumed a >>= f) h' :=
  ⟨_, hM.cells hn, hf⟩
theorem Upd.failExpected {f} (hM : Match m h g) (hn : m .fail n = some a)
    (hf : Upd m g (f (h.fails n).expected) h') : Upd m g (Thr.failExpected a >>= f) h' :=
  ⟨_, hM.cells hn, hf⟩
theorem Upd.failConsumed {f} (hM : Match m h g) (hn : m .fail n = some a)
    (hf : Upd m g (f (h.fails n).consumed) h') : Upd m g (Thr.failConsumed a >>= f) h' :=
  ⟨_, hM.cells hn, hf⟩

theorem Upd.op {f : OpCell → OpCell} (hM : Match m h g) (hn : m .op n = some a) :
    Upd m g (.set .op a f (.ret ())) { h with ops := upd h.ops n (f (h.ops n)) } := by
  refine ⟨_, hM.cells hn, rfl, hM.update hn _ (fun _ => rfl) ?_ ?_⟩
  · intro c' hc; cases c' <;> first | rfl | exact absurd rfl hc
  · funext c; cases c <;> rfl
theorem Upd.rep {f : RepCell τ → RepCell τ} (hM : Match m h g) (hn : m .rep n = some a) :
    Upd m g (.set .rep a f (.ret ())) { h with reps := upd h.reps n (f (h.reps n)) } := by
  refine ⟨_, hM.cells hn, rfl, hM.update hn _ (fun _ => rfl) ?_ ?_⟩
  · intro c' hc; cases c' <;> first | rfl | exact absurd rfl hc
  · funext c; cases c <;> rfl
theorem Upd.ok {f : OkCell τ → OkCell τ} (hM : Match m h g) (hn : m .ok n = some a) :
    Upd m g (.set .ok a f (.ret ())) { h with oks := upd h.oks n (f (h.oks n)) } := by
  refine ⟨_, hM.cells hn, rfl, hM.update hn _ (fun _ => rfl) ?_ ?_⟩
  · intro c' hc; cases c' <;> first | rfl | exact absurd rfl hc
  · funext c; cases c <;> rfl
theorem Upd.fail {f : FailCell → FailCell} (hM : Match m h g) (hn : m .fail n = some a) :
    Upd m g (.set .fail a f (.ret ())) { h with fails := upd h.fails n (f (h.fails n)) } := by
  refine ⟨_, hM.cells hn, rfl, hM.update hn _ (fun _ => rfl) ?_ ?_⟩
  · intro c' hc; cases c' <;> first | rfl | exact absurd rfl hc
  · funext c; cases c <;> rfl

end

theorem upd_upd {σ : Type} (f : Nat → σ) (a : Nat) (x y : σ) : upd (upd f a x) a y = upd f a y := by
  funext b; unfold upd; split <;> rfl

theorem upd_at {σ : Type} (f : Nat → σ) (a : Nat) (x : σ) : upd f a x a = x := if_pos rfl

end Reparsec.Thr
