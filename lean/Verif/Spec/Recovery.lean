import Verif.Spec.Eval

/-!
# What a parser does with recovery, as an evaluation relation

Nothing here refers to the parse functions, contexts or result objects: only to the syntax of
parsers, the input, positions, lists of descriptions and lists of candidate repairs.  There is no fuel.

`k` is the number of insertions allowed in a row (`max_insertions`). A parser is run with a
*budget*, an `Option Int`: `none` means that it is not to repair anything before it has consumed input
(an alternative may work instead), `some r` that it may, with `r` insertions left.
-/

namespace Reparsec

variable {τ ρ : Type} {Γ : ρ → Type} {α β γ : Type}

/-- One reported repair operation: where, what, what was looked for there; `begun`: input was consumed
before it by the parser at hand, so that this report is settled. -/
structure Fix where
  pos : Nat
  op : RepairOp
  wants : List String
  begun : Bool
deriving DecidableEq

/-- A candidate repair: what it costs (tokens skipped and inserted), whether it starts with an insertion the
library came up with by itself (`auto`), how many insertions are left, the operations, the value, where it
stops; what could have come there; whether it consumed (or skipped, or inserted) anything. -/
structure Cand (α : Type) where
  cost : Nat
  auto : Bool
  left : Int
  fixes : List Fix
  value : α
  stop : Nat
  wants : List String
  begun : Bool

/-- What a parser can come to. -/
inductive Finding (α : Type) where
  /-- the value `v`, read up to position `j`, where it could also have gone on with `wants` -/
  | accepts (v : α) (j : Nat) (wants : List String)
  /-- stuck at `q`, looking for `wants`, with no repair -/
  | rejects (q : Nat) (wants : List String) (begun : Bool)
  /-- stuck at `q`, looking for `wants`; these are the candidate repairs (there may be none) -/
  | repairs (cs : List (Cand α)) (q : Nat) (wants : List String) (begun : Bool)
  | raises (e : Exn)

/-- Nothing else is tried after this. -/
def Finding.final : Finding α → Prop
  | .accepts _ _ _ => False
  | .rejects _ _ b => b = true
  | .repairs _ _ _ b => b = true
  | .raises _ => True

/-- Not an exception. -/
def Finding.calm : Finding α → Prop
  | .raises _ => False
  | _ => True

/-- What was looked for in vain, before anything was consumed. -/
def Finding.gaveUp : Finding α → Option (List String)
  | .rejects _ w false => some w
  | .repairs _ _ w false => some w
  | _ => none

/-- An outcome without recovery. -/
def Outcome.finding : Outcome α → Finding α
  | .accepts v j w => .accepts v j w
  | .fails (.rejects q w b) => .rejects q w b
  | .fails (.raises e) => .raises e

/-- There is no match at `n`, or the group is not part of it. -/
def Matcher.Misses (mt : Matcher τ β) (s : List τ) (n : Nat) : Prop :=
  mt.run s n = none ∨ ∃ j, mt.run s n = some (j, .ok none)

/-! ### Changing the value -/

def Cand.withValue (v : β) (c : Cand α) : Cand β :=
  { cost := c.cost, auto := c.auto, left := c.left, fixes := c.fixes, value := v, stop := c.stop,
    wants := c.wants, begun := c.begun }

def Cand.map (f : α → β) (c : Cand α) : Cand β := c.withValue (f c.value)

def Finding.map (f : α → β) : Finding α → Finding β
  | .accepts v j w => .accepts (f v) j w
  | .rejects q w b => .rejects q w b
  | .repairs cs q w b => .repairs (cs.map (Cand.map f)) q w b
  | .raises e => .raises e

/-- `fn` is applied to the value of every candidate, in order; the first exception is that of the whole. -/
def Finding.mapM (fn : α → Except Exn β) : Finding α → Finding β
  | .accepts v j w =>
    match fn v with
    | .ok v' => .accepts v' j w
    | .error e => .raises e
  | .rejects q w b => .rejects q w b
  | .repairs cs q w b =>
    match cs.mapM fun c => (fn c.value).map fun v => c.withValue v with
    | .ok ds => .repairs ds q w b
    | .error e => .raises e
  | .raises e => .raises e

/-! ### Sequences -/

/-- A report that follows something which could also have gone on with `w`. -/
def Fix.after (b : Bool) (w : List String) (x : Fix) : Fix :=
  if x.begun then x else { x with wants := w ++ x.wants, begun := b }

/-- A candidate that follows a success which could also have gone on with `w`. -/
def Cand.after (b : Bool) (w : List String) (c : Cand α) : Cand α :=
  { c with
    fixes := c.fixes.map (Fix.after b w)
    wants := if c.begun then c.wants else w ++ c.wants
    begun := c.begun || b }

/-- The second part of a sequence came to this; the first part went from `i` to `j`, where it could also
have gone on with `w`. -/
def Finding.after (i j : Nat) (w : List String) : Finding α → Finding α
  | .accepts v k w' => .accepts v k (if j < k then w' else w ++ w')
  | .rejects q w' b => .rejects q (if b then w' else w ++ w') (b || decide (i < j))
  | .repairs cs q w' b =>
    .repairs (cs.map (Cand.after (decide (i < j)) w)) q (if b then w' else w ++ w')
      (b || decide (i < j))
  | .raises e => .raises e

/-- The candidates that `c` gives rise to, when the second part, run where `c` stops, comes to this. -/
def Cand.andThen (k : Int) (merge : α → β → γ) (c : Cand α) : Finding β → List (Cand γ)
  | .accepts v j w =>
    [{ cost := c.cost, auto := c.auto, left := if c.stop < j then k else c.left, fixes := c.fixes,
       value := merge c.value v, stop := j,
       wants := if c.stop < j then w else c.wants ++ w,
       begun := c.begun || decide (c.stop < j) }]
  | .rejects _ _ _ => []
  | .repairs ds _ _ _ =>
    ds.map fun d =>
      { cost := c.cost + d.cost, auto := c.auto, left := d.left,
        fixes := c.fixes ++ d.fixes.map (Fix.after c.begun c.wants),
        value := merge c.value d.value, stop := d.stop,
        wants := if d.begun then d.wants else c.wants ++ d.wants,
        begun := c.begun || d.begun }
  | .raises _ => []

/-- All the candidates, in order. -/
def andThenAll (k : Int) (merge : α → β → γ) (cs : List (Cand α)) (os : List (Finding β)) :
    List (Cand γ) :=
  (List.zipWith (Cand.andThen k merge) cs os).flatten

/-! ### Labels and choices -/

def Fix.relabel (w : List String) (x : Fix) : Fix :=
  if x.begun then x else { x with wants := w }

def Cand.relabel (w : List String) (c : Cand α) : Cand α :=
  { c with fixes := c.fixes.map (Fix.relabel w), wants := if c.begun then c.wants else w }

/-- Describe what was looked for at `i` by `w`. -/
def Finding.relabel (i : Nat) (w : List String) : Finding α → Finding α
  | .accepts v k w' => .accepts v k (if i < k then w' else w)
  | .rejects q w' b => .rejects q (if b then w' else w) b
  | .repairs cs q w' b => .repairs (cs.map (Cand.relabel w)) q (if b then w' else w) b
  | .raises e => .raises e

/-- Two alternatives were stuck without having consumed anything, the first one at `q`; `w` is what the two
looked for. Run with the permission to repair, they come to these. Candidates of the second one that start
with an automatic insertion are left out, if the first one has candidates. -/
def Finding.choice (q : Nat) (w : List String) : Finding α → Finding α → Finding α
  | .raises e, _ => .raises e
  | _, .raises e => .raises e
  | .repairs cs q1 w1 b1, .repairs ds q2 w2 b2 =>
    .repairs ((cs ++ ds.filter (fun d => !d.auto)).map (Cand.relabel w))
      (if b1 then q1 else if b2 then q2 else q1)
      (if b1 then w1 else if b2 then w2 else w) (b1 || b2)
  | .repairs cs q1 w1 b1, _ => .repairs (cs.map (Cand.relabel w)) q1 (if b1 then w1 else w) b1
  | _, .repairs ds q2 w2 b2 => .repairs (ds.map (Cand.relabel w)) q2 (if b2 then w2 else w) b2
  | _, _ => .rejects q w false

/-! ### Repairs -/

/-- Insert, by itself, what is described by `l`. -/
def Cand.insert (r : Int) (i : Nat) (v : α) (l : String) (w : List String) : Cand α :=
  { cost := 1, auto := true, left := r - 1, fixes := [⟨i, .insert l, w, false⟩], value := v,
    stop := i, wants := [], begun := true }

/-- Insert what the user provided. -/
def Cand.userInsert (r : Int) (i : Nat) (v : α) (l : String) (w : List String) : Cand α :=
  { cost := 1, auto := false, left := r - 1, fixes := [⟨i, .insert l, w, false⟩], value := v,
    stop := i, wants := [], begun := true }

/-- Skip from `i` to `j`, and read on to `stop`. -/
def Cand.skip (k : Int) (i j : Nat) (v : α) (stop : Nat) (w : List String) : Cand α :=
  { cost := j - i, auto := false, left := k, fixes := [⟨i, .skip (j - i), w, false⟩], value := v,
    stop := stop, wants := [], begun := true }

/-- Skip from `i` to the end `j` of the input. -/
def Cand.skipRest (k : Int) (i j : Nat) (w : List String) : Cand Unit :=
  { cost := j - i, auto := false, left := k, fixes := [⟨i, .skip (j - i), w, false⟩], value := (),
    stop := j, wants := [], begun := false }

/-- An automatic insertion, if there is one left. -/
def insertions (r : Int) (i : Nat) (v : α) (l : String) : List (Cand α) :=
  if r = 0 then [] else [Cand.insert r i v l [l]]

/-- `recover()`: no candidate counts as automatic. -/
def Finding.promoted : Finding α → Finding α
  | .repairs cs q w b => .repairs (cs.map fun c => { c with auto := false }) q w b
  | o => o

/-- `recover_with(x)` at `i`, with `r` insertions left: inserting `x` comes first. -/
def Finding.orInsert (r : Int) (i : Nat) (x : α) (l : String) : Finding α → Finding α
  | .rejects _ w false => .repairs [Cand.userInsert r i x l w] i [] false
  | .repairs cs _ w false => .repairs (Cand.userInsert r i x l w :: cs) i w false
  | o => o

/-- `Rec env s col k p m i b o`: with recovery, the parser `p` comes to `o` at position `i` of the input `s`,
with the layout mark `m` and the budget `b`. `col i c`: the column of position `i` is `c`. -/
inductive Rec [BEq τ] (env : Env τ ρ Γ) (s : List τ) (col : Nat → Nat → Prop) (k : Int) :
    {α : Type} → P τ ρ Γ α → Nat → Nat → Option Int → Finding α → Prop
  | pure {α : Type} {x : α} {m i b} : Rec env s col k (.pure x) m i b (.accepts x i [])
  | pureFn {α : Type} {x : α} {m i b} : Rec env s col k (.pureFn (.ok x)) m i b (.accepts x i [])
  | pureFnRaises {α : Type} {e : Exn} {m i b} :
      Rec env s col k (.pureFn (.error e) : P τ ρ Γ α) m i b (.raises e)
  | unexpected {x : String} {m i b} :
      Rec env s col k (.unexpected x) m i b (.rejects i [x] false)
  | eof {m b} : Rec env s col k .eof m s.length b (.accepts () s.length [])
  | eofNot {m i} : i ≠ s.length →
      Rec env s col k .eof m i none (.rejects i ["end of file"] false)
  /-- the rest of the input can be skipped -/
  | eofSkip {m i r} : i ≠ s.length →
      Rec env s col k .eof m i (some r)
        (.repairs [Cand.skipRest k i s.length ["end of file"]] i ["end of file"] false)
  | satisfy {test : τ → Except Exn Bool} {t : τ} {m i b} : s[i]? = some t → test t = .ok true →
      Rec env s col k (.satisfy test) m i b (.accepts t (i + 1) [])
  | satisfyRaises {test : τ → Except Exn Bool} {t : τ} {e : Exn} {m i b} : s[i]? = some t →
      test t = .error e → Rec env s col k (.satisfy test) m i b (.raises e)
  | satisfyNot {test : τ → Except Exn Bool} {m i} : (∀ t, s[i]? = some t → test t = .ok false) →
      Rec env s col k (.satisfy test) m i none (.rejects i [] false)
  /-- skipping to the first token that passes the test -/
  | satisfySkip {test : τ → Except Exn Bool} {t : τ} {m i j r} : i < j →
      (∀ n, i ≤ n → n < j → ∀ t, s[n]? = some t → test t = .ok false) →
      s[j]? = some t → test t = .ok true →
      Rec env s col k (.satisfy test) m i (some r)
        (.repairs [Cand.skip k i j t (j + 1) []] i [] false)
  | satisfyNever {test : τ → Except Exn Bool} {m i r} :
      (∀ n, i ≤ n → ∀ t, s[n]? = some t → test t = .ok false) →
      Rec env s col k (.satisfy test) m i (some r) (.rejects i [] false)
  /-- the test raises on a later token -/
  | satisfySkipRaises {test : τ → Except Exn Bool} {t : τ} {e : Exn} {m i j r} : i < j →
      (∀ n, i ≤ n → n < j → ∀ t, s[n]? = some t → test t = .ok false) →
      s[j]? = some t → test t = .error e →
      Rec env s col k (.satisfy test) m i (some r) (.raises e)
  | sym {x t : τ} {l : String} {m i b} : s[i]? = some t → (t == x) = true →
      Rec env s col k (.sym x l) m i b (.accepts t (i + 1) [])
  | symNot {x : τ} {l : String} {m i} : (∀ t, s[i]? = some t → (t == x) = false) →
      Rec env s col k (.sym x l) m i none (.rejects i [l] false)
  /-- inserting the token, or skipping to the first one -/
  | symSkip {x t : τ} {l : String} {m i j r} : i < j →
      (∀ n, i ≤ n → n < j → ∀ t, s[n]? = some t → (t == x) = false) →
      s[j]? = some t → (t == x) = true →
      Rec env s col k (.sym x l) m i (some r)
        (.repairs (insertions r i x l ++ [Cand.skip k i j t (j + 1) [l]]) i [l] false)
  | symNever {x : τ} {l : String} {m i r} :
      (∀ n, i ≤ n → ∀ t, s[n]? = some t → (t == x) = false) →
      Rec env s col k (.sym x l) m i (some r) (.repairs (insertions r i x l) i [l] false)
  | literal {x : List τ} {l : String} {h : x ≠ []} {m i b} : x.isPrefixOf (s.drop i) = true →
      Rec env s col k (.literal x l h) m i b (.accepts x (i + x.length) [])
  | literalNot {x : List τ} {l : String} {h : x ≠ []} {m i} : x.isPrefixOf (s.drop i) = false →
      Rec env s col k (.literal x l h) m i none (.rejects i [l] false)
  | literalSkip {x : List τ} {l : String} {h : x ≠ []} {m i j r} : i < j →
      (∀ n, i ≤ n → n < j → x.isPrefixOf (s.drop n) = false) → x.isPrefixOf (s.drop j) = true →
      Rec env s col k (.literal x l h) m i (some r)
        (.repairs (insertions r i x l ++ [Cand.skip k i j x (j + x.length) [l]]) i [l] false)
  | literalNever {x : List τ} {l : String} {h : x ≠ []} {m i r} :
      (∀ n, i ≤ n → x.isPrefixOf (s.drop n) = false) →
      Rec env s col k (.literal x l h) m i (some r) (.repairs (insertions r i x l) i [l] false)
  | regexp {β : Type} {mt : Matcher τ β} {v : β} {m i j b} : mt.run s i = some (j, .ok (some v)) →
      Rec env s col k (.regexp mt) m i b (.accepts v j [])
  | regexpRaises {β : Type} {mt : Matcher τ β} {e : Exn} {m i j b} :
      mt.run s i = some (j, .error e) → Rec env s col k (.regexp mt) m i b (.raises e)
  | regexpNot {β : Type} {mt : Matcher τ β} {m i} : mt.Misses s i →
      Rec env s col k (.regexp mt) m i none (.rejects i [] false)
  /-- skipping to the first position, short of the end, where there is a match -/
  | regexpSkip {β : Type} {mt : Matcher τ β} {v : β} {m i j j' r} : i < j → j < s.length →
      (∀ n, i ≤ n → n < j → mt.Misses s n) → mt.run s j = some (j', .ok (some v)) →
      Rec env s col k (.regexp mt) m i (some r) (.repairs [Cand.skip k i j v j' []] i [] false)
  | regexpNever {β : Type} {mt : Matcher τ β} {m i r} : mt.Misses s i →
      (∀ n, i < n → n < s.length → mt.Misses s n) →
      Rec env s col k (.regexp mt) m i (some r) (.rejects i [] false)
  | regexpSkipRaises {β : Type} {mt : Matcher τ β} {e : Exn} {m i j j' r} : i < j → j < s.length →
      (∀ n, i ≤ n → n < j → mt.Misses s n) → mt.run s j = some (j', .error e) →
      Rec env s col k (.regexp mt) m i (some r) (.raises e)
  | fmap {α β : Type} {p : P τ ρ Γ α} {fn : α → Except Exn β} {m i b o} :
      Rec env s col k p m i b o → Rec env s col k (.fmap p fn) m i b (o.mapM fn)
  /-- the first alternative that works is taken -/
  | altFirst {α : Type} {p q : P τ ρ Γ α} {m i b v j w} :
      Rec env s col k p m i none (.accepts v j w) → Rec env s col k (.alt p q) m i b (.accepts v j w)
  | altFinal {α : Type} {p q : P τ ρ Γ α} {m i b o} :
      Rec env s col k p m i none o → o.final → Rec env s col k (.alt p q) m i b o
  /-- the second alternative is tried only if the first one consumed nothing -/
  | altSecond {α : Type} {p q : P τ ρ Γ α} {m i b q1 w1 v j w} :
      Rec env s col k p m i none (.rejects q1 w1 false) →
      Rec env s col k q m i none (.accepts v j w) →
      Rec env s col k (.alt p q) m i b (.accepts v j (if i < j then w else w1 ++ w))
  | altSecondFinal {α : Type} {p q : P τ ρ Γ α} {m i b q1 w1 o} :
      Rec env s col k p m i none (.rejects q1 w1 false) →
      Rec env s col k q m i none o → o.final → Rec env s col k (.alt p q) m i b o
  | altNeither {α : Type} {p q : P τ ρ Γ α} {m i q1 w1 q2 w2} :
      Rec env s col k p m i none (.rejects q1 w1 false) →
      Rec env s col k q m i none (.rejects q2 w2 false) →
      Rec env s col k (.alt p q) m i none (.rejects q1 (w1 ++ w2) false)
  /-- repairs are made only if no alternative works -/
  | altRepair {α : Type} {p q : P τ ρ Γ α} {m i r q1 w1 q2 w2 o1 o2} :
      Rec env s col k p m i none (.rejects q1 w1 false) →
      Rec env s col k q m i none (.rejects q2 w2 false) →
      Rec env s col k p m i (some r) o1 → Rec env s col k q m i (some r) o2 →
      Rec env s col k (.alt p q) m i (some r) (Finding.choice q1 (w1 ++ w2) o1 o2)
  | altRepairRaises {α : Type} {p q : P τ ρ Γ α} {m i r q1 w1 q2 w2 e} :
      Rec env s col k p m i none (.rejects q1 w1 false) →
      Rec env s col k q m i none (.rejects q2 w2 false) →
      Rec env s col k p m i (some r) (.raises e) →
      Rec env s col k (.alt p q) m i (some r) (.raises e)
  | bindRejects {α β : Type} {p : P τ ρ Γ α} {f : α → P τ ρ Γ β} {m i b q w c} :
      Rec env s col k p m i b (.rejects q w c) →
      Rec env s col k (.bind p f) m i b (.rejects q w c)
  | bindRaises {α β : Type} {p : P τ ρ Γ α} {f : α → P τ ρ Γ β} {m i b e} :
      Rec env s col k p m i b (.raises e) → Rec env s col k (.bind p f) m i b (.raises e)
  /-- once something has been read, the full number of insertions is allowed -/
  | bind {α β : Type} {p : P τ ρ Γ α} {f : α → P τ ρ Γ β} {m i b a j w o} :
      Rec env s col k p m i b (.accepts a j w) →
      Rec env s col k (f a) m j (if i < j then some k else b) o →
      Rec env s col k (.bind p f) m i b (o.after i j w)
  /-- carrying on from every candidate, in order -/
  | bindRepairs {α β : Type} {p : P τ ρ Γ α} {f : α → P τ ρ Γ β} {m i b cs q w c}
      {os : List (Finding β)} :
      Rec env s col k p m i b (.repairs cs q w c) → os.length = cs.length →
      (∀ (n : Nat) (d : Cand α) o, cs[n]? = some d → os[n]? = some o →
        Rec env s col k (f d.value) m d.stop (some d.left) o) →
      (∀ o ∈ os, o.calm) →
      Rec env s col k (.bind p f) m i b (.repairs (andThenAll k (fun _ v => v) cs os) q w c)
  | bindRepairsRaises {α β : Type} {p : P τ ρ Γ α} {f : α → P τ ρ Γ β} {m i b cs} {d : Cand α} {ds q w c e}
      {os : List (Finding β)} :
      Rec env s col k p m i b (.repairs (cs ++ d :: ds) q w c) → os.length = cs.length →
      (∀ (n : Nat) (d : Cand α) o, cs[n]? = some d → os[n]? = some o →
        Rec env s col k (f d.value) m d.stop (some d.left) o) →
      (∀ o ∈ os, o.calm) →
      Rec env s col k (f d.value) m d.stop (some d.left) (.raises e) →
      Rec env s col k (.bind p f) m i b (.raises e)
  /-- `p + q`, `p << q`, `p >> q` are `p.bind(lambda a: q.fmap(lambda b: merge(a, b)))` -/
  | seq {α β γ : Type} {p : P τ ρ Γ α} {q : P τ ρ Γ β} {merge : α → β → γ} {m i b o} :
      Rec env s col k (.bind p fun a => .fmap q fun b => .ok (merge a b)) m i b o →
      Rec env s col k (.seqWith p q merge) m i b o
  /-- `p.maybe()` is `p | Pure(None)` -/
  | maybe {α : Type} {p : P τ ρ Γ α} {m i b o} :
      Rec env s col k (.alt (.fmap p fun a => .ok (some a)) (.pure none)) m i b o →
      Rec env s col k (.maybe p) m i b o
  | manyItem {α : Type} {p : P τ ρ Γ α} {m i b v j w o} :
      Rec env s col k p m i none (.accepts v j w) → i < j →
      Rec env s col k (.many p) m j none o → Rec env s col k (.many p) m i b (o.map (v :: ·))
  | manyEnd {α : Type} {p : P τ ρ Γ α} {m i b q w} :
      Rec env s col k p m i none (.rejects q w false) →
      Rec env s col k (.many p) m i b (.accepts [] i w)
  | manyRejects {α : Type} {p : P τ ρ Γ α} {m i b q w} :
      Rec env s col k p m i none (.rejects q w true) →
      Rec env s col k (.many p) m i b (.rejects q w true)
  | manyRaises {α : Type} {p : P τ ρ Γ α} {m i b e} :
      Rec env s col k p m i none (.raises e) → Rec env s col k (.many p) m i b (.raises e)
  /-- an item that accepts the empty string -/
  | manyEmpty {α : Type} {p : P τ ρ Γ α} {m i b v w} : Rec env s col k p m i none (.accepts v i w) →
      Rec env s col k (.many p) m i b
        (.raises (.runtimeError "parser shouldn't accept empty string"))
  /-- after a repaired item, more items -/
  | manyRepairs {α : Type} {p : P τ ρ Γ α} {m i b cs q w c} {os : List (Finding (List α))} :
      Rec env s col k p m i none (.repairs cs q w c) → os.length = cs.length →
      (∀ (n : Nat) (d : Cand α) o, cs[n]? = some d → os[n]? = some o → Rec env s col k (.many p) m d.stop none o) →
      (∀ o ∈ os, o.calm) →
      Rec env s col k (.many p) m i b (.repairs (andThenAll k List.cons cs os) q w c)
  | manyRepairsRaises {α : Type} {p : P τ ρ Γ α} {m i b cs} {d : Cand α} {ds q w c e}
      {os : List (Finding (List α))} :
      Rec env s col k p m i none (.repairs (cs ++ d :: ds) q w c) → os.length = cs.length →
      (∀ (n : Nat) (d : Cand α) o, cs[n]? = some d → os[n]? = some o → Rec env s col k (.many p) m d.stop none o) →
      (∀ o ∈ os, o.calm) → Rec env s col k (.many p) m d.stop none (.raises e) →
      Rec env s col k (.many p) m i b (.raises e)
  /-- as long as something else may work, `attempt` runs its parser without recovery -/
  | attempt {α : Type} {p : P τ ρ Γ α} {m i o} : Eval env s col p m i o →
      Rec env s col k (.attempt p) m i none o.attempted.finding
  | attemptRepair {α : Type} {p : P τ ρ Γ α} {m i r o} : Rec env s col k p m i (some r) o →
      Rec env s col k (.attempt p) m i (some r) o
  | label {α : Type} {p : P τ ρ Γ α} {x : String} {m i b o} : Rec env s col k p m i b o →
      Rec env s col k (.label p x) m i b (o.relabel i [x])
  | recover {α : Type} {p : P τ ρ Γ α} {m i b o} : Rec env s col k p m i b o →
      Rec env s col k (.recover p) m i b o.promoted
  /-- `p.recover_with(x)` is `p.recover_with_fn(lambda s, i: x)` -/
  | recoverWith {α : Type} {p : P τ ρ Γ α} {x : α} {l : String} {m i b o} :
      Rec env s col k (.recoverWithFn p (fun _ _ => .ok x) fun _ => l) m i b o →
      Rec env s col k (.recoverWith p x l) m i b o
  | recoverWithFnNo {α : Type} {p : P τ ρ Γ α} {fn : List τ → Nat → Except Exn α}
      {lbl : α → String} {m i b o} : Rec env s col k p m i b o →
      b = none ∨ b = some 0 ∨ o.gaveUp = none →
      Rec env s col k (.recoverWithFn p fn lbl) m i b o
  | recoverWithFn {α : Type} {p : P τ ρ Γ α} {fn : List τ → Nat → Except Exn α}
      {lbl : α → String} {m i r o x} : Rec env s col k p m i (some r) o → r ≠ 0 →
      o.gaveUp ≠ none → fn s i = .ok x →
      Rec env s col k (.recoverWithFn p fn lbl) m i (some r) (o.orInsert r i x (lbl x))
  | recoverWithFnRaises {α : Type} {p : P τ ρ Γ α} {fn : List τ → Nat → Except Exn α}
      {lbl : α → String} {m i r o e} : Rec env s col k p m i (some r) o → r ≠ 0 →
      o.gaveUp ≠ none → fn s i = .error e →
      Rec env s col k (.recoverWithFn p fn lbl) m i (some r) (.raises e)
  /-- the mark becomes the current column -/
  | block {α : Type} {p : P τ ρ Γ α} {m c i b o} : col i c → Rec env s col k p c i b o →
      Rec env s col k (.block p) m i b o
  | aligned {α : Type} {p : P τ ρ Γ α} {m i b o} : col i m → Rec env s col k p m i b o →
      Rec env s col k (.aligned p) m i b o
  | alignedNot {α : Type} {p : P τ ρ Γ α} {m c i b} : col i c → c ≠ m →
      Rec env s col k (.aligned p) m i b (.rejects i ["indentation"] false)
  | indented {α : Type} {p : P τ ρ Γ α} {delta : Int} {m c : Nat} {i b o} : col i c →
      (m : Int) + delta = c → Rec env s col k p c i b o →
      Rec env s col k (.indented delta p) m i b o
  | indentedNot {α : Type} {p : P τ ρ Γ α} {delta : Int} {m c : Nat} {i b} : col i c →
      (m : Int) + delta ≠ c →
      Rec env s col k (.indented delta p) m i b (.rejects i ["indentation"] false)
  | ref {x : ρ} {p : P τ ρ Γ (Γ x)} {m i b o} : env x = some p → Rec env s col k p m i b o →
      Rec env s col k (.ref x) m i b o
  | refUndefined {x : ρ} {m i b} : env x = none → Rec env s col k (.ref x) m i b
      (.raises (.runtimeError "Delayed parser was not defined"))

/-! ### What the user gets from it -/

/-- The order in which candidates are preferred: cheaper; then reading further; then not starting with an
automatic insertion. -/
def Cand.Better (a b : Cand α) : Prop :=
  a.cost < b.cost ∨ a.cost = b.cost ∧
    (b.stop < a.stop ∨ a.stop = b.stop ∧ a.auto = false ∧ b.auto = true)

/-- `c` is the first candidate that no other one beats. -/
def Chosen (cs : List (Cand α)) (c : Cand α) : Prop :=
  ∃ cs1 cs2, cs = cs1 ++ c :: cs2 ∧ (∀ d ∈ cs1, c.Better d) ∧ ∀ d ∈ cs2, ¬ d.Better c

/-- The errors reported for a candidate; `loc q` is the location of position `q`. -/
def Cand.errors (loc : Nat → Loc) (fmt : Loc → String) (c : Cand α) : List ErrorItem :=
  c.fixes.map fun x => ⟨loc x.pos, fmt (loc x.pos), x.wants, some x.op⟩

/-- What `.unwrap(recover=..)` gives for a finding: a value, or a `ParseError`. -/
def Finding.Gives (loc : Nat → Loc) (fmt : Loc → String) (recover : Bool) :
    Finding α → Except ParseError α → Prop
  | .accepts v _ _, x => x = .ok v
  | .rejects q w _, x => x = .error ⟨[⟨loc q, fmt (loc q), w, none⟩]⟩
  | .repairs [] q w _, x => x = .error ⟨[⟨loc q, fmt (loc q), w, none⟩]⟩
  | .repairs (c :: cs) _ _ _, x => ∃ d, Chosen (c :: cs) d ∧
      x = if recover then .ok d.value else .error ⟨d.errors loc fmt⟩
  | .raises _, _ => False

end Reparsec
