import Verif.Spec.EffectsEval
import Verif.Spec.Recovery

/-!
# What a parser with side effects does with recovery, as an evaluation relation

The relation of `Spec/Recovery`, with the world threaded through it: which callbacks are called while errors
are repaired, on what, in which order, and in which states. Nothing refers to the parse functions.

Where something is done once for every element of a list, `ws n` is the world in which it is done for
element `n`, and `ws (n + 1)` the one it leaves.
-/

namespace Reparsec

namespace Eff

variable {σ τ ρ : Type} {Γ : ρ → Type} {α β : Type}

/-- `Rec env s col k p m i b w o w'`: with recovery, the parser `p`, started in the world `w` at position
`i` of the input `s` with the layout mark `m` and the budget `b`, comes to `o` and leaves the world `w'`.
`col i c`: the column of position `i` is `c`; `k`: the number of insertions allowed in a row. -/
inductive Rec [BEq τ] (env : Env σ τ ρ Γ) (s : List τ) (col : Nat → Nat → Prop) (k : Int) :
    {α : Type} → P σ τ ρ Γ α → Nat → Nat → Option Int → World σ → Finding α → World σ → Prop
  | pure {α : Type} {x : α} {m i b w} : Rec env s col k (.pure x) m i b w (.accepts x i []) w
  | pureFn {α : Type} {c : Callback σ Unit α} {x : α} {m i b w w'} : Calls c () w (.ok x) w' →
      Rec env s col k (.pureFn c) m i b w (.accepts x i []) w'
  | pureFnRaises {α : Type} {c : Callback σ Unit α} {e : Exn} {m i b w w'} :
      Calls c () w (.error e) w' → Rec env s col k (.pureFn c) m i b w (.raises e) w'
  | unexpected {x : String} {m i b w} :
      Rec env s col k (.unexpected x) m i b w (.rejects i [x] false) w
  | eof {m b w} : Rec env s col k .eof m s.length b w (.accepts () s.length []) w
  | eofNot {m i w} : i ≠ s.length →
      Rec env s col k .eof m i none w (.rejects i ["end of file"] false) w
  /-- the rest of the input can be skipped -/
  | eofSkip {m i r w} : i ≠ s.length →
      Rec env s col k .eof m i (some r) w
        (.repairs [Cand.skipRest k i s.length ["end of file"]] i ["end of file"] false) w
  | satisfy {c : Callback σ τ Bool} {t : τ} {m i b w w'} : s[i]? = some t →
      Calls c t w (.ok true) w' →
      Rec env s col k (.satisfy c) m i b w (.accepts t (i + 1) []) w'
  | satisfyRaises {c : Callback σ τ Bool} {t : τ} {e : Exn} {m i b w w'} : s[i]? = some t →
      Calls c t w (.error e) w' → Rec env s col k (.satisfy c) m i b w (.raises e) w'
  /-- no permission to repair: the test is called once -/
  | satisfyNot {c : Callback σ τ Bool} {t : τ} {m i w w'} : s[i]? = some t →
      Calls c t w (.ok false) w' →
      Rec env s col k (.satisfy c) m i none w (.rejects i [] false) w'
  | satisfyEnd {c : Callback σ τ Bool} {m i w} : s[i]? = none →
      Rec env s col k (.satisfy c) m i none w (.rejects i [] false) w
  /-- the test is called on one element after the other, up to the first one that passes it -/
  | satisfySkip {c : Callback σ τ Bool} {t : τ} {m i j r w'} {ws : Nat → World σ} : i < j →
      (∀ n t, i ≤ n → n < j → s[n]? = some t → Calls c t (ws n) (.ok false) (ws (n + 1))) →
      s[j]? = some t → Calls c t (ws j) (.ok true) w' →
      Rec env s col k (.satisfy c) m i (some r) (ws i)
        (.repairs [Cand.skip k i j t (j + 1) []] i [] false) w'
  | satisfyNever {c : Callback σ τ Bool} {m i r} {ws : Nat → World σ} : i ≤ s.length →
      (∀ n t, i ≤ n → s[n]? = some t → Calls c t (ws n) (.ok false) (ws (n + 1))) →
      Rec env s col k (.satisfy c) m i (some r) (ws i) (.rejects i [] false) (ws s.length)
  /-- the test raises on a later element -/
  | satisfySkipRaises {c : Callback σ τ Bool} {t : τ} {e : Exn} {m i j r w'} {ws : Nat → World σ} :
      i < j →
      (∀ n t, i ≤ n → n < j → s[n]? = some t → Calls c t (ws n) (.ok false) (ws (n + 1))) →
      s[j]? = some t → Calls c t (ws j) (.error e) w' →
      Rec env s col k (.satisfy c) m i (some r) (ws i) (.raises e) w'
  | sym {x t : τ} {l : String} {m i b w} : s[i]? = some t → (t == x) = true →
      Rec env s col k (.sym x l) m i b w (.accepts t (i + 1) []) w
  | symNot {x : τ} {l : String} {m i w} : (∀ t, s[i]? = some t → (t == x) = false) →
      Rec env s col k (.sym x l) m i none w (.rejects i [l] false) w
  /-- inserting the token, or skipping to the first one -/
  | symSkip {x t : τ} {l : String} {m i j r w} : i < j →
      (∀ n, i ≤ n → n < j → ∀ t, s[n]? = some t → (t == x) = false) →
      s[j]? = some t → (t == x) = true →
      Rec env s col k (.sym x l) m i (some r) w
        (.repairs (insertions r i x l ++ [Cand.skip k i j t (j + 1) [l]]) i [l] false) w
  | symNever {x : τ} {l : String} {m i r w} :
      (∀ n, i ≤ n → ∀ t, s[n]? = some t → (t == x) = false) →
      Rec env s col k (.sym x l) m i (some r) w (.repairs (insertions r i x l) i [l] false) w
  | literal {x : List τ} {l : String} {h : x ≠ []} {m i b w} : x.isPrefixOf (s.drop i) = true →
      Rec env s col k (.literal x l h) m i b w (.accepts x (i + x.length) []) w
  | literalNot {x : List τ} {l : String} {h : x ≠ []} {m i w} : x.isPrefixOf (s.drop i) = false →
      Rec env s col k (.literal x l h) m i none w (.rejects i [l] false) w
  | literalSkip {x : List τ} {l : String} {h : x ≠ []} {m i j r w} : i < j →
      (∀ n, i ≤ n → n < j → x.isPrefixOf (s.drop n) = false) → x.isPrefixOf (s.drop j) = true →
      Rec env s col k (.literal x l h) m i (some r) w
        (.repairs (insertions r i x l ++ [Cand.skip k i j x (j + x.length) [l]]) i [l] false) w
  | literalNever {x : List τ} {l : String} {h : x ≠ []} {m i r w} :
      (∀ n, i ≤ n → x.isPrefixOf (s.drop n) = false) →
      Rec env s col k (.literal x l h) m i (some r) w
        (.repairs (insertions r i x l) i [l] false) w
  | regexp {β : Type} {mt : Matcher τ β} {v : β} {m i j b w} :
      mt.run s i = some (j, .ok (some v)) →
      Rec env s col k (.regexp mt) m i b w (.accepts v j []) w
  | regexpRaises {β : Type} {mt : Matcher τ β} {e : Exn} {m i j b w} :
      mt.run s i = some (j, .error e) → Rec env s col k (.regexp mt) m i b w (.raises e) w
  | regexpNot {β : Type} {mt : Matcher τ β} {m i w} : mt.Misses s i →
      Rec env s col k (.regexp mt) m i none w (.rejects i [] false) w
  /-- skipping to the first position, short of the end, where there is a match -/
  | regexpSkip {β : Type} {mt : Matcher τ β} {v : β} {m i j j' r w} : i < j → j < s.length →
      (∀ n, i ≤ n → n < j → mt.Misses s n) → mt.run s j = some (j', .ok (some v)) →
      Rec env s col k (.regexp mt) m i (some r) w (.repairs [Cand.skip k i j v j' []] i [] false) w
  | regexpNever {β : Type} {mt : Matcher τ β} {m i r w} : mt.Misses s i →
      (∀ n, i < n → n < s.length → mt.Misses s n) →
      Rec env s col k (.regexp mt) m i (some r) w (.rejects i [] false) w
  | regexpSkipRaises {β : Type} {mt : Matcher τ β} {e : Exn} {m i j j' r w} : i < j →
      j < s.length → (∀ n, i ≤ n → n < j → mt.Misses s n) → mt.run s j = some (j', .error e) →
      Rec env s col k (.regexp mt) m i (some r) w (.raises e) w
  /-- the function is called once after a success -/
  | fmap {α β : Type} {p : P σ τ ρ Γ α} {c : Callback σ α β} {m i b a j x v w w1 w2} :
      Rec env s col k p m i b w (.accepts a j x) w1 → Calls c a w1 (.ok v) w2 →
      Rec env s col k (.fmap p c) m i b w (.accepts v j x) w2
  | fmapRaises {α β : Type} {p : P σ τ ρ Γ α} {c : Callback σ α β} {m i b a j x e w w1 w2} :
      Rec env s col k p m i b w (.accepts a j x) w1 → Calls c a w1 (.error e) w2 →
      Rec env s col k (.fmap p c) m i b w (.raises e) w2
  /-- not at all after a failure without repairs -/
  | fmapRejects {α β : Type} {p : P σ τ ρ Γ α} {c : Callback σ α β} {m i b q x d w w'} :
      Rec env s col k p m i b w (.rejects q x d) w' →
      Rec env s col k (.fmap p c) m i b w (.rejects q x d) w'
  | fmapRaised {α β : Type} {p : P σ τ ρ Γ α} {c : Callback σ α β} {m i b e w w'} :
      Rec env s col k p m i b w (.raises e) w' →
      Rec env s col k (.fmap p c) m i b w (.raises e) w'
  /-- and once for every candidate repair, in order -/
  | fmapRepairs {α β : Type} {p : P σ τ ρ Γ α} {c : Callback σ α β} {m i b cs q x d w}
      {vs : List β} {ws : Nat → World σ} :
      Rec env s col k p m i b w (.repairs cs q x d) (ws 0) → vs.length = cs.length →
      (∀ (n : Nat) (d : Cand α) v, cs[n]? = some d → vs[n]? = some v →
        Calls c d.value (ws n) (.ok v) (ws (n + 1))) →
      Rec env s col k (.fmap p c) m i b w
        (.repairs (List.zipWith (fun d v => d.withValue v) cs vs) q x d) (ws cs.length)
  /-- until it raises -/
  | fmapRepairsRaises {α β : Type} {p : P σ τ ρ Γ α} {c : Callback σ α β} {m i b cs} {d : Cand α}
      {ds q x d' e w w'} {vs : List β} {ws : Nat → World σ} :
      Rec env s col k p m i b w (.repairs (cs ++ d :: ds) q x d') (ws 0) → vs.length = cs.length →
      (∀ (n : Nat) (d : Cand α) v, cs[n]? = some d → vs[n]? = some v →
        Calls c d.value (ws n) (.ok v) (ws (n + 1))) →
      Calls c d.value (ws cs.length) (.error e) w' →
      Rec env s col k (.fmap p c) m i b w (.raises e) w'
  /-- the first alternative that works is taken -/
  | altFirst {α : Type} {p q : P σ τ ρ Γ α} {m i b v j x w w'} :
      Rec env s col k p m i none w (.accepts v j x) w' →
      Rec env s col k (.alt p q) m i b w (.accepts v j x) w'
  | altFinal {α : Type} {p q : P σ τ ρ Γ α} {m i b o w w'} :
      Rec env s col k p m i none w o w' → o.final → Rec env s col k (.alt p q) m i b w o w'
  /-- the second alternative is tried only if the first one consumed nothing; it finds the world as the
  first one left it -/
  | altSecond {α : Type} {p q : P σ τ ρ Γ α} {m i b q1 x1 v j x w w1 w2} :
      Rec env s col k p m i none w (.rejects q1 x1 false) w1 →
      Rec env s col k q m i none w1 (.accepts v j x) w2 →
      Rec env s col k (.alt p q) m i b w (.accepts v j (if i < j then x else x1 ++ x)) w2
  | altSecondFinal {α : Type} {p q : P σ τ ρ Γ α} {m i b q1 x1 o w w1 w2} :
      Rec env s col k p m i none w (.rejects q1 x1 false) w1 →
      Rec env s col k q m i none w1 o w2 → o.final → Rec env s col k (.alt p q) m i b w o w2
  | altNeither {α : Type} {p q : P σ τ ρ Γ α} {m i q1 x1 q2 x2 w w1 w2} :
      Rec env s col k p m i none w (.rejects q1 x1 false) w1 →
      Rec env s col k q m i none w1 (.rejects q2 x2 false) w2 →
      Rec env s col k (.alt p q) m i none w (.rejects q1 (x1 ++ x2) false) w2
  /-- repairs are made only if no alternative works; then both are run a second time, in order -/
  | altRepair {α : Type} {p q : P σ τ ρ Γ α} {m i r q1 x1 q2 x2 o1 o2 w w1 w2 w3 w4} :
      Rec env s col k p m i none w (.rejects q1 x1 false) w1 →
      Rec env s col k q m i none w1 (.rejects q2 x2 false) w2 →
      Rec env s col k p m i (some r) w2 o1 w3 → o1.calm →
      Rec env s col k q m i (some r) w3 o2 w4 →
      Rec env s col k (.alt p q) m i (some r) w (Finding.choice q1 (x1 ++ x2) o1 o2) w4
  | altRepairRaises {α : Type} {p q : P σ τ ρ Γ α} {m i r q1 x1 q2 x2 e w w1 w2 w3} :
      Rec env s col k p m i none w (.rejects q1 x1 false) w1 →
      Rec env s col k q m i none w1 (.rejects q2 x2 false) w2 →
      Rec env s col k p m i (some r) w2 (.raises e) w3 →
      Rec env s col k (.alt p q) m i (some r) w (.raises e) w3
  | bindRejects {α ι β : Type} {p : P σ τ ρ Γ α} {c : Callback σ α ι} {g : ι → P σ τ ρ Γ β}
      {m i b q x d w w'} : Rec env s col k p m i b w (.rejects q x d) w' →
      Rec env s col k (.bind p c g) m i b w (.rejects q x d) w'
  | bindRaised {α ι β : Type} {p : P σ τ ρ Γ α} {c : Callback σ α ι} {g : ι → P σ τ ρ Γ β}
      {m i b e w w'} : Rec env s col k p m i b w (.raises e) w' →
      Rec env s col k (.bind p c g) m i b w (.raises e) w'
  | bindRaises {α ι β : Type} {p : P σ τ ρ Γ α} {c : Callback σ α ι} {g : ι → P σ τ ρ Γ β}
      {m i b a j x e w w1 w2} : Rec env s col k p m i b w (.accepts a j x) w1 →
      Calls c a w1 (.error e) w2 → Rec env s col k (.bind p c g) m i b w (.raises e) w2
  /-- the parser, then the function, once, then the parser it returned; once something has been read, the
  full number of insertions is allowed -/
  | bind {α ι β : Type} {p : P σ τ ρ Γ α} {c : Callback σ α ι} {g : ι → P σ τ ρ Γ β}
      {m i b a j x v o w w1 w2 w3} : Rec env s col k p m i b w (.accepts a j x) w1 →
      Calls c a w1 (.ok v) w2 →
      Rec env s col k (g v) m j (if i < j then some k else b) w2 o w3 →
      Rec env s col k (.bind p c g) m i b w (o.after i j x) w3
  /-- carrying on from every candidate, in order, as `Pure(value).bind(fn)` does there -/
  | bindRepairs {α ι β : Type} {p : P σ τ ρ Γ α} {c : Callback σ α ι} {g : ι → P σ τ ρ Γ β}
      {m i b cs q x d w} {os : List (Finding β)} {ws : Nat → World σ} :
      Rec env s col k p m i b w (.repairs cs q x d) (ws 0) → os.length = cs.length →
      (∀ (n : Nat) (d : Cand α) o, cs[n]? = some d → os[n]? = some o →
        Rec env s col k (.bind (.pure d.value) c g) m d.stop (some d.left) (ws n) o (ws (n + 1))) →
      (∀ o ∈ os, o.calm) →
      Rec env s col k (.bind p c g) m i b w
        (.repairs (andThenAll k (fun _ v => v) cs os) q x d) (ws cs.length)
  | bindRepairsRaises {α ι β : Type} {p : P σ τ ρ Γ α} {c : Callback σ α ι} {g : ι → P σ τ ρ Γ β}
      {m i b cs} {d : Cand α} {ds q x d' e w w'} {os : List (Finding β)} {ws : Nat → World σ} :
      Rec env s col k p m i b w (.repairs (cs ++ d :: ds) q x d') (ws 0) → os.length = cs.length →
      (∀ (n : Nat) (d : Cand α) o, cs[n]? = some d → os[n]? = some o →
        Rec env s col k (.bind (.pure d.value) c g) m d.stop (some d.left) (ws n) o (ws (n + 1))) →
      (∀ o ∈ os, o.calm) →
      Rec env s col k (.bind (.pure d.value) c g) m d.stop (some d.left) (ws cs.length)
        (.raises e) w' →
      Rec env s col k (.bind p c g) m i b w (.raises e) w'
  | seqRejects {α β γ : Type} {p : P σ τ ρ Γ α} {q : P σ τ ρ Γ β} {merge : α → β → γ}
      {m i b q' x d w w'} : Rec env s col k p m i b w (.rejects q' x d) w' →
      Rec env s col k (.seqWith p q merge) m i b w (.rejects q' x d) w'
  | seqRaised {α β γ : Type} {p : P σ τ ρ Γ α} {q : P σ τ ρ Γ β} {merge : α → β → γ}
      {m i b e w w'} : Rec env s col k p m i b w (.raises e) w' →
      Rec env s col k (.seqWith p q merge) m i b w (.raises e) w'
  | seq {α β γ : Type} {p : P σ τ ρ Γ α} {q : P σ τ ρ Γ β} {merge : α → β → γ}
      {m i b a j x o w w1 w2} : Rec env s col k p m i b w (.accepts a j x) w1 →
      Rec env s col k q m j (if i < j then some k else b) w1 o w2 →
      Rec env s col k (.seqWith p q merge) m i b w ((o.map (merge a)).after i j x) w2
  /-- the second parser is run once for every candidate, in order -/
  | seqRepairs {α β γ : Type} {p : P σ τ ρ Γ α} {q : P σ τ ρ Γ β} {merge : α → β → γ}
      {m i b cs q' x d w} {os : List (Finding β)} {ws : Nat → World σ} :
      Rec env s col k p m i b w (.repairs cs q' x d) (ws 0) → os.length = cs.length →
      (∀ (n : Nat) (d : Cand α) o, cs[n]? = some d → os[n]? = some o →
        Rec env s col k q m d.stop (some d.left) (ws n) o (ws (n + 1))) →
      (∀ o ∈ os, o.calm) →
      Rec env s col k (.seqWith p q merge) m i b w
        (.repairs (andThenAll k merge cs os) q' x d) (ws cs.length)
  | seqRepairsRaises {α β γ : Type} {p : P σ τ ρ Γ α} {q : P σ τ ρ Γ β} {merge : α → β → γ}
      {m i b cs} {d : Cand α} {ds q' x d' e w w'} {os : List (Finding β)} {ws : Nat → World σ} :
      Rec env s col k p m i b w (.repairs (cs ++ d :: ds) q' x d') (ws 0) →
      os.length = cs.length →
      (∀ (n : Nat) (d : Cand α) o, cs[n]? = some d → os[n]? = some o →
        Rec env s col k q m d.stop (some d.left) (ws n) o (ws (n + 1))) →
      (∀ o ∈ os, o.calm) →
      Rec env s col k q m d.stop (some d.left) (ws cs.length) (.raises e) w' →
      Rec env s col k (.seqWith p q merge) m i b w (.raises e) w'
  | maybe {α : Type} {p : P σ τ ρ Γ α} {m i b v j x w w'} :
      Rec env s col k p m i none w (.accepts v j x) w' →
      Rec env s col k (.maybe p) m i b w (.accepts (some v) j x) w'
  | maybeNone {α : Type} {p : P σ τ ρ Γ α} {m i b q x w w'} :
      Rec env s col k p m i none w (.rejects q x false) w' →
      Rec env s col k (.maybe p) m i b w (.accepts none i x) w'
  | maybeFinal {α : Type} {p : P σ τ ρ Γ α} {m i b o w w'} :
      Rec env s col k p m i none w o w' → o.final →
      Rec env s col k (.maybe p) m i b w (o.map some) w'
  | manyItem {α : Type} {p : P σ τ ρ Γ α} {m i b v j x o w w1 w2} :
      Rec env s col k p m i none w (.accepts v j x) w1 → i < j →
      Rec env s col k (.many p) m j none w1 o w2 →
      Rec env s col k (.many p) m i b w (o.map (v :: ·)) w2
  | manyEnd {α : Type} {p : P σ τ ρ Γ α} {m i b q x w w'} :
      Rec env s col k p m i none w (.rejects q x false) w' →
      Rec env s col k (.many p) m i b w (.accepts [] i x) w'
  | manyRejects {α : Type} {p : P σ τ ρ Γ α} {m i b q x w w'} :
      Rec env s col k p m i none w (.rejects q x true) w' →
      Rec env s col k (.many p) m i b w (.rejects q x true) w'
  | manyRaised {α : Type} {p : P σ τ ρ Γ α} {m i b e w w'} :
      Rec env s col k p m i none w (.raises e) w' →
      Rec env s col k (.many p) m i b w (.raises e) w'
  /-- an item that accepts the empty string -/
  | manyEmpty {α : Type} {p : P σ τ ρ Γ α} {m i b v x w w'} :
      Rec env s col k p m i none w (.accepts v i x) w' →
      Rec env s col k (.many p) m i b w
        (.raises (.runtimeError "parser shouldn't accept empty string")) w'
  /-- after a repaired item, more items: once for every candidate, in order -/
  | manyRepairs {α : Type} {p : P σ τ ρ Γ α} {m i b cs q x d w} {os : List (Finding (List α))}
      {ws : Nat → World σ} :
      Rec env s col k p m i none w (.repairs cs q x d) (ws 0) → os.length = cs.length →
      (∀ (n : Nat) (d : Cand α) o, cs[n]? = some d → os[n]? = some o →
        Rec env s col k (.many p) m d.stop none (ws n) o (ws (n + 1))) →
      (∀ o ∈ os, o.calm) →
      Rec env s col k (.many p) m i b w
        (.repairs (andThenAll k List.cons cs os) q x d) (ws cs.length)
  | manyRepairsRaises {α : Type} {p : P σ τ ρ Γ α} {m i b cs} {d : Cand α} {ds q x d' e w w'}
      {os : List (Finding (List α))} {ws : Nat → World σ} :
      Rec env s col k p m i none w (.repairs (cs ++ d :: ds) q x d') (ws 0) →
      os.length = cs.length →
      (∀ (n : Nat) (d : Cand α) o, cs[n]? = some d → os[n]? = some o →
        Rec env s col k (.many p) m d.stop none (ws n) o (ws (n + 1))) →
      (∀ o ∈ os, o.calm) →
      Rec env s col k (.many p) m d.stop none (ws cs.length) (.raises e) w' →
      Rec env s col k (.many p) m i b w (.raises e) w'
  /-- as long as something else may work, `attempt` runs its parser without recovery -/
  | attempt {α : Type} {p : P σ τ ρ Γ α} {m i o w w'} : Eval env s col p m i w o w' →
      Rec env s col k (.attempt p) m i none w o.attempted.finding w'
  | attemptRepair {α : Type} {p : P σ τ ρ Γ α} {m i r o w w'} :
      Rec env s col k p m i (some r) w o w' →
      Rec env s col k (.attempt p) m i (some r) w o w'
  | label {α : Type} {p : P σ τ ρ Γ α} {x : String} {m i b o w w'} :
      Rec env s col k p m i b w o w' →
      Rec env s col k (.label p x) m i b w (o.relabel i [x]) w'
  | recover {α : Type} {p : P σ τ ρ Γ α} {m i b o w w'} : Rec env s col k p m i b w o w' →
      Rec env s col k (.recover p) m i b w o.promoted w'
  | recoverWithNo {α : Type} {p : P σ τ ρ Γ α} {x : α} {l : String} {m i b o w w'} :
      Rec env s col k p m i b w o w' → b = none ∨ b = some 0 ∨ o.gaveUp = none →
      Rec env s col k (.recoverWith p x l) m i b w o w'
  | recoverWith {α : Type} {p : P σ τ ρ Γ α} {x : α} {l : String} {m i r o w w'} :
      Rec env s col k p m i (some r) w o w' → r ≠ 0 → o.gaveUp ≠ none →
      Rec env s col k (.recoverWith p x l) m i (some r) w (o.orInsert r i x l) w'
  /-- the function is not called unless the parser gave up and an insertion is allowed -/
  | recoverWithFnNo {α : Type} {p : P σ τ ρ Γ α} {c : Callback σ (List τ × Nat) α}
      {lbl : α → String} {m i b o w w'} : Rec env s col k p m i b w o w' →
      b = none ∨ b = some 0 ∨ o.gaveUp = none →
      Rec env s col k (.recoverWithFn p c lbl) m i b w o w'
  /-- then it is called once, after the parser -/
  | recoverWithFn {α : Type} {p : P σ τ ρ Γ α} {c : Callback σ (List τ × Nat) α}
      {lbl : α → String} {m i r o x w w1 w2} : Rec env s col k p m i (some r) w o w1 → r ≠ 0 →
      o.gaveUp ≠ none → Calls c (s, i) w1 (.ok x) w2 →
      Rec env s col k (.recoverWithFn p c lbl) m i (some r) w (o.orInsert r i x (lbl x)) w2
  | recoverWithFnRaises {α : Type} {p : P σ τ ρ Γ α} {c : Callback σ (List τ × Nat) α}
      {lbl : α → String} {m i r o e w w1 w2} : Rec env s col k p m i (some r) w o w1 → r ≠ 0 →
      o.gaveUp ≠ none → Calls c (s, i) w1 (.error e) w2 →
      Rec env s col k (.recoverWithFn p c lbl) m i (some r) w (.raises e) w2
  /-- the mark becomes the current column -/
  | block {α : Type} {p : P σ τ ρ Γ α} {m c i b o w w'} : col i c →
      Rec env s col k p c i b w o w' → Rec env s col k (.block p) m i b w o w'
  | aligned {α : Type} {p : P σ τ ρ Γ α} {m i b o w w'} : col i m →
      Rec env s col k p m i b w o w' → Rec env s col k (.aligned p) m i b w o w'
  | alignedNot {α : Type} {p : P σ τ ρ Γ α} {m c i b w} : col i c → c ≠ m →
      Rec env s col k (.aligned p) m i b w (.rejects i ["indentation"] false) w
  | indented {α : Type} {p : P σ τ ρ Γ α} {delta : Int} {m c : Nat} {i b o w w'} : col i c →
      (m : Int) + delta = c → Rec env s col k p c i b w o w' →
      Rec env s col k (.indented delta p) m i b w o w'
  | indentedNot {α : Type} {p : P σ τ ρ Γ α} {delta : Int} {m c : Nat} {i b w} : col i c →
      (m : Int) + delta ≠ c →
      Rec env s col k (.indented delta p) m i b w (.rejects i ["indentation"] false) w
  | ref {x : ρ} {p : P σ τ ρ Γ (Γ x)} {m i b o w w'} : env x = some p →
      Rec env s col k p m i b w o w' → Rec env s col k (.ref x) m i b w o w'
  | refUndefined {x : ρ} {m i b w} : env x = none → Rec env s col k (.ref x) m i b w
      (.raises (.runtimeError "Delayed parser was not defined")) w

end Eff

end Reparsec
