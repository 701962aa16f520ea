import Verif.Model.JsonLexer
import Verif.Model.Calculator

/-!
# Regular expressions

The part of Python's `re` that the parsers of the tests use (`core/scannerless.py:76-124` and `lexer.py:59` call
`pat.match`): classes of characters, sequences, alternatives `a|b`, greedy repetition `a*`, and groups.  A match is found
by backtracking: alternatives from left to right, repetitions as long as possible first.  `a+` is `aa*`, `a?` is `a|` and
`a{4}` is `aaaa`.  Not modelled: everything else (anchors, look-around, back references, flags, lazy repetition).
-/

namespace Reparsec

inductive Re where
  /-- the empty expression -/
  | eps
  /-- a character of a class: `c`, `[..]`, `.`, `\d`, `\s` -/
  | cls (f : Char → Bool)
  | seq (a b : Re)
  | alt (a b : Re)
  | star (a : Re)
  /-- `(..)` or `(?P<name>..)` -/
  | group (name : String) (a : Re)

/-- A match: its length, and the texts of the groups, in the order in which they were closed. -/
structure Found where
  len : Nat := 0
  caps : List (String × List Char) := []

def Found.append (m m' : Found) : Found := ⟨m.len + m'.len, m.caps ++ m'.caps⟩

/-- `a*`, at most `fuel` times; `f` is what matches `a`. A repetition that matches nothing is the last one (as `re` does
it). -/
def starRun {β : Type} (f : List Char → (Found → Option β) → Option β) :
    (fuel : Nat) → List Char → (Found → Option β) → Option β
  | 0, _, k => k {}
  | fuel + 1, l, k =>
    (f l fun m => if m.len = 0 then k m else starRun f fuel (l.drop m.len) fun m' => k (m.append m')).or (k {})

/-- Match `re` at the beginning of `l`, and go on with `k`; if `k` fails, backtrack. -/
def Re.run {β : Type} : Re → List Char → (Found → Option β) → Option β
  | .eps, _, k => k {}
  | .cls f, l, k =>
    match l with
    | [] => none
    | c :: _ => if f c then k ⟨1, []⟩ else none
  | .seq a b, l, k => a.run l fun m => b.run (l.drop m.len) fun m' => k (m.append m')
  | .alt a b, l, k => (a.run l k).or (b.run l k)
  | .star a, l, k => starRun a.run (l.length + 1) l k
  | .group name a, l, k => a.run l fun m => k ⟨m.len, m.caps ++ [(name, l.take m.len)]⟩

/-- `pat.match(..)`, at the beginning of `l`. -/
def Re.match (re : Re) (l : List Char) : Option Found := re.run l some

namespace Re

/-- `a+` -/
def plus (a : Re) : Re := .seq a (.star a)
/-- `a?` -/
def opt (a : Re) : Re := .alt a .eps
/-- `c` -/
def chr (c : Char) : Re := .cls (· == c)
/-- A word. -/
def word : List Char → Re
  | [] => .eps
  | c :: l => .seq (chr c) (word l)

end Re

/-- `match.group(name)`: the last text of that group. -/
def Found.group (m : Found) (name : String) : Option (List Char) :=
  (m.caps.reverse.find? (·.1 == name)).map (·.2)

theorem starRun_le {f : List Char → (Found → Option Found) → Option Found} {fuel : Nat} {l : List Char}
    {k : Found → Option Found} {n : Nat} {r : Found}
    (hf : ∀ l k n r, (∀ m : Found, m.len ≤ l.length → ∀ r, k m = some r → r.len ≤ n) → f l k = some r → r.len ≤ n)
    (hk : ∀ m : Found, m.len ≤ l.length → ∀ r, k m = some r → r.len ≤ n) (h : starRun f fuel l k = some r) :
    r.len ≤ n := by
  induction fuel generalizing l k r with
  | zero => exact hk _ (Nat.zero_le _) _ h
  | succ fuel ih =>
    simp only [starRun, Option.or_eq_some_iff] at h
    rcases h with h | ⟨-, h⟩
    · refine hf _ _ _ _ (fun m hm r hr => ?_) h
      split at hr
      · exact hk m hm r hr
      · refine ih (k := fun m' => k (m.append m')) (fun m' hm' r hr => hk (m.append m') ?_ r hr) hr
        rw [List.length_drop] at hm'
        simp only [Found.append]
        omega
    · exact hk _ (Nat.zero_le _) _ h

theorem Re.run_le {re : Re} {l : List Char} {k : Found → Option Found} {n : Nat} {r : Found}
    (hk : ∀ m : Found, m.len ≤ l.length → ∀ r, k m = some r → r.len ≤ n) (h : re.run l k = some r) : r.len ≤ n := by
  induction re generalizing l k n r with
  | eps => exact hk _ (Nat.zero_le _) _ h
  | cls f =>
    cases l with
    | nil => cases h
    | cons c l =>
      simp only [Re.run] at h
      split at h
      · exact hk _ (by simp) _ h
      · cases h
  | seq a b iha ihb =>
    refine iha (fun m hm r hr => ihb (fun m' hm' r hr => hk _ ?_ r hr) hr) h
    rw [List.length_drop] at hm'
    simp only [Found.append]
    omega
  | alt a b iha ihb =>
    simp only [Re.run, Option.or_eq_some_iff] at h
    rcases h with h | ⟨-, h⟩
    · exact iha hk h
    · exact ihb hk h
  | star a ih => exact starRun_le (fun l k n r hk h => ih hk h) hk h
  | group name a ih =>
    exact ih (k := fun m => k ⟨m.len, m.caps ++ [(name, l.take m.len)]⟩)
      (fun m hm r hr => hk ⟨m.len, m.caps ++ [(name, l.take m.len)]⟩ hm r hr) h

theorem Re.match_le {re : Re} {l : List Char} {m : Found} (h : re.match l = some m) : m.len ≤ l.length :=
  Re.run_le (fun m hm r hr => by cases hr; exact hm) h

/-- `regexp(pat, group)`, `core/scannerless.py:76-124`: `pat.match(stream, pos=pos)` and `match.group(group)`; group 0 is
the whole match. Simplification: a group that does not occur in the expression (Python raises `IndexError`) is like one
that took no part in the match. `str` makes the string that is returned of its characters. -/
def Re.matcher {β : Type} (str : List Char → β) (re : Re) (group : Option String := none) : Matcher Char β where
  run s pos := (re.match (s.drop pos)).map fun m =>
    (pos + m.len, .ok ((match group with
      | none => some ((s.drop pos).take m.len)
      | some name => m.group name).map str))
  bounds s pos e v hp h := by
    obtain ⟨m, hm, h⟩ := Option.map_eq_some_iff.1 h
    have := Re.match_le hm
    rw [List.length_drop] at this
    simp only [Prod.mk.injEq] at h
    omega

/-- A lexer specification, `lexer.py:59`, `:72-74`: `match.end()`, `match.lastgroup` and its text. -/
def Re.lexSpec (re : Re) : LexSpec where
  run src pos := (re.match (src.drop pos)).map fun m => ⟨pos + m.len, m.caps.getLast?.map fun c => (c.1, String.ofList c.2)⟩
  bounds src pos m hp h := by
    obtain ⟨m, hm, rfl⟩ := Option.map_eq_some_iff.1 h
    have := Re.match_le hm
    rw [List.length_drop] at this
    dsimp only
    omega

end Reparsec
