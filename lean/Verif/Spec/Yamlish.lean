import Verif.Model.Yamlish

/-!
# Indented documents

Specification for C77: what a document is and what it means. No parser, no positions: an entry is in column `c`, and the
line break at its end leads to the column of the next entry, whatever block that is in.
-/

namespace Reparsec.Yamlish

/-- What an identifier begins with: a letter (of ASCII) or `_`. -/
def Start (c : Char) : Prop := ('a' ≤ c ∧ c ≤ 'z') ∨ ('A' ≤ c ∧ c ≤ 'Z') ∨ c = '_'

/-- An identifier. -/
def Ident (w : List Char) : Prop := ∃ c l, w = c :: l ∧ Start c ∧ ∀ x ∈ l, Start x ∨ ('0' ≤ x ∧ x ≤ '9')

/-- A colon, with spaces and tabs around it. -/
def Colon (w : List Char) : Prop :=
  ∃ a b, w = a ++ ':' :: b ∧ (∀ x ∈ a, x = ' ' ∨ x = '\t') ∧ ∀ x ∈ b, x = ' ' ∨ x = '\t'

/-- Spaces, the last line of which is `c` characters long. -/
def Spaces (space : Char → Bool) (c : Nat) (w : List Char) : Prop :=
  (∀ x ∈ w, space x = true) ∧ (w.reverse.takeWhile (· ≠ '\n')).length = c

/-- A line break, and spaces that lead to column `c` of some later line. -/
def Break (space : Char → Bool) (c : Nat) (w : List Char) : Prop :=
  (∃ l, w = '\n' :: l ∧ ∀ x ∈ l, space x = true) ∧ (w.reverse.takeWhile (· ≠ '\n')).length = c

/-- What ends an entry: a line break that leads to the column of the next one; after the last one, a line break that
leads anywhere, or nothing. -/
def Ends (space : Char → Bool) : Option Nat → List Char → Prop
  | some c, w => Break space c w
  | none, w => w = [] ∨ ∃ c, Break space c w

/-- `Entries space c next w kvs`: the text `w` is a block of entries, at least one, in column `c`, which are followed by
an entry in column `next` (`none`: by the end of the text); their keys and values are `kvs`. The entries in an entry
are 4 columns further to the right. If a key occurs several times, its last value counts (`Json.pyDict`, see C75). -/
inductive Entries (space : Char → Bool) : Nat → Option Nat → List Char → List (String × V) → Prop
  | scalar {c next k w v e} : Ident k → Colon w → Ident v → Ends space next e →
      Entries space c next (k ++ (w ++ (v ++ e))) [(String.ofList k, .str (String.ofList v))]
  | nested {c next k w b t kvs} : Ident k → Colon w → Break space (c + 4) b → Entries space (c + 4) next t kvs →
      Entries space c next (k ++ (w ++ (b ++ t))) [(String.ofList k, .dict (Json.pyDict kvs))]
  | more {c next t t' kv kvs} : Entries space c (some c) t [kv] → Entries space c next t' kvs →
      Entries space c next (t ++ t') (kv :: kvs)

/-- The text is a document: only spaces; or spaces, then entries in column 0. -/
inductive Document (space : Char → Bool) : List Char → V → Prop
  | empty {w} : (∀ x ∈ w, space x = true) → Document space w (.dict [])
  | entries {w t kvs} : Spaces space 0 w → Entries space 0 none t kvs →
      Document space (w ++ t) (.dict (Json.pyDict kvs))

end Reparsec.Yamlish
