import Verif.Model.Json

/-!
# JSON texts

Specification for C80: what a JSON text is and what it means. No parser, no positions, no regular expressions. This is
the grammar of JSON (RFC 8259), where every word is followed by white space, but for one thing: a string is not empty.
-/

namespace Reparsec.JsonText

open Json

variable {F : Type}

/-- White space. -/
def Ws (w : List Char) : Prop := ∀ x ∈ w, x = ' ' ∨ x = '\n' ∨ x = '\r' ∨ x = '\t'

/-- The mark `p`, and white space. -/
def Mark (p : Char) (w : List Char) : Prop := ∃ b, w = p :: b ∧ Ws b

def Digit (c : Char) : Prop := '0' ≤ c ∧ c ≤ '9'

/-- One digit or more. -/
def Digits (w : List Char) : Prop := w ≠ [] ∧ ∀ x ∈ w, Digit x

/-- `0`, or digits of which the first is not `0`. -/
def Natural (w : List Char) : Prop := w = ['0'] ∨ ∃ c l, w = c :: l ∧ ('1' ≤ c ∧ c ≤ '9') ∧ ∀ x ∈ l, Digit x

def Integer (w : List Char) : Prop := ∃ n, Natural n ∧ (w = n ∨ w = '-' :: n)

/-- A fraction. -/
def Fraction (w : List Char) : Prop := ∃ d, Digits d ∧ w = '.' :: d

/-- An exponent. -/
def Exponent (w : List Char) : Prop :=
  ∃ e d, (e = 'e' ∨ e = 'E') ∧ Digits d ∧ (w = e :: d ∨ w = e :: '-' :: d ∨ w = e :: '+' :: d)

/-- A number that is not written as an integer: with a fraction, an exponent, or both. -/
def Number (w : List Char) : Prop := ∃ i t, Integer i ∧ w = i ++ t ∧
  (Fraction t ∨ Exponent t ∨ ∃ f e, Fraction f ∧ Exponent e ∧ t = f ++ e)

def Hex (c : Char) : Prop := Digit c ∨ ('a' ≤ c ∧ c ≤ 'f') ∨ ('A' ≤ c ∧ c ≤ 'F')

/-- The inside of a string. -/
inductive Body : List Char → Prop
  | nil : Body []
  /-- any character but control characters, the quote and the backslash -/
  | char {c l} : ' ' ≤ c → c ≠ '"' → c ≠ '\\' → Body l → Body (c :: l)
  | escape {c l} : c ∈ ['"', '\\', '/', 'b', 'f', 'n', 'r', 't'] → Body l → Body ('\\' :: c :: l)
  | unicode {a b c d l} : Hex a → Hex b → Hex c → Hex d → Body l → Body ('\\' :: 'u' :: a :: b :: c :: d :: l)

/-- A string, and white space; it means `x`. -/
def Str (J : Fns F) (w : List Char) (x : String) : Prop :=
  ∃ t b, w = '"' :: (t ++ '"' :: b) ∧ Body t ∧ t ≠ [] ∧ Ws b ∧ J.unescape (String.ofList t) = .ok x

/-- The words, separated by commas. -/
inductive Commas : List (List Char) → List Char → Prop
  | none : Commas [] []
  | one {w} : Commas [w] w
  | more {w c w' ws r} : Mark ',' c → Commas (w' :: ws) r → Commas (w :: w' :: ws) (w ++ (c ++ r))

/-- An item of an object: the text of the key, of the colon and of the value; and what they mean. -/
structure Item (F : Type) where
  key : List Char
  colon : List Char
  rest : List Char
  name : String
  value : V F

def Item.text (x : Item F) : List Char := x.key ++ (x.colon ++ x.rest)

/-- `Denotes J w v`: the text `w` is a JSON text of the value `v`, with white space after it. If a key occurs several
times in an object, the last value counts (`pyDict`, see C75). -/
inductive Denotes (J : Fns F) : List Char → V F → Prop
  | int {t b i} : Integer t → J.int (String.ofList t) = .ok i → Ws b → Denotes J (t ++ b) (.int i)
  | float {t b x} : Number t → J.float (String.ofList t) = .ok x → Ws b → Denotes J (t ++ b) (.float x)
  | true {b} : Ws b → Denotes J ('t' :: 'r' :: 'u' :: 'e' :: b) (.bool true)
  | false {b} : Ws b → Denotes J ('f' :: 'a' :: 'l' :: 's' :: 'e' :: b) (.bool false)
  | null {b} : Ws b → Denotes J ('n' :: 'u' :: 'l' :: 'l' :: b) .null
  | str {w x} : Str J w x → Denotes J w (.str x)
  | list {l r w} {items : List (List Char × V F)} : Mark '[' l → (∀ x ∈ items, Denotes J x.1 x.2) →
      Commas (items.map (·.1)) w → Mark ']' r → Denotes J (l ++ (w ++ r)) (.list (items.map (·.2)))
  | dict {l r w} {items : List (Item F)} : Mark '{' l →
      (∀ x ∈ items, Str J x.key x.name ∧ Mark ':' x.colon) → (∀ x ∈ items, Denotes J x.rest x.value) →
      Commas (items.map Item.text) w → Mark '}' r →
      Denotes J (l ++ (w ++ r)) (.dict (pyDict (items.map fun x => (x.name, x.value))))

/-- White space, and a JSON text. -/
def Text (J : Fns F) (s : List Char) (v : V F) : Prop := ∃ b w, s = b ++ w ∧ Ws b ∧ Denotes J w v

end Reparsec.JsonText
