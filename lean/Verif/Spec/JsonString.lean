import Verif.Spec.JsonText
import Verif.Model.JsonString

/-!
# JSON strings, numbers, and `json.dumps`

Specification for C88 and C89: what the inside of a JSON string stands for, what a numeral stands for, and the text that
Python's `json.dumps` makes of a value.
-/

namespace Reparsec.JsonText

open Json

/-- The escapes of one character: the character after the backslash, and the code point. -/
inductive Short : Char → Nat → Prop
  | quote : Short '"' 34
  | backslash : Short '\\' 92
  | slash : Short '/' 47
  | backspace : Short 'b' 8
  | formFeed : Short 'f' 12
  | lineFeed : Short 'n' 10
  | carriageReturn : Short 'r' 13
  | tab : Short 't' 9

/-- A hexadecimal digit and its value. -/
inductive HexDigit : Char → Nat → Prop
  | digit (k : Fin 10) : HexDigit (Char.ofNat ('0'.toNat + k)) k
  | lower (k : Fin 6) : HexDigit (Char.ofNat ('a'.toNat + k)) (10 + k)
  | upper (k : Fin 6) : HexDigit (Char.ofNat ('A'.toNat + k)) (10 + k)

/-- Four hexadecimal digits and their value. -/
def Hex4 (a b c d : Char) (n : Nat) : Prop :=
  ∃ x y z u, HexDigit a x ∧ HexDigit b y ∧ HexDigit c z ∧ HexDigit d u ∧ n = 4096 * x + 256 * y + 16 * z + u

/-- An escape begins here. -/
def Escape (w : List Char) : Prop :=
  (∃ c n l, w = '\\' :: c :: l ∧ Short c n) ∨ ∃ a b c d n l, w = '\\' :: 'u' :: a :: b :: c :: d :: l ∧ Hex4 a b c d n

/-- `w`, with its escapes, stands for these code points. -/
inductive Spells : List Char → List Nat → Prop
  | nil : Spells [] []
  | short {c n l x} : Short c n → Spells l x → Spells ('\\' :: c :: l) (n :: x)
  | unicode {a b c d n l x} : Hex4 a b c d n → Spells l x → Spells ('\\' :: 'u' :: a :: b :: c :: d :: l) (n :: x)
  | other {c l x} : ¬ Escape (c :: l) → Spells l x → Spells (c :: l) (c.toNat :: x)

/-- The code points of a string. -/
def codes (s : String) : List Nat := s.toList.map Char.toNat

/-- The numeral `w` stands for `n`. -/
inductive Decimal : List Char → Nat → Prop
  | digit (k : Fin 10) : Decimal [Char.ofNat ('0'.toNat + k)] k
  | more {w n} (k : Fin 10) : Decimal w n → Decimal (w ++ [Char.ofNat ('0'.toNat + k)]) (10 * n + k)

/-- The numeral `w`, with an optional minus sign, stands for `i`. -/
def DecimalInt (w : List Char) (i : Int) : Prop :=
  (∃ n : Nat, Decimal w n ∧ i = n) ∨ ∃ u n, w = '-' :: u ∧ Decimal u n ∧ i = -(n : Int)

/-! ### `json.dumps` -/

/-- A hexadecimal digit, as `'%x'` writes it. -/
def hexChar (n : Nat) : Char := Char.ofNat (if n < 10 then '0'.toNat + n else 'a'.toNat + (n - 10))

/-- `'\\u%04x'` -/
def uEscape (n : Nat) : List Char :=
  ['\\', 'u', hexChar (n / 4096 % 16), hexChar (n / 256 % 16), hexChar (n / 16 % 16), hexChar (n % 16)]

/-- What `json.dumps` writes for a character of a string. -/
def dumpChar (ensureAscii : Bool) (c : Char) : List Char :=
  if c = '"' then ['\\', '"'] else if c = '\\' then ['\\', '\\'] else if c = '\n' then ['\\', 'n']
  else if c = '\r' then ['\\', 'r'] else if c = '\t' then ['\\', 't']
  else if c.toNat = 8 then ['\\', 'b'] else if c.toNat = 12 then ['\\', 'f']
  else if c.toNat < 32 then uEscape c.toNat
  else if ensureAscii = true ∧ 126 < c.toNat then
    if c.toNat < 65536 then uEscape c.toNat
    else uEscape (0xD800 + (c.toNat - 65536) / 1024) ++ uEscape (0xDC00 + (c.toNat - 65536) % 1024)
  else [c]

def dumpStr (ensureAscii : Bool) (s : String) : List Char := '"' :: (s.toList.flatMap (dumpChar ensureAscii) ++ ['"'])

/-- The options of `json.dumps`: `ensure_ascii`, `indent` (as a string), what is written between items and between a
key and its value, and `float.__repr__`. -/
structure Dumps (F : Type) where
  ensureAscii : Bool
  indent : Option (List Char)
  itemSep : List Char
  keySep : List Char
  repr : F → List Char

variable {F : Type}

/-- The line break and indentation at the given depth, if there is indentation at all. -/
def Dumps.line (o : Dumps F) (depth : Nat) : List Char :=
  match o.indent with
  | none => []
  | some x => '\n' :: (List.replicate depth x).flatten

/-- The items of a list or an object, between its brackets. -/
def Dumps.items (o : Dumps F) (depth : Nat) (l r : Char) (xs : List (List Char)) : List Char :=
  if xs = [] then [l, r]
  else l :: (o.line (depth + 1) ++ (List.intercalate (o.itemSep ++ o.line (depth + 1)) xs ++ (o.line depth ++ [r])))

mutual

/-- `json.dumps(v, ..)`, inside `depth` lists and objects. -/
def Dumps.dump (o : Dumps F) (depth : Nat) : V F → List Char
  | .null => ['n', 'u', 'l', 'l']
  | .bool true => ['t', 'r', 'u', 'e']
  | .bool false => ['f', 'a', 'l', 's', 'e']
  | .int i => (toString i).toList
  | .float x => o.repr x
  | .str s => dumpStr o.ensureAscii s
  | .list vs => o.items depth '[' ']' (o.dumpList (depth + 1) vs)
  | .dict kvs => o.items depth '{' '}' (o.dumpDict (depth + 1) kvs)

def Dumps.dumpList (o : Dumps F) (depth : Nat) : List (V F) → List (List Char)
  | [] => []
  | v :: vs => o.dump depth v :: o.dumpList depth vs

def Dumps.dumpDict (o : Dumps F) (depth : Nat) : List (String × V F) → List (List Char)
  | [] => []
  | (k, v) :: kvs => (dumpStr o.ensureAscii k ++ (o.keySep ++ o.dump depth v)) :: o.dumpDict depth kvs

end

/-- `json.dumps` with these options writes JSON, with `float` reading the floats it writes: the separators are a comma and
a colon with white space around them, the indentation is white space. -/
structure Dumps.OK (o : Dumps F) (float : String → Except Exn F) : Prop where
  itemSep : ∃ a b, o.itemSep = a ++ ',' :: b ∧ Ws a ∧ Ws b
  keySep : ∃ a b, o.keySep = a ++ ':' :: b ∧ Ws a ∧ Ws b
  indent : ∀ x, o.indent = some x → Ws x
  repr : ∀ x, Number (o.repr x) ∧ float (String.ofList (o.repr x)) = .ok x

/-- Strings that survive: not empty, and without characters beyond the basic plane if those are written as surrogate
pairs. -/
def Dumps.Safe (o : Dumps F) (s : String) : Prop :=
  s ≠ "" ∧ (o.ensureAscii = true → ∀ c ∈ s.toList, c.toNat < 65536)

/-- All strings in the value are safe; and the keys of each object differ, as those of a Python `dict` do. -/
inductive Dumps.Plain (o : Dumps F) : V F → Prop
  | null : o.Plain .null
  | bool (b) : o.Plain (.bool b)
  | int (i) : o.Plain (.int i)
  | float (x) : o.Plain (.float x)
  | str {s} : o.Safe s → o.Plain (.str s)
  | list {vs} : (∀ v ∈ vs, o.Plain v) → o.Plain (.list vs)
  | dict {kvs} : (∀ kv ∈ kvs, o.Safe kv.1) → (∀ kv ∈ kvs, o.Plain kv.2) → (kvs.map (·.1)).Nodup → o.Plain (.dict kvs)

end Reparsec.JsonText
