import Verif.Model.Json

/-!
# JSON values as token sequences

Specification for C75: no parser, no positions.
-/

namespace Reparsec.Json

variable {F : Type}

/-- The token is this punctuation mark. -/
def Punct (x : String) (t : Token) : Prop := t.kind = "punct" ∧ t.value = x

/-- The words, separated by commas. -/
inductive Commas : List (List Token) → List Token → Prop
  | none : Commas [] []
  | one {w} : Commas [w] w
  | more {w c w' ws r} : Punct "," c → Commas (w' :: ws) r → Commas (w :: w' :: ws) (w ++ c :: r)

/-- An item of an object: the tokens of the key and of the colon, the tokens of the value; and what they mean. -/
structure Item (F : Type) where
  key : Token
  colon : Token
  rest : List Token
  name : String
  value : V F

def Item.tokens (x : Item F) : List Token := x.key :: x.colon :: x.rest

/-- A key. -/
def Key (J : Fns F) (t : Token) (name : String) : Prop := t.kind = "string" ∧ J.unescape t.value = .ok name

/-- `Denotes J w v`: the tokens `w` are the JSON text of the value `v`. If a key occurs several times in an
object, the last value counts (`pyDict`). -/
inductive Denotes (J : Fns F) : List Token → V F → Prop
  | int {t i} : t.kind = "integer" → J.int t.value = .ok i → Denotes J [t] (.int i)
  | float {t x} : t.kind = "float" → J.float t.value = .ok x → Denotes J [t] (.float x)
  | bool {t} : t.kind = "bool" → Denotes J [t] (.bool (t.value == "true"))
  | null {t} : t.kind = "null" → Denotes J [t] .null
  | str {t s} : t.kind = "string" → J.unescape t.value = .ok s → Denotes J [t] (.str s)
  | list {l r w} {items : List (List Token × V F)} : Punct "[" l → (∀ x ∈ items, Denotes J x.1 x.2) →
      Commas (items.map (·.1)) w → Punct "]" r → Denotes J (l :: (w ++ [r])) (.list (items.map (·.2)))
  | dict {l r w} {items : List (Item F)} : Punct "{" l →
      (∀ x ∈ items, Key J x.key x.name ∧ Punct ":" x.colon) → (∀ x ∈ items, Denotes J x.rest x.value) →
      Commas (items.map Item.tokens) w → Punct "}" r →
      Denotes J (l :: (w ++ [r])) (.dict (pyDict (items.map fun x => (x.name, x.value))))

/-- What Python's `dict(kvs)` is: the keys are those of `kvs`, each once, in the order in which they occur for the first
time; the value of a key is the last one given for it. -/
def IsDict {β : Type} (kvs d : List (String × β)) : Prop :=
  d.map (·.1) = (kvs.map (·.1)).eraseDups ∧ (d.map (·.1)).Nodup ∧ ∀ k v, (k, v) ∈ d ↔ ∃ a b, kvs = a ++ (k, v) :: b ∧ ∀ v', (k, v') ∉ b

end Reparsec.Json
