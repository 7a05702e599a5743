import Verif.Json.Basic
/-!
# Specification: equality of JSON values

Small definitions used in theorem statements only. A map is a list of entries in any order.
-/
set_option autoImplicit false
namespace Dctl

mutual
/-- Equality as JSON values: numbers by value, lists element by element, maps field by field in any order. -/
def Json.Same : Json → Json → Prop
  | .null, .null => True
  | .bool a, .bool b => a = b
  | .int a, .int b => a = b
  | .int a, .float b => (a : Rat) = b
  | .float a, .int b => a = (b : Rat)
  | .float a, .float b => a = b
  | .str a, .str b => a = b
  | .list a, .list b => Json.SameL a b
  | .map a, .map b => Json.SubM a b ∧ ∀ k, SMap.get a k = none → SMap.get b k = none
  | _, _ => False
/-- Element by element. -/
def Json.SameL : List Json → List Json → Prop
  | [], [] => True
  | x :: a, y :: b => x.Same y ∧ Json.SameL a b
  | _, _ => False
/-- Every field of the first map is a field of the second with the same value. -/
def Json.SubM : List (String × Json) → List (String × Json) → Prop
  | [], _ => True
  | (k, x) :: a, b => (∃ y, SMap.get b k = some y ∧ x.Same y) ∧ Json.SubM a b
end

mutual
/-- No map has a key twice, and all floats satisfy `E`. -/
def Json.Doc (E : Rat → Prop) : Json → Prop
  | .float f => E f
  | .list l => Json.DocL E l
  | .map m => (m.map Prod.fst).Nodup ∧ Json.DocM E m
  | _ => True
/-- For lists. -/
def Json.DocL (E : Rat → Prop) : List Json → Prop
  | [] => True
  | x :: l => x.Doc E ∧ Json.DocL E l
/-- For maps. -/
def Json.DocM (E : Rat → Prop) : List (String × Json) → Prop
  | [] => True
  | (_, x) :: m => x.Doc E ∧ Json.DocM E m
end

/-- What is assumed of the float formatter on the floats in `E`: the text is a nonempty sequence of number characters, different floats have
different texts, and the text is that of an integer exactly if the float is that integer. Go's shortest round-trip format has the
first two everywhere and the third up to 2^53 in size. -/
structure FloatText (E : Rat → Prop) (ft : Rat → List Char) : Prop where
  ne : ∀ q, E q → ft q ≠ []
  chars : ∀ q, E q → ∀ c ∈ ft q, c.isDigit ∨ c = '-' ∨ c = '+' ∨ c = '.' ∨ c = 'e'
  first : ∀ q, E q → ∀ c t, ft q = c :: t → c.isDigit ∨ c = '-'
  inj : ∀ p q, E p → E q → ft p = ft q → p = q
  int : ∀ q (i : Int), E q → (ft q = i.repr.toList ↔ q = (i : Rat))

end Dctl
