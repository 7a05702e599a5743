import Verif.Spec.Expr
/-!
# Specifications for literals, conversions and utility operators

What `doc/reference-expression.md` says about them, in terms of JSON values alone.
-/
set_option autoImplicit false
namespace Dctl

/-- A string without a special meaning: not empty, no path and not the current time. -/
def PlainText (s : String) : Prop := s ≠ "" ∧ s ≠ "@now" ∧ s.toList.head? ≠ some '$'

mutual
/-- The values that stand for themselves. Left out are null, the empty string, integers of more than 64 bits, strings with a special meaning, lists
that begin with a list, maps with a key that is empty or starts with a dollar, and maps with a single key that starts with `@`. -/
def Json.Literal : Json → Prop
  | .null => False
  | .bool _ => True
  | .int i => -9223372036854775808 ≤ i ∧ i ≤ 9223372036854775807
  | .float _ => True
  | .str s => PlainText s
  | .list l => (∀ l', l.head? ≠ some (.list l')) ∧ Json.LiteralL l
  | .map m => (∀ k v, m = [(k, v)] → k.toList.head? ≠ some '@') ∧ Json.LiteralM m
termination_by structural j => j
/-- All elements stand for themselves. -/
def Json.LiteralL : List Json → Prop
  | [] => True
  | j :: l => j.Literal ∧ Json.LiteralL l
/-- All values stand for themselves, and all keys are names. -/
def Json.LiteralM : List (String × Json) → Prop
  | [] => True
  | (k, j) :: m => (k ≠ "" ∧ k.toList.head? ≠ some '$') ∧ j.Literal ∧ Json.LiteralM m
end

mutual
/-- There is no empty string in the value, and no map with the empty string as its only key. -/
def Json.NoEmpty : Json → Prop
  | .str s => s ≠ ""
  | .list l => Json.NoEmptyL l
  | .map m => (∀ v, m ≠ [("", v)]) ∧ Json.NoEmptyM m
  | _ => True
termination_by structural j => j
/-- No empty strings in the elements. -/
def Json.NoEmptyL : List Json → Prop
  | [] => True
  | j :: l => j.NoEmpty ∧ Json.NoEmptyL l
/-- No empty strings in the values. -/
def Json.NoEmptyM : List (String × Json) → Prop
  | [] => True
  | (_, j) :: m => j.NoEmpty ∧ Json.NoEmptyM m
end

/-- The number that decimal digits denote. -/
def decimal (ds : List Char) : Nat := ds.foldl (fun n c => 10 * n + (c.toNat - 48)) 0

/-- The text is a decimal numeral for the number: digits, maybe after a sign. -/
def Numeral (s : String) (i : Int) : Prop :=
  ∃ ds : List Char, ds ≠ [] ∧ (∀ c ∈ ds, '0' ≤ c ∧ c ≤ '9') ∧
    ((s.toList = '-' :: ds ∧ i = -(decimal ds : Int)) ∨ ((s.toList = ds ∨ s.toList = '+' :: ds) ∧ i = (decimal ds : Int)))

/-- What is documented for `rand.Intn`: a number below the bound. -/
def RandOk (env : Env) : Prop := ∀ n, 0 < n → 0 ≤ env.intn n ∧ env.intn n < n

end Dctl
