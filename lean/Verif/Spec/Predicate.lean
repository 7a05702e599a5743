import Verif.Reconciler.Predicate
/-!
# What a predicate means

Stated over the specification of a predicate only, without its translation to controller-runtime.
-/
set_option autoImplicit false
namespace Dctl

/-- The names of the elementary predicates. -/
def basicNames : List String := ["GenerationChanged", "ResourceVersionChanged", "LabelChanged", "AnnotationChanged"]

/-- An elementary predicate lets every create and delete pass, and the updates that change the named part of the object. Missing labels or
annotations count as empty ones. -/
def BasicHolds (s : String) : CEv → Prop
  | .update a b =>
    (s = "GenerationChanged" → objGeneration b ≠ objGeneration a) ∧
    (s = "ResourceVersionChanged" → nestedString b ["metadata", "resourceVersion"] ≠ nestedString a ["metadata", "resourceVersion"]) ∧
    (s = "LabelChanged" → (getStrings b "labels").getD [] ≠ (getStrings a "labels").getD []) ∧
    (s = "AnnotationChanged" → (getStrings b "annotations").getD [] ≠ (getStrings a "annotations").getD [])
  | _ => True

mutual
/-- The meaning of a predicate: the boolean combination of its parts. -/
def Pred.Holds (e : CEv) : Pred → Prop
  | .basic s => BasicHolds s e
  | .both s _ => BasicHolds s e
  | .bool m => Pred.HoldsM e m
  | .empty => False
termination_by structural p => p
/-- The entries of a boolean combination (there should be one). -/
def Pred.HoldsM (e : CEv) : List (String × List Pred) → Prop
  | [] => True
  | (k, v) :: m =>
    (k = "And" → Pred.HoldsAll e v) ∧ (k = "Or" → Pred.HoldsAny e v) ∧ (k = "Not" → ¬ Pred.HoldsAll e v) ∧ Pred.HoldsM e m
/-- All of them hold. -/
def Pred.HoldsAll (e : CEv) : List Pred → Prop
  | [] => True
  | p :: l => Pred.Holds e p ∧ Pred.HoldsAll e l
/-- One of them holds. -/
def Pred.HoldsAny (e : CEv) : List Pred → Prop
  | [] => False
  | p :: l => Pred.Holds e p ∨ Pred.HoldsAny e l
end

mutual
/-- Well-formed predicates: known names, one operation per combination, one argument of `Not`. -/
def Pred.Valid : Pred → Prop
  | .basic s => s ∈ basicNames
  | .both s _ => s ∈ basicNames
  | .bool m => m.length = 1 ∧ Pred.ValidM m
  | .empty => False
termination_by structural p => p
/-- The entries of a combination. -/
def Pred.ValidM : List (String × List Pred) → Prop
  | [] => True
  | (k, v) :: m => (k = "And" ∨ k = "Or" ∨ k = "Not" ∧ v.length = 1) ∧ Pred.ValidL v ∧ Pred.ValidM m
/-- The arguments. -/
def Pred.ValidL : List Pred → Prop
  | [] => True
  | p :: l => Pred.Valid p ∧ Pred.ValidL l
end

mutual
/-- Exactly one of the two pointers is set, everywhere in the predicate. -/
def Pred.Plain : Pred → Prop
  | .basic _ => True
  | .both _ _ => False
  | .bool m => Pred.PlainM m
  | .empty => False
termination_by structural p => p
/-- The entries of a combination. -/
def Pred.PlainM : List (String × List Pred) → Prop
  | [] => True
  | (_, v) :: m => Pred.PlainL v ∧ Pred.PlainM m
/-- The arguments. -/
def Pred.PlainL : List Pred → Prop
  | [] => True
  | p :: l => Pred.Plain p ∧ Pred.PlainL l
end

end Dctl
