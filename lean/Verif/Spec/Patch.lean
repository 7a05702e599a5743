import Verif.Json.Basic
/-!
# Specification: paths of a patch

Small definitions used in theorem statements only. A path is a list of field names; `Json.at` follows it through maps.
-/
set_option autoImplicit false
namespace Dctl

/-- A scalar. -/
def Json.Scalar : Json → Prop
  | .bool _ | .int _ | .float _ | .str _ => True
  | _ => False

/-- A patch mentions a path if following the path inside the patch never misses a field. Where the patch has something else than a map it
mentions all that is below. -/
def Json.Mentions (m : Json) : List String → Prop
  | [] => True
  | k :: p =>
    match m with
    | .map mm =>
      match SMap.get mm k with
      | none => False
      | some v => v.Mentions p
    | _ => True

/-- The fields that identify an object: a target never loses them. -/
def protectedPaths : List (List String) := [["apiVersion"], ["kind"], ["metadata", "name"], ["metadata", "namespace"]]

/-- A path to a field other than the identifying ones: neither the whole object, nor its `metadata`, nor at or below an identifying field. -/
def FreePath (p : List String) : Prop := p ≠ [] ∧ p ≠ ["metadata"] ∧ ∀ q ∈ protectedPaths, ¬ q <+: p

instance (p : List String) : Decidable (FreePath p) := by unfold FreePath; infer_instance

mutual
/-- No null anywhere. -/
def Json.NullFree : Json → Prop
  | .null => False
  | .list l => Json.NullFreeL l
  | .map m => Json.NullFreeM m
  | _ => True
/-- For lists. -/
def Json.NullFreeL : List Json → Prop
  | [] => True
  | x :: l => x.NullFree ∧ Json.NullFreeL l
/-- For maps. -/
def Json.NullFreeM : List (String × Json) → Prop
  | [] => True
  | (_, x) :: m => x.NullFree ∧ Json.NullFreeM m
end

end Dctl
