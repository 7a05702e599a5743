import Verif.Cache.View
/-!
# Source predicates (`pkg/predicate`)

Events are those of an informer: `CEv` of the view cache model. JSON texts are represented by the values they denote.
-/
set_option autoImplicit false
namespace Dctl

/-- `predicate.go:67-78` `Predicate`, `BasicPredicate`, `BoolPredicate`: two pointers, of which one, both or none may be set. A map is the list of its
entries in key order. A nil slice and an empty one are not told apart, nor a nil map and an empty one. -/
inductive Pred where
  | basic (s : String)
  | bool (m : List (String × List Pred))
  | both (s : String) (m : List (String × List Pred))
  | empty

/-- Predicates of controller-runtime (`predicate.go:131-137,161-169`, and those for label selectors and namespaces, `predicate.go:50-59`): library code,
modelled by its documentation. The matching of a label selector is any predicate on label sets. -/
inductive RPred where
  | generation
  | resourceVersion
  | label
  | annotation
  | labels (f : SMap String → Bool)
  | inNamespace (ns : String)
  | and (l : List RPred)
  | or (l : List RPred)
  | not (p : RPred)

/-- `GetGeneration` of an unstructured object (used by `GenerationChangedPredicate`, `predicate.go:131`): 0 unless an integer is there. -/
def objGeneration (o : Obj) : Int :=
  match nested o ["metadata", "generation"] with
  | some (.int i) => i
  | _ => 0

/-- `UpdateEvent` of the elementary predicates (`predicate.go:129-140`) and of `NewPredicateFuncs` (`predicate.go:55-59`): the latter look at the new
object. -/
def RPred.evalObj (f : Obj → Bool) : CEv → Bool
  | .add o => f o
  | .update _ o => f o
  | .delete o => f o

/-- The elementary predicates embed `Funcs{}` (`predicate.go:129-140`): they only restrict updates. -/
def RPred.evalUpd (f : Obj → Obj → Bool) : CEv → Bool
  | .update a b => f a b
  | _ => true

mutual
/-- The `Create`, `Update` and `Delete` methods of a controller-runtime predicate (`predicate.go:86-94`). Labels and annotations are compared with
`maps.Equal`, for which a nil map and an empty one are the same. -/
def RPred.eval (e : CEv) : RPred → Bool
  | .generation => RPred.evalUpd (fun a b => !(objGeneration b == objGeneration a)) e
  | .resourceVersion => RPred.evalUpd (fun a b => !(nestedString b ["metadata", "resourceVersion"] == nestedString a ["metadata", "resourceVersion"])) e
  | .label => RPred.evalUpd (fun a b => !((getStrings b "labels").getD [] == (getStrings a "labels").getD [])) e
  | .annotation => RPred.evalUpd (fun a b => !((getStrings b "annotations").getD [] == (getStrings a "annotations").getD [])) e
  | .labels f => RPred.evalObj (fun o => f ((getStrings o "labels").getD [])) e
  | .inNamespace ns => RPred.evalObj (fun o => (objKey o).1 == ns) e
  | .and l => RPred.evalAll e l
  | .or l => RPred.evalAny e l
  | .not p => !(RPred.eval e p)
termination_by structural p => p
/-- `predicate.And` (`predicate.go:163`): stop at the first that fails. -/
def RPred.evalAll (e : CEv) : List RPred → Bool
  | [] => true
  | p :: l => if RPred.eval e p then RPred.evalAll e l else false
/-- `predicate.Or` (`predicate.go:165`): stop at the first that holds. -/
def RPred.evalAny (e : CEv) : List RPred → Bool
  | [] => false
  | p :: l => if RPred.eval e p then true else RPred.evalAny e l
end

/-- `predicate.go:129-142` `BasicPredicate.ToPredicate`. -/
def basicRuntime (s : String) : Option RPred :=
  if s = "GenerationChanged" then some .generation
  else if s = "ResourceVersionChanged" then some .resourceVersion
  else if s = "LabelChanged" then some .label
  else if s = "AnnotationChanged" then some .annotation
  else none

/-- `predicate.go:161-173`: the switch over the operation of a bool predicate. -/
def boolRuntime (k : String) (ps : List RPred) : Option RPred :=
  if k = "And" then some (.and ps)
  else if k = "Or" then some (.or ps)
  else if k = "Not" then
    match ps with
    | [p] => some (.not p)
    | _ => none
  else none

mutual
/-- `predicate.go:86-94` `Predicate.ToPredicate`; `none` is an error. -/
def Pred.toRuntime : Pred → Option RPred
  | .basic s => basicRuntime s
  | .both s _ => basicRuntime s
  | .bool m => Pred.toRuntimeM m
  | .empty => none
termination_by structural p => p
/-- `predicate.go:145-176` `BoolPredicate.ToPredicate`: exactly one operation. -/
def Pred.toRuntimeM : List (String × List Pred) → Option RPred
  | [] => none
  | (k, v) :: m =>
    match m with
    | [] =>
      match Pred.toRuntimeL v with
      | some ps => boolRuntime k ps
      | none => none
    | _ :: _ => none
/-- `predicate.go:151-158`: the arguments. -/
def Pred.toRuntimeL : List Pred → Option (List RPred)
  | [] => some []
  | p :: l =>
    match Pred.toRuntime p with
    | none => none
    | some r =>
      match Pred.toRuntimeL l with
      | none => none
      | some rs => some (r :: rs)
end

mutual
/-- `predicate.go:97-105` `MarshalJSON`; `none` is an error. -/
def Pred.marshal : Pred → Option Json
  | .basic s => some (.str s)
  | .both s _ => some (.str s)
  | .bool m =>
    match Pred.marshalM m with
    | some x => some (.map x)
    | none => none
  | .empty => none
termination_by structural p => p
/-- `predicate.go:102`: the map of a bool predicate. -/
def Pred.marshalM : List (String × List Pred) → Option (SMap Json)
  | [] => some []
  | (k, v) :: m =>
    match Pred.marshalL v with
    | none => none
    | some x =>
      match Pred.marshalM m with
      | none => none
      | some xs => some ((k, .list x) :: xs)
/-- `predicate.go:102`: the arguments. -/
def Pred.marshalL : List Pred → Option (List Json)
  | [] => some []
  | p :: l =>
    match Pred.marshal p with
    | none => none
    | some x =>
      match Pred.marshalL l with
      | none => none
      | some xs => some (x :: xs)
end

mutual
/-- `predicate.go:108-126` `UnmarshalJSON`: first as a string, then as a map. A null leaves the string empty and is no error. -/
def Pred.unmarshal : Json → Option Pred
  | .str s => some (.basic s)
  | .null => some (.basic "")
  | .map m =>
    match Pred.unmarshalM m with
    | some x => some (.bool x)
    | none => none
  | .bool _ => none
  | .int _ => none
  | .float _ => none
  | .list _ => none
termination_by structural j => j
/-- `predicate.go:118-119`: decoding `map[string][]Predicate`; every value is a list or null. -/
def Pred.unmarshalM : List (String × Json) → Option (List (String × List Pred))
  | [] => some []
  | (k, j) :: m =>
    match Pred.unmarshalV j with
    | none => none
    | some x =>
      match Pred.unmarshalM m with
      | none => none
      | some xs => some ((k, x) :: xs)
/-- `predicate.go:118-119`: decoding `[]Predicate`. -/
def Pred.unmarshalV : Json → Option (List Pred)
  | .list l => Pred.unmarshalL l
  | .null => some []
  | .map _ => none
  | .bool _ => none
  | .int _ => none
  | .float _ => none
  | .str _ => none
/-- `predicate.go:118-119`: the elements. -/
def Pred.unmarshalL : List Json → Option (List Pred)
  | [] => some []
  | j :: l =>
    match Pred.unmarshal j with
    | none => none
    | some x =>
      match Pred.unmarshalL l with
      | none => none
      | some xs => some (x :: xs)
end

/-- `deepcopy.go:6-26` `DeepCopy`: through JSON; an error leaves the copy empty. -/
def Pred.deepCopy (p : Pred) : Pred :=
  match p.marshal with
  | none => .empty
  | some j =>
    match Pred.unmarshal j with
    | none => .empty
    | some q => q

end Dctl
