import Verif.Spec.JsonPipeline
import Verif.Operator.Pipeline
import Verif.Spec.Live
/-!
# Specification: the results of selections, projections and unwinds on one document
-/
set_option autoImplicit false
namespace Dctl

/-- The path of the namespace of an object. -/
abbrev nsPath : List String := ["metadata", "namespace"]

/-- The document has a name, which is a string. -/
def Named (d : CDoc) : Prop := ∃ n, nested d.1 namePath = some (.str n)

/-- `c` is a result of the operations for the document `d`. -/
inductive Results (env : Env) : List SpecOp → CDoc → CDoc → Prop
  | nil (d : CDoc) : Results env [] d d
  | select {e : Expr} {ops : List SpecOp} {d c : CDoc} : CondTrue env e d → Results env ops d c → Results env (.select e :: ops) d c
  | project {e : Expr} {ops : List SpecOp} {d m c : CDoc} : Projects env e d m → Results env ops m c → Results env (.project e :: ops) d c
  | unwind {path : List String} {i : Nat} {ops : List SpecOp} {d m c : CDoc} : Words path → UnwindsTo path i d m → Results env ops m c →
      Results env (.unwind (strE (pathString path)) :: ops) d c

/-- An unwind of a field other than the name. -/
def UnwindsField (e : Expr) : Prop := ∃ k p, e = strE (pathString (k :: p)) ∧ Words (k :: p) ∧ Disjoint (k :: p) namePath

/-- Only selections, projections and unwinds of fields, where the documents that are unwound have a name: either they have it from the beginning (`named`) or
a projection makes one. -/
def RowSpec (env : Env) : Bool → List SpecOp → Prop
  | _, [] => True
  | named, .select _ :: ops => RowSpec env named ops
  | named, .project e :: ops =>
    RowSpec env false ops ∨ ((∀ d c, (named = true → Named d) → Projects env e d c → Named c) ∧ RowSpec env true ops)
  | named, .unwind e :: ops => named = true ∧ UnwindsField e ∧ RowSpec env true ops
  | _, .join _ :: _ => False
  | _, .gather _ :: _ => False

/-- The projection keeps name and namespace of the documents that have a name. -/
def KeepsName (env : Env) (e : Expr) : Prop :=
  ∀ d c, Named d → Projects env e d c → nested c.1 namePath = nested d.1 namePath ∧ nested c.1 nsPath = nested d.1 nsPath

/-- An operation after which the name tells where a document comes from. -/
def NameSafe (env : Env) : SpecOp → Prop
  | .select _ => True
  | .project e => KeepsName env e
  | .unwind e => ∃ k p, e = strE (pathString (k :: p)) ∧ Words (k :: p) ∧ Disjoint (k :: p) namePath ∧ Disjoint (k :: p) nsPath
  | .join _ => False
  | .gather _ => False

/-- The document has a nonempty name, and a namespace that is a string, if any: true of every object of an API server. -/
def ProperName (d : CDoc) : Prop :=
  (∃ n, nested d.1 namePath = some (.str n) ∧ n ≠ "") ∧ ∀ v, nested d.1 nsPath = some v → ∃ ns, v = .str ns

/-- All operations succeed on the document and on what the ones before make of it: conditions are true or false, projections make a document, and an unwound path
holds a list or nothing. -/
def Evaluates (env : Env) : List SpecOp → CDoc → Prop
  | [], _ => True
  | .select e :: ops, d => (CondTrue env e d ∧ Evaluates env ops d) ∨ CondFalse env e d
  | .project e :: ops, d => ∃ c, Projects env e d c ∧ Evaluates env ops c
  | .unwind e :: ops, d => ∃ path, e = strE (pathString path) ∧ Words path ∧
      ((nested d.1 path).getD .null = .null ∨ ∃ l, nested d.1 path = some (.list l)) ∧ ∀ i c, UnwindsTo path i d c → Evaluates env ops c
  | .join _ :: _, _ => False
  | .gather _ :: _, _ => False

/-- The live objects of kind `g`. -/
def LiveObj (hist : List (Delta CDoc)) (g : GVK) (d : CDoc) : Prop := objGVK d.1 = g ∧ LiveAs jsonOps hist g (objKey d.1) d

/-- One live object of each source. -/
def LiveTuple (hist : List (Delta CDoc)) (sources : List GVK) (ds : List CDoc) : Prop :=
  ds.length = sources.length ∧ ∀ (i : Nat) s d, sources[i]? = some s → ds[i]? = some d → LiveObj hist s d

/-- `c` is a result of the join with condition `e` and the operations after it, for the tuple `ds`. -/
def JoinResults (env : Env) (sources : List GVK) (e : Expr) (ops : List SpecOp) (ds : List CDoc) (c : CDoc) : Prop :=
  ∃ j, Combines (sources.map GVK.kind) ds j ∧ CondTrue env e j ∧ Results env ops j c

/-- Selection or projection. -/
def SpecOp.Plain : SpecOp → Prop
  | .select _ | .project _ => True
  | _ => False

end Dctl
