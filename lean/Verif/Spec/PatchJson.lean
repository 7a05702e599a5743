import Verif.Spec.PatchLoop
import Verif.Spec.ConfigDep
/-!
# Specification: patches of one field, and the configmap-deployment operator at work

Small definitions used in theorem statements only.
-/
set_option autoImplicit false
namespace Dctl

/-- What is at the path; null counts as nothing. -/
def fieldAt (p : List String) (d : CDoc) : Option Json :=
  match nested d.1 p with
  | none => none
  | some v => if v = .null then none else some v

/-- A patch that sets the field at the path to a number, a string or a Boolean, and mentions nothing besides and the name. -/
def PatchesField (p : List String) (x : CDoc) : Prop :=
  (∃ v, nested x.1 p = some v ∧ v.Scalar) ∧ ∀ q, FreePath q → Disjoint q p → ¬ (Json.map x.1).Mentions q

/-- Two objects have the same kind and name, and are the same outside of the path. -/
def SameBut (p : List String) (b y : CDoc) : Prop :=
  objGVK y.1 = objGVK b.1 ∧ nested y.1 namePath = nested b.1 namePath ∧ nested y.1 nsPath = nested b.1 nsPath ∧
    ∀ q, FreePath q → Disjoint q p → nested y.1 q = nested b.1 q

/-- The objects have a namespace, as all objects of such kinds have. -/
def Namespaced (d : CDoc) : Prop := ∃ ns, ns ≠ "" ∧ nested d.1 nsPath = some (.str ns)

/-- The objects that users write: with a proper name, in a namespace, with ordinary fields; ConfigMaps have a version. -/
def ConfigDepGood (d : CDoc) : Prop :=
  ConfigDepOk d ∧ Namespaced d ∧ (objGVK d.1 = configMapK → ∃ v, nested d.1 rvPath = some v ∧ v.Scalar)

/-- At no time two ConfigDeployment objects name the same Deployment. -/
def NamedOnce (g : GVK) (h : List (Delta CDoc)) : Prop :=
  g = configDepK → ∀ pre, pre <+: h → ∀ cd cd', LiveObj pre configDepK cd → LiveObj pre configDepK cd' → Agree cd refDepPath cd' refDepPath → Agree cd nsPath cd' nsPath → cd = cd'

/-- The ConfigDeployment object `cd` in the store links the ConfigMap `cm` in the store to `dep`. -/
def LinkedIn (S : GVK → Target CDoc) (cm dep cd : CDoc) : Prop :=
  (∃ k, S configMapK k = some cm) ∧ (∃ k, S configDepK k = some cd) ∧ Linked cm dep cd

end Dctl
