import Verif.Pipeline.New
import Verif.Spec.Live
/-!
# Specification: pipelines that are defined on a domain

A pipeline is defined on a set of documents if every operation succeeds on every document that can reach it.
-/
set_option autoImplicit false
namespace Dctl
variable {D J : Type}

/-- `v` is the value of a document in `P`. -/
def Gather.ValueOf (g : Gather D J) (P : D → Prop) (v : J) : Prop := ∃ x, P x ∧ g.val x = .ok (some v)

/-- The operation succeeds on the documents in `P`; a projection makes exactly one document. -/
def PipeOp.DefinedOn (P : D → Prop) : PipeOp D J → Prop
  | .select ev => ∀ x, P x → ∃ ds, ev x = .ok ds
  | .project ev => ∀ x, P x → ∃ y, ev x = .ok [y]
  | .unwind ex tr => ∀ x, P x → ∃ r, ex x = .ok r ∧ ∀ es, r = some es → ∀ e ∈ es, ∃ y, tr x e = .ok y
  | .gather g => (∀ x, P x → (∃ k, g.key x = .ok k) ∧ ∃ v, g.val x = .ok v) ∧
      ∀ x k vs, P x → g.key x = .ok (some k) → (∀ v ∈ vs, g.ValueOf P v) → ∃ y, g.agg x k (g.sort vs) = .ok y
  | .join _ => False

/-- The documents the operation can make of those in `P`. -/
def PipeOp.image (P : D → Prop) : PipeOp D J → D → Prop
  | .select ev => fun y => ∃ x ds, P x ∧ ev x = .ok ds ∧ y ∈ ds
  | .project ev => fun y => ∃ x, P x ∧ ev x = .ok [y]
  | .unwind ex tr => fun y => ∃ x es e, P x ∧ ex x = .ok (some es) ∧ e ∈ es ∧ tr x e = .ok y
  | .gather g => fun y => ∃ x k vs, P x ∧ g.key x = .ok (some k) ∧ (∀ v ∈ vs, g.ValueOf P v) ∧ g.agg x k (g.sort vs) = .ok y
  | .join _ => fun _ => False

/-- Every operation is defined on what the ones before it make. -/
def DefinedStages : List (PipeOp D J) → (D → Prop) → Prop
  | [], _ => True
  | p :: ps, P => p.DefinedOn P ∧ DefinedStages ps (p.image P)

/-- A tuple with one document of each set. -/
def TupleIn (Ps : List (D → Prop)) (ds : List D) : Prop :=
  ds.length = Ps.length ∧ ∀ (i : Nat) P d, Ps[i]? = some P → ds[i]? = some d → P d

/-- The pipeline is defined on inputs with documents in `Ps`, one set for each input. -/
def DefinedPipeline (cfg : List (PipeOp D J)) (Ps : List (D → Prop)) : Prop :=
  match cfg with
  | .join ev :: rest => (∀ ds, TupleIn Ps ds → ∃ r, ev ds = .ok r) ∧
      DefinedStages rest (fun y => ∃ ds r, TupleIn Ps ds ∧ ev ds = .ok r ∧ y ∈ r)
  | _ => ∀ P, Ps = [P] → DefinedStages cfg P

/-- The versions of objects of kind `g` in a history, without view UID. -/
def Versions [DecidableEq D] (O : ObjOps D) (hist : List (Delta D)) (g : GVK) (d : D) : Prop :=
  ∃ δ ∈ hist, O.gvk δ.obj = g ∧ O.removeUID δ.obj = d

end Dctl
