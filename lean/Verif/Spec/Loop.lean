import Verif.Operator.Loop
import Verif.Spec.Live
import Verif.Spec.Pipeline
/-!
# Specification: an operator that has settled

Small definitions used in theorem statements only.
-/
set_option autoImplicit false
namespace Dctl
variable {D J : Type} [DecidableEq D] [DecidableEq J]

/-- `ins` are the sets of the objects of the sources that are in the store, without view UIDs. -/
def StoreInputs (O : ObjOps D) (S : GVK → Target D) (sources : List GVK) (ins : List (ZSet D)) : Prop :=
  ins.length = sources.length ∧
  ∀ (i : Nat) g, sources[i]? = some g → ∃ z, ins[i]? = some z ∧ ZSet.WF z ∧
    ∀ d, ((∃ k y, S g k = some y ∧ O.removeUID y = d) → ZSet.get z d = 1) ∧ ((¬ ∃ k y, S g k = some y ∧ O.removeUID y = d) → ZSet.get z d = 0)

/-- The store holds exactly images of the objects made from the documents of `o`. -/
def HoldsImages (O : ObjOps D) (Img : D → D → Prop) (t : GVK) (o : ZSet D) (T : Target D) : Prop :=
  (∀ k y, T k = some y → ∃ d x, 0 < ZSet.get o d ∧ O.enforce t d = .ok x ∧ O.key x = k ∧ Img x y) ∧
  ∀ d x, 0 < ZSet.get o d → O.enforce t d = .ok x → ∃ y, T (O.key x) = some y ∧ Img x y

/-- How objects are stored: `put` gives the stored object, from the one that is there and the one that is written; it has the same kind and name, and is an image of the
one that is written if the one that is there is an image. -/
structure Storing (O : ObjOps D) (put : Option D → D → D) (t : GVK) (Img : D → D → Prop) : Prop where
  put : ∀ o x, O.enforce t x = .ok x → (∀ y, o = some y → ∃ x', Img x' y) → O.gvk (put o x) = t ∧ O.key (put o x) = O.key x ∧ Img x (put o x)

/-- Nothing to do for a controller: no events to evaluate and no writes to send. -/
def Station.Idle (s : Station D J) : Prop := (∀ g ∈ s.pipe.sources, s.pending g = []) ∧ s.out = []

/-- Users do not write the kinds `ts`, and iteration orders are valid. -/
def LoopAct.Allowed (O : ObjOps D) (ts : List GVK) : LoopAct D → Prop
  | .user w => O.gvk w.obj ∉ ts
  | .work _ _ ω => ω.Valid
  | .send _ _ => True

/-- Something a controller does. -/
def LoopAct.Own : LoopAct D → Prop
  | .user _ => False
  | .work _ _ ω => ω.Valid
  | .send _ _ => True

end Dctl
