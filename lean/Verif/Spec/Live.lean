import Verif.Pipeline.Adaptor
import Verif.Spec.Sum
/-!
# Specification: live objects of an event history

Small definitions used in theorem statements only.
-/
set_option autoImplicit false
namespace Dctl
variable {D : Type} [DecidableEq D]

/-- The event changes the object of kind `g` named `k`. -/
def Concerns (O : ObjOps D) (g : GVK) (k : ObjKey) (δ : Delta D) : Prop :=
  O.gvk δ.obj = g ∧ O.key δ.obj = k ∧ δ.type ≠ .sync

/-- The object of kind `g` named `k` is alive after the history, in version `d` (without view UID): the last event about it
is not a delete and carries `d`. -/
def LiveAs (O : ObjOps D) (hist : List (Delta D)) (g : GVK) (k : ObjKey) (d : D) : Prop :=
  ∃ pre δ post, hist = pre ++ δ :: post ∧ Concerns O g k δ ∧ δ.type ≠ .deleted ∧ O.removeUID δ.obj = d ∧
    ∀ ε ∈ post, ¬ Concerns O g k ε

/-- A history as a watch delivers it: objects are added only when absent, a delete carries the current version. -/
def WatchOk (O : ObjOps D) (hist : List (Delta D)) : Prop :=
  ∀ pre δ post, hist = pre ++ δ :: post →
    (δ.type = .added → ∀ d, ¬ LiveAs O pre (O.gvk δ.obj) (O.key δ.obj) d) ∧
    (δ.type = .deleted → LiveAs O pre (O.gvk δ.obj) (O.key δ.obj) (O.removeUID δ.obj)) ∧
    δ.type ≠ .sync

/-- `z` holds exactly the live objects of kind `g`, each once. -/
def LiveSet (O : ObjOps D) (hist : List (Delta D)) (g : GVK) (z : ZSet D) : Prop :=
  ZSet.WF z ∧ ∀ d, (O.gvk d = g ∧ LiveAs O hist g (O.key d) d → ZSet.get z d = 1) ∧
    (¬ (O.gvk d = g ∧ LiveAs O hist g (O.key d) d) → ZSet.get z d = 0)

/-- `ins` are the sets of live objects of the sources, in order. -/
def LiveInputs (O : ObjOps D) (hist : List (Delta D)) (sources : List GVK) (ins : List (ZSet D)) : Prop :=
  ins.length = sources.length ∧
  ∀ (i : Nat) s, sources[i]? = some s → ∃ z, ins[i]? = some z ∧ LiveSet O hist s z

end Dctl
