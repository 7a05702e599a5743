import Verif.Operator.PatchLoop
import Verif.Controller.TargetLemmas
/-!
# The patches of a Patcher target
-/
set_option autoImplicit false
namespace Dctl

/-- `pkg/reconciler/target.go:218-226,270-290`: how a Patcher target changes an object, see `patcherUpsert` and `patcherDelete`. -/
def jsonPatching : Patching CDoc where
  upsert b x := ⟨patcherUpsert b.1 x.1, restore_canon (patchObj_canon b.2 x.2)⟩
  remove b x := ⟨patcherDelete b.1 x.1, restore_canon (patchObj_canon b.2 (deletePatch_canon x.2))⟩

end Dctl
