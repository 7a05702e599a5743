import Verif.Cache.Client
/-!
# One-shot sources (`pkg/reconciler/source.go:128-190`), for views
-/
set_option autoImplicit false
namespace Dctl

/-- `source.go:171-175` in `GetSource`: the trigger object; `now` is the time as a string. -/
def oneShotObj (g : GVK) (now : String) : Obj :=
  setStrings (setStr (setGVK [] g) ["metadata", "name"] "one-shot-trigger") "labels" [("dcontroller.io/last-triggered", now)]

/-- `source.go:160-181` `GetSource` of a one-shot source: the trigger object is created with the client of the operator. -/
def oneShotGet (hash : String → String) (c : VCache) (g : GVK) (now : String) : Option VCache := c.clientCreate hash (oneShotObj g now)

/-- `TypedKind.Start` (library, `source.go:183`) for operator `n`: the informer of the kind is looked up in the cache of the operator and a handler is added. Gives
the informer and the handler. -/
def kindStart (c : VCache) (n : Nat) (g : GVK) (order : Indexer → Indexer) : Option (VCache × Nat × Nat) :=
  match c.getLocal n g with
  | some (c, i) => some (c.addHandler i order, i, c.counter i + 1)
  | none => none

end Dctl
