import Verif.Cache.View
/-!
# Specification: what handlers, watchers and readers of the view cache should see
-/
set_option autoImplicit false
namespace Dctl

/-- A handler keeping a copy of the store, keyed as Kubernetes keys objects (`namespace/name`, or `name` without a namespace), applies an event. -/
def Mirror.apply (m : String → Option Obj) : CEv → String → Option Obj
  | .add o => fun k => if k = cacheKey (objKey o) then some o else m k
  | .update _ o => fun k => if k = cacheKey (objKey o) then some o else m k
  | .delete o => fun k => if k = cacheKey (objKey o) then none else m k

/-- What the handler holds after a sequence of events. -/
def mirror (l : List CEv) : String → Option Obj := l.foldl Mirror.apply (fun _ => none)

/-- A client of a watch applies an event. -/
def WMirror.apply (m : String → Option Obj) : WEv → String → Option Obj
  | .added o => fun k => if k = cacheKey (objKey o) then some o else m k
  | .modified o => fun k => if k = cacheKey (objKey o) then some o else m k
  | .deleted o => fun k => if k = cacheKey (objKey o) then none else m k

/-- What the client holds after a sequence of events. -/
def wmirror (l : List WEv) : String → Option Obj := l.foldl WMirror.apply (fun _ => none)

/-- An object as JSON documents are: maps with distinct, sorted keys at every level. -/
abbrev Obj.Ok (o : Obj) : Prop := (Json.map o).Canon

/-- The operation carries well-formed objects, and lists in an order that leaves nothing out. -/
def VOp.Ok : VOp → Prop
  | .add o => Obj.Ok o
  | .update old new => Obj.Ok old ∧ Obj.Ok new
  | .delete o => Obj.Ok o
  | .addHandler _ order => ∀ l, (order l).Perm l
  | _ => True

/-- The informer `i` is registered for the kind `g`: with the shared cache, or by a delegating cache. -/
def VCache.Registered (c : VCache) (g : GVK) (i : Nat) : Prop := c.shared g = some i ∨ i ∈ c.deleg g

instance (c : VCache) (g : GVK) (i : Nat) : Decidable (c.Registered g i) := inferInstanceAs (Decidable (_ ∨ _))

/-- No slash in namespace and name. -/
def ObjKey.NoSlash (k : ObjKey) : Prop := '/' ∉ k.1.toList ∧ '/' ∉ k.2.toList

/-- The operation writes or deletes the object of kind `g` with key `k`. -/
def VOp.Concerns (g : GVK) (k : ObjKey) : VOp → Prop
  | .add o => objGVK o = g ∧ objKey o = k
  | .update _ o => objGVK o = g ∧ objKey o = k
  | .delete o => objGVK o = g ∧ objKey o = k
  | _ => False

/-- After a history, `x` is the last version written of the object of kind `g` with key `k`, and it has not been deleted since. -/
def Current (h : List VOp) (g : GVK) (k : ObjKey) (x : Obj) : Prop :=
  ∃ pre op post, h = pre ++ op :: post ∧ (op = .add x ∨ ∃ old, op = .update old x) ∧ objGVK x = g ∧ objKey x = k ∧ ∀ op' ∈ post, ¬ op'.Concerns g k

/-- The objects written by the operation have no slash in their names. -/
def VOp.NoSlash : VOp → Prop
  | .add o => ObjKey.NoSlash (objKey o)
  | .update _ o => ObjKey.NoSlash (objKey o)
  | .delete o => ObjKey.NoSlash (objKey o)
  | _ => True

/-- In state `c`, an update that names the new version itself as the old one does so truthfully. -/
def VOp.Honest (hash : String → String) (c : VCache) : VOp → Prop
  | .update old new => old = withUID hash (copyObj new) → c.get (objGVK new) (objKey new) = some old
  | _ => True

/-- The event of kind `g` an operation should cause in state `c`, if any. -/
def VOp.events (hash : String → String) (c : VCache) (g : GVK) : VOp → List CEv
  | .add o => if isViewKind g ∧ objGVK o = g then [.add (withUID hash (copyObj o))] else []
  | .update old o => if isViewKind g ∧ objGVK o = g ∧ old ≠ withUID hash (copyObj o) then [.update old (withUID hash (copyObj o))] else []
  | .delete o =>
    if isViewKind g ∧ objGVK o = g then
      match c.get g (objKey o) with
      | some x => [.delete x]
      | none => []
    else []
  | _ => []

/-- No event replaces an object included in the selection by a version of it that is not. -/
def NoLeave (s : Select) (l : List CEv) : Prop :=
  ∀ p e q, l = p ++ e :: q → ∀ o x, (e = .add o ∨ ∃ old, e = .update old o) → mirror p (cacheKey (objKey o)) = some x → s.includes x = true → s.includes o = true

/-- Steps of a watch: a call of its handler, or the client receiving an event. -/
inductive WStep where
  | call (e : CEv)
  | recv

/-- The calls among the steps. -/
def WStep.calls : List WStep → List CEv
  | [] => []
  | .call e :: l => e :: WStep.calls l
  | .recv :: l => WStep.calls l

/-- One step. -/
def Watcher.step (s : Select) (w : Watcher) : WStep → Watcher
  | .call e => w.handle s e
  | .recv => w.recv

/-- The channel of the watch has room at every call with an event that is selected. -/
def NoOverflow (s : Select) (w : Watcher) (steps : List WStep) : Prop :=
  ∀ p e q, steps = p ++ .call e :: q → (watchEv s e).isSome → (p.foldl (Watcher.step s) w).chan.length < watchBuffer

end Dctl
