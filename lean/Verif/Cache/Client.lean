import Verif.Cache.View
/-!
# The clients of the view cache (`pkg/cache/view_client.go`, `client.go`, `composite.go`)
-/
set_option autoImplicit false
namespace Dctl

/-! ### view client (`pkg/cache/view_client.go`) -/

namespace VCache

/-- `view_client.go:86,115,163,246,284,303`: the kind of the objects `Update`, `Patch`, `DeleteAllOf` and the subresource calls look for: that of
a view of the operator named by the group of the given object (`pkg/object/object.go:66-69`, `NewViewObject` at lines 42-47). -/
def clientKind (o : Obj) : GVK := viewGVK (getOperator (objGVK o)) (objGVK o).kind

/-- `view_client.go:60-66` `Create`. -/
def clientCreate (hash : String → String) (c : VCache) (o : Obj) : Option VCache := c.add hash o

/-- `view_client.go:69-75` `Delete`. -/
def clientDelete (c : VCache) (o : Obj) : Option VCache := c.delete o

/-- `view_client.go:78-104` `Update`. -/
def clientUpdate (hash : String → String) (c : VCache) (o : Obj) : Option VCache :=
  match c.get (clientKind o) (objKey o) with
  | none => none
  | some old => if old = o then some c else c.update hash old o

/-- `view_client.go:107-136` `Patch`; `p` is the content of the patch (`patch.Data` of the library), `patchObj` is `object.Patch`. -/
def clientPatch (hash : String → String) (c : VCache) (o p : Obj) : Option VCache :=
  match c.get (clientKind o) (objKey o) with
  | none => none
  | some cur => c.update hash cur (patchObj (copyObj cur) p)

/-- `view_client.go:169-173`: deleting one by one, up to the first error. -/
def deleteEach (c : VCache) : List Obj → Option VCache
  | [] => some c
  | o :: l =>
    match c.delete o with
    | none => none
    | some c => c.deleteEach l

/-- `view_client.go:139-176` `DeleteAllOf` (and `util.go:14-21` `NewViewObjectList`). On an error some objects may have been deleted already; here it is
`none` (it cannot occur: `C44_delete_all_partial`). -/
def clientDeleteAll (c : VCache) (o : Obj) (s : Select) : Option VCache :=
  match c.list (listFromObj (clientKind o)) s with
  | none => none
  | some l => c.deleteEach l

/-- `view_client.go:234-260` `Get` of a subresource: its content. -/
def subGet (c : VCache) (sub : String) (o : Obj) : Option Obj :=
  match c.get (clientKind o) (objKey o) with
  | none => none
  | some cur =>
    match nested cur [sub] with
    | some (.map m) => some m
    | _ => none

/-- `view_client.go:263-293` `Create` of a subresource (`SetNestedMap` with one field sets that field). -/
def subCreate (hash : String → String) (c : VCache) (sub : String) (o so : Obj) : Option VCache :=
  match nested so [sub] with
  | some (.map m) =>
    match c.get (clientKind o) (objKey o) with
    | none => none
    | some cur => c.clientUpdate hash (setField cur [sub] (.map m))
  | _ => none

/-- `view_client.go:296-327` `Update` of a subresource. -/
def subUpdate (hash : String → String) (c : VCache) (sub : String) (o : Obj) : Option VCache :=
  match c.get (clientKind o) (objKey o) with
  | none => none
  | some cur =>
    match nested o [sub] with
    | some (.map m) => if nested cur [sub] = some (.map m) then some c else c.clientUpdate hash (setField cur [sub] (.map m))
    | _ => none

/-- `view_client.go:330-333` `Patch` of a subresource. -/
def subPatch (hash : String → String) (c : VCache) (o p : Obj) : Option VCache := c.clientPatch hash o p

end VCache

/-! ### composite client (`pkg/cache/client.go`, `composite.go`) -/

/-- A call of the composite client or cache. Of an object or list its kind matters, the rest (content, options) is `A`. -/
inductive CCall (A : Type) where
  | create (g : GVK) (a : A)
  | delete (g : GVK) (a : A)
  | update (g : GVK) (a : A)
  | patch (g : GVK) (a : A)
  | deleteAllOf (g : GVK) (a : A)
  | get (g : GVK) (a : A)
  | list (g : GVK) (a : A)
  | watch (g : GVK) (a : A)
  | getInformer (g : GVK) (a : A)
  | getInformerForKind (g : GVK) (a : A)
  | removeInformer (g : GVK) (a : A)
  | indexField (g : GVK) (a : A)
  /-- the kinds of the object and of the object given for the subresource -/
  | statusGet (g sub : GVK) (a : A)
  | statusCreate (g sub : GVK) (a : A)
  | statusUpdate (g : GVK) (a : A)
  | statusPatch (g : GVK) (a : A)

/-- The calls of a program on both back ends, each with its own state. -/
structure Backends (V N A R : Type) where
  view : V → CCall A → V × R
  native : N → CCall A → N × R
  /-- the error of `client.go:142` -/
  noWatch : R

variable {V N A R : Type}

/-- Pass a call to the view client or cache. -/
def Backends.toView (b : Backends V N A R) (s : V × N) (x : CCall A) : (V × N) × R := (((b.view s.1 x).1, s.2), (b.view s.1 x).2)

/-- Pass a call to the native client or cache. -/
def Backends.toNative (b : Backends V N A R) (s : V × N) (x : CCall A) : (V × N) × R := ((s.1, (b.native s.2 x).1), (b.native s.2 x).2)

/-- `client.go:84-189`, `composite.go:90-174`: where each call goes. Both back ends are taken to exist: without a native client or cache such calls, and
`Status` and `WaitForCacheSync` in any case, dereference nil. -/
def Backends.call (b : Backends V N A R) (s : V × N) (x : CCall A) : (V × N) × R :=
  match x with
  | .create g _ => if isViewKind g then b.toView s x else b.toNative s x
  | .delete g _ => if isViewKind g then b.toView s x else b.toNative s x
  | .update g _ => if isViewKind g then b.toView s x else b.toNative s x
  | .patch g _ => if isViewKind g then b.toView s x else b.toNative s x
  | .deleteAllOf g _ => if isViewKind g then b.toView s x else b.toNative s x
  | .get g _ => if isViewKind g then b.toView s x else b.toNative s x
  | .list g _ => if isViewKind g then b.toView s x else b.toNative s x
  | .watch g _ => if isViewKind g then b.toView s x else (s, b.noWatch)
  | .getInformer g _ => if isViewKind g then b.toView s x else b.toNative s x
  | .getInformerForKind g _ => if isViewKind g then b.toView s x else b.toNative s x
  | .removeInformer g _ => if isViewKind g then b.toView s x else b.toNative s x
  | .indexField g _ => if isViewKind g then b.toView s x else b.toNative s x
  | .statusGet _ sub _ => if isViewKind sub then b.toView s x else b.toNative s x
  | .statusCreate _ sub _ => if isViewKind sub then b.toView s x else b.toNative s x
  | .statusUpdate g _ => if isViewKind g then b.toView s x else b.toNative s x
  | .statusPatch g _ => if isViewKind g then b.toView s x else b.toNative s x

/-- A sequence of calls, with the answers. -/
def Backends.run (b : Backends V N A R) (s : V × N) : List (CCall A) → (V × N) × List R
  | [] => (s, [])
  | x :: l => ((b.run (b.call s x).1 l).1, (b.call s x).2 :: (b.run (b.call s x).1 l).2)

end Dctl
