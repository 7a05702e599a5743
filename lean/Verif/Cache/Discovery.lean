import Verif.Cache.Group
/-!
# Discovery of views and native resources (`pkg/cache/discovery.go`, `view_discovery.go`, `restmapper.go`)
-/
set_option autoImplicit false
namespace Dctl

/-- `metav1.APIResourceList` (`view_discovery.go:67-70`). -/
structure ResourceList where
  groupVersion : String
  resources : List ApiResource
deriving DecidableEq, Repr

/-- `metav1.APIGroup` (`view_discovery.go:102-115`): name, versions, preferred version. -/
abbrev ApiGroup := String × List String × Option String

/-- `view_discovery.go:51-71` `ServerResourcesForGroupVersion`; `none` is the error. -/
def Views.resourcesFor (d : Views) (s : String) : Option ResourceList :=
  match parseGroupVersion s with
  | some (g, v) => some ⟨s, d.resources g v⟩
  | none => none

/-- `view_discovery.go:138-142`: the groups and versions of the registered views, each once (as strings: distinct group versions of views have distinct
strings or the call fails). -/
def Views.groupVersionStrings (d : Views) : List String := (d.map (fun e => gvString e.1)).eraseDups

/-- `view_discovery.go:145-153`: the resource lists of the groups and versions, up to the first error. -/
def Views.resourceLists (d : Views) : List String → Option (List ResourceList)
  | [] => some []
  | s :: l =>
    match d.resourcesFor s, d.resourceLists l with
    | some r, some rs => some (if r.resources = [] then rs else r :: rs)
    | _, _ => none

/-- `view_discovery.go:124-156` `ServerGroupsAndResources`. `ServerPreferredResources` and `ServerPreferredNamespacedResources` (`view_discovery.go:159-174`)
are its second part. -/
def Views.groupsAndResources (d : Views) : Option (List ApiGroup × List ResourceList) :=
  match d.resourceLists d.groupVersionStrings with
  | some ls => some (d.groups, ls)
  | none => none

/-- The answers of the native discovery client (library code, any). Where it lists everything it can return some results together with an error, if a part of the API
server does not answer; this is the flag. -/
structure NativeDisc where
  resourcesFor : String → Option ResourceList
  groups : Option (List ApiGroup)
  groupsAndResources : (List ApiGroup × List ResourceList) × Bool
  preferred : List ResourceList × Bool
  preferredNamespaced : List ResourceList × Bool

/-- `discovery.go:20-23` `CompositeDiscoveryClient`; no native client without a configuration. -/
structure CompDisc where
  views : Views
  native : Option NativeDisc

namespace CompDisc

/-- `discovery.go:26-31` `NewCompositeDiscoveryClient`. -/
def new (native : Option NativeDisc) : CompDisc := ⟨[], native⟩

/-- `discovery.go:44-59` `ServerResourcesForGroupVersion`. -/
def resourcesFor (c : CompDisc) (s : String) : Option ResourceList :=
  match parseGroupVersion s with
  | none => none
  | some (g, _) =>
    if isViewGroup g then c.views.resourcesFor s
    else
      match c.native with
      | none => none
      | some n => n.resourcesFor s

/-- `discovery.go:63-83` `ServerGroups`. -/
def groups (c : CompDisc) : Option (List ApiGroup) :=
  match c.native with
  | none => some c.views.groups
  | some n =>
    match n.groups with
    | some l => some (c.views.groups ++ l)
    | none => none

/-- `discovery.go:86-109` `ServerGroupsAndResources`: with an error of the native client its results are dropped. -/
def groupsAndResources (c : CompDisc) : Option (List ApiGroup × List ResourceList) :=
  match c.views.groupsAndResources with
  | none => none
  | some (gs, rs) =>
    match c.native with
    | none => some (gs, rs)
    | some n => if n.groupsAndResources.2 then none else some (gs ++ n.groupsAndResources.1.1, rs ++ n.groupsAndResources.1.2)

/-- `discovery.go:113-132` `ServerPreferredResources`. -/
def preferred (c : CompDisc) : Option (List ResourceList) :=
  match c.views.groupsAndResources with
  | none => none
  | some (_, rs) =>
    match c.native with
    | none => some rs
    | some n => if n.preferred.2 then none else some (rs ++ n.preferred.1)

/-- `discovery.go:136-155` `ServerPreferredNamespacedResources`. -/
def preferredNamespaced (c : CompDisc) : Option (List ResourceList) :=
  match c.views.groupsAndResources with
  | none => none
  | some (_, rs) =>
    match c.native with
    | none => some rs
    | some n => if n.preferredNamespaced.2 then none else some (rs ++ n.preferredNamespaced.1)

/-- `discovery.go:189-197` `WithLegacy`; `legacy` is that of the native client. -/
def withLegacy (legacy : NativeDisc → NativeDisc) (c : CompDisc) : CompDisc :=
  match c.native with
  | some n => new (some (legacy n))
  | none => c

/-- `restmapper.go:23-42` `NewCompositeRESTMapper`: the native mapper is made once, from what discovery lists at this time (`mk`, library code), and there is none
if the call fails. -/
def nativeMapper {M : Type} (mk : List ApiGroup × List ResourceList → M) (c : CompDisc) : Option M := c.groupsAndResources.map mk

end CompDisc
end Dctl
