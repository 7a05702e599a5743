import Verif.Json.Object
import Verif.Expr.Path
/-!
# View groups, kinds and resources (`pkg/api/view/v1alpha1/group_version.go`, `pkg/cache/view_discovery.go`, `view_restmapper.go`)
-/
set_option autoImplicit false
namespace Dctl

/-- `group_version.go:18-20` `Group`. -/
def viewGroup (op : String) : String := op ++ "." ++ groupSuffix

/-- `group_version.go:28-30` `GroupVersionKind`. -/
def viewGVK (op kind : String) : GVK := ⟨viewGroup op, viewVersion, kind⟩

/-- `group_version.go:33-44` `MapIntoView`. -/
def mapIntoView (op : String) (t : GVK) : GVK :=
  ⟨(if t.group = "" then "core" else t.group) ++ "." ++ t.version ++ "." ++ viewGroup op, viewVersion, t.kind⟩

/-- `strings.SplitN(s, ".", n)` for positive `n` (used in `group_version.go:51`). -/
def splitN : Nat → List Char → List (List Char)
  | 0, _ => []
  | 1, s => [s]
  | n + 2, s => if '.' ∈ s then s.takeWhile (· ≠ '.') :: splitN (n + 1) ((s.dropWhile (· ≠ '.')).drop 1) else [s]

/-- `group_version.go:47-65` `MapFromView`; `none` is the error. -/
def mapFromView (t : GVK) : Option GVK :=
  if isViewGroup t.group then
    match splitN 3 t.group.toList with
    | [g, v, _] => some ⟨if String.ofList g = "core" then "" else String.ofList g, String.ofList v, t.kind⟩
    | _ => none
  else none

/-- `group_version.go:68-76` `GetOperator`: the last part of what precedes the suffix. -/
def getOperator (t : GVK) : String :=
  if ("." ++ groupSuffix).toList.isSuffixOf t.group.toList then
    String.ofList ((splitDots (t.group.toList.take (t.group.toList.length - ("." ++ groupSuffix).toList.length))).getLastD [])
  else ""

/-- `group_version.go:93-95` `HasViewGroupVersion` and `99-101` `HasViewGroupVersionKind`. -/
def hasViewGVK (group : String) (t : GVK) : Bool := t.group == group && t.version == viewVersion

/-! ### discovery -/

/-- `strings.HasSuffix(kind, "List")` (used in `view_discovery.go:181,186,218`). -/
def endsList (kind : String) : Bool := "List".toList.isSuffixOf kind.toList

/-- `strings.TrimSuffix(kind, "List")` (used in `view_discovery.go:195,219`). -/
def trimList (kind : String) : String := if endsList kind then String.ofList (kind.toList.take (kind.toList.length - 4)) else kind

/-- `strings.ToLower` on ASCII (kinds are ASCII identifiers; used in `view_discovery.go:219,222`, `view_restmapper.go:58,91`). -/
def lower (s : String) : String := String.ofList (s.toList.map Char.toLower)

/-- `view_discovery.go:180-182` `IsViewKind`. -/
def isViewObjKind (t : GVK) : Bool := isViewKind t && !endsList t.kind

/-- `view_discovery.go:185-187` `IsViewListKind`. -/
def isViewListKind (t : GVK) : Bool := isViewKind t && endsList t.kind

/-- `view_discovery.go:190-199` `ObjectGVKFromListGVK`. -/
def objFromList (t : GVK) : GVK := if isViewListKind t then { t with kind := trimList t.kind } else t

/-- `view_discovery.go:202-211` `ListGVKFromObjectGVK`. -/
def listFromObj (t : GVK) : GVK := if isViewObjKind t then { t with kind := t.kind ++ "List" } else t

/-- `view_discovery.go:217-223` `ResourceFromKind`. -/
def resourceFromKind (kind : String) : String := if endsList kind then lower (trimList kind) else lower kind

/-- The fields of `metav1.APIResource` that differ between views (`view_discovery.go:258-267`); all are namespaced, have the same verbs and
categories, and equal singular and plural names. -/
structure ApiResource where
  name : String
  kind : String
  group : String
  version : String
deriving DecidableEq, Repr

/-- `view_discovery.go:38-41` `ViewDiscovery`: the registered views. -/
abbrev Views := AMap GVK ApiResource

/-- `view_discovery.go:245-271` `RegisterViewGVK`. -/
def Views.register (d : Views) (t : GVK) : Views :=
  if !isViewObjKind t then d
  else
    match d.get t with
    | some _ => d
    | none => AMap.set d t ⟨resourceFromKind t.kind, t.kind, t.group, t.version⟩

/-- `view_discovery.go:274-280` `UnregisterViewGVK`. -/
def Views.unregister (d : Views) (t : GVK) : Views := AMap.erase d t

/-- `view_discovery.go:283-293` `GetRegisteredViewGVKs`, in the order of the map. -/
def Views.registered (d : Views) : List GVK := d.map (·.1)

/-- `view_discovery.go:51-71` `ServerResourcesForGroupVersion`, for a parsed group and version. -/
def Views.resources (d : Views) (group version : String) : List ApiResource :=
  (d.filter (fun e => e.1.group = group ∧ e.1.version = version)).map (·.2)

/-- `view_discovery.go:80-98`: the versions collected for each group. The `continue` of lines 87-91 concerns the inner loop only, so it has no
effect: one entry for each registered view. -/
def groupVersions : List (GVK × ApiResource) → AMap String (List String)
  | [] => []
  | (t, _) :: d =>
    let m := groupVersions d
    m.set t.group (((m.get t.group).getD []) ++ [t.version])

/-- `view_discovery.go:104-115`: the preferred version. -/
def preferred (vs : List String) : Option String :=
  match vs with
  | [] => none
  | v :: _ => if viewVersion ∈ vs then some viewVersion else some v

/-- `view_discovery.go:74-121` `ServerGroups`: name, versions, preferred version. -/
def Views.groups (d : Views) : List (String × List String × Option String) := (groupVersions d).map (fun e => (e.1, e.2, preferred e.2))

/-- `view_discovery.go:226-242` `KindFromResource`: the kind of the first registered view, in the order of the map, with the resource name. -/
def Views.kindFromResource (d : Views) (r : String) : Option String :=
  (d.find? (fun e => e.2.name = r ∨ lower e.1.kind = r)).map (·.1.kind)

/-! ### REST mapping -/

/-- `schema.GroupVersionResource`. -/
structure GVR where
  group : String
  version : String
  resource : String
deriving DecidableEq, Repr

/-- `meta.RESTMapping` with the scope as a flag (`view_restmapper.go:95-99`). -/
structure RestMapping where
  resource : GVR
  kind : GVK
  namespaced : Bool
deriving DecidableEq, Repr

/-- `unicode.IsLetter`, `IsDigit` or underscore on ASCII: not a separator for `strings.Title`. -/
def isTitleWord (c : Char) : Bool := c.isAlphanum || c == '_'

/-- `strings.Title` (used in `view_restmapper.go:30`) on ASCII; `sep`: does a word start here? -/
def titleFrom (sep : Bool) : List Char → List Char
  | [] => []
  | c :: cs => (if sep then c.toUpper else c) :: titleFrom (!isTitleWord c) cs

/-- `view_restmapper.go:24-37` `KindFor`: fails for view groups. -/
def viewKindFor (r : GVR) : Option GVK :=
  if isViewGroup r.group then none else some ⟨r.group, r.version, String.ofList (titleFrom true (lower r.resource).toList)⟩

/-- `view_restmapper.go:49-60` `ResourceFor`: fails for view groups. -/
def viewResourceFor (r : GVR) : Option GVR := if isViewGroup r.group then none else some { r with resource := lower r.resource }

/-- `view_restmapper.go:72-100` `RESTMapping`: fails for view groups. -/
def viewRESTMapping (group kind : String) (versions : List String) : Option RestMapping :=
  if isViewGroup group then none
  else
    let v := match versions with
      | v :: _ => if v = "" then viewVersion else v
      | [] => viewVersion
    some ⟨⟨group, v, lower kind⟩, ⟨group, v, kind⟩, true⟩

/-- `restmapper.go:138-144` `isViewGroup`; `composite`: is the discovery client a `CompositeDiscoveryClient`? -/
def mapperIsView (composite : Bool) (group : String) : Bool := if composite then isViewGroup group else group = "view.dcontroller.io"

/-- `restmapper.go:97-107` `RESTMapping` of the composite mapper; `native` is the native mapper, if there is one. -/
def restMapping (composite : Bool) (native : Option (String → String → List String → Option RestMapping)) (group kind : String) (versions : List String) :
    Option RestMapping :=
  if mapperIsView composite group then viewRESTMapping group kind versions
  else
    match native with
    | some f => f group kind versions
    | none => none

/-- `restmapper.go:45-55` `KindFor` of the composite mapper. -/
def kindFor (composite : Bool) (native : Option (GVR → Option GVK)) (r : GVR) : Option GVK :=
  if mapperIsView composite r.group then viewKindFor r
  else
    match native with
    | some f => f r
    | none => none

/-! ### sources and targets -/

/-- `pkg/reconciler/resource.go:51-90` `GetGVK`; `group`, `version` are optional, `native` is the REST mapper's answer for a native group and kind. -/
def resourceGVK (native : String → String → Option GVK) (op : String) (group version : Option String) (kind : String) : Option GVK :=
  if kind = "" then none
  else
    let byGroupKind (g : String) : Option GVK := if isViewGroup g then some ⟨g, viewVersion, kind⟩ else native g kind
    match group with
    | none => byGroupKind (viewGroup op)
    | some g =>
      if g = viewGroup op then byGroupKind g
      else
        match version with
        | none => byGroupKind g
        | some v => some ⟨g, v, kind⟩

example : mapIntoView "op" ⟨"apps", "v1", "Deployment"⟩ = ⟨"apps.v1.op.view.dcontroller.io", "v1alpha1", "Deployment"⟩ := by decide
example : mapFromView ⟨"core.v1.op.view.dcontroller.io", "v1alpha1", "Pod"⟩ = some ⟨"", "v1", "Pod"⟩ := by decide
example : getOperator ⟨"apps.v1.op.view.dcontroller.io", "v1alpha1", "Deployment"⟩ = "op" := by decide
example : objFromList ⟨"op.view.dcontroller.io", "v1alpha1", "HealthList"⟩ = ⟨"op.view.dcontroller.io", "v1alpha1", "Health"⟩ := by decide
example : String.ofList (titleFrom true "healthview".toList) = "Healthview" := by decide

end Dctl
