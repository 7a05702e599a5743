import Verif.Cache.Group
/-!
# The other functions of the REST mappers (`pkg/cache/view_restmapper.go`, `pkg/cache/restmapper.go`)
-/
set_option autoImplicit false
namespace Dctl

/-- `view_restmapper.go:40-46` `KindsFor`. -/
def viewKindsFor (r : GVR) : Option (List GVK) :=
  match viewKindFor r with
  | none => none
  | some k => some [k]

/-- `view_restmapper.go:63-69` `ResourcesFor`. -/
def viewResourcesFor (r : GVR) : Option (List GVR) :=
  match viewResourceFor r with
  | none => none
  | some q => some [q]

/-- `view_restmapper.go:103-109` `RESTMappings`. -/
def viewRESTMappings (group kind : String) (versions : List String) : Option (List RestMapping) :=
  match viewRESTMapping group kind versions with
  | none => none
  | some m => some [m]

/-- `view_restmapper.go:112-115` `ResourceSingularizer`. -/
def viewSingular (resource : String) : String := lower resource

/-- The functions of a native mapper (`meta.RESTMapper`, library code): `none` is an error. -/
structure NativeMapper where
  kindFor : GVR → Option GVK
  kindsFor : GVR → Option (List GVK)
  resourceFor : GVR → Option GVR
  resourcesFor : GVR → Option (List GVR)
  mapping : String → String → List String → Option RestMapping
  mappings : String → String → List String → Option (List RestMapping)
  singular : String → Option String

/-- `restmapper.go:58-68` `KindsFor`. -/
def kindsFor (composite : Bool) (native : Option NativeMapper) (r : GVR) : Option (List GVK) :=
  if mapperIsView composite r.group then viewKindsFor r
  else
    match native with
    | some n => n.kindsFor r
    | none => none

/-- `restmapper.go:71-81` `ResourceFor`. -/
def resourceFor (composite : Bool) (native : Option NativeMapper) (r : GVR) : Option GVR :=
  if mapperIsView composite r.group then viewResourceFor r
  else
    match native with
    | some n => n.resourceFor r
    | none => none

/-- `restmapper.go:84-94` `ResourcesFor`. -/
def compResourcesFor (composite : Bool) (native : Option NativeMapper) (r : GVR) : Option (List GVR) :=
  if mapperIsView composite r.group then viewResourcesFor r
  else
    match native with
    | some n => n.resourcesFor r
    | none => none

/-- `restmapper.go:110-120` `RESTMappings`. -/
def restMappings (composite : Bool) (native : Option NativeMapper) (group kind : String) (versions : List String) : Option (List RestMapping) :=
  if mapperIsView composite group then viewRESTMappings group kind versions
  else
    match native with
    | some n => n.mappings group kind versions
    | none => none

/-- `restmapper.go:123-135` `ResourceSingularizer`: never fails. -/
def singularizer (native : Option NativeMapper) (resource : String) : String :=
  match native with
  | some n =>
    match n.singular resource with
    | some s => s
    | none => resource
  | none => resource

end Dctl
