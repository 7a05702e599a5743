import Verif.Apiserver.Registry
import Verif.Util.Assoc
/-!
# Types and OpenAPI definitions of the API server (`pkg/apiserver/openapi.go`, `registry.go`)

The locked sections of the API server are steps, so that requests for OpenAPI definitions and registrations interleave in any way.
-/
set_option autoImplicit false
namespace Dctl
namespace OpenApi

/-- `openapicommon.OpenAPIDefinition`, as far as it is looked at: the kind the definition is linked to (`openapi.go:133-139`, `190-196`), the definition the items of a
list refer to (`openapi.go:180`), and the dependencies (`openapi.go:145-147`, `200-203`). -/
structure OaDef where
  kind : Option GVK
  items : Option String
  deps : List String
deriving DecidableEq, Repr

/-- A set of definitions by their names (`openapi.go:17`). -/
abbrev Defs := AMap String OaDef

/-- `resource.go:49-55` `listGVK`. -/
def listGVK (t : GVK) : GVK := ⟨t.group, t.version, t.kind ++ "List"⟩

/-- `openapi.go:65`: the name of the definition of a kind. -/
def defName (t : GVK) : String := t.group ++ "." ++ t.version ++ "." ++ t.kind

/-- `openapi.go:69`: the name of the definition of the list of a kind. -/
def listDefName (t : GVK) : String := t.group ++ "/" ++ t.version ++ "." ++ (listGVK t).kind

/-- `openapi.go:99-149` `genOpenAPIDef`. -/
def genDef (t : GVK) : OaDef := ⟨some t, none, ["k8s.io.apimachinery.pkg.apis.meta.v1.ObjectMeta"]⟩

/-- `openapi.go:152-205` `genOpenAPIListDef`. -/
def genListDef (t : GVK) (name : String) : OaDef := ⟨some (listGVK t), some name, ["k8s.io.apimachinery.pkg.apis.meta.v1.ListMeta", name]⟩

/-- `openapi.go:53`. -/
def unstructName : String := "k8s.io/apimachinery/pkg/apis/meta/v1/unstructured.Unstructured"
/-- `openapi.go:56`. -/
def unstructListName : String := "k8s.io/apimachinery/pkg/apis/meta/v1/unstructured.UnstructuredList"

/-- `openapi.go:208-227` `genOpenAPIUnstructDef`. -/
def genUnstruct : OaDef := ⟨none, none, []⟩

/-- `openapi.go:230-278` `genOpenAPIUnstructListDef`. -/
def genUnstructList : OaDef := ⟨none, some unstructName, ["k8s.io/apimachinery/pkg/apis/meta/v1.ListMeta", unstructName]⟩

/-- `openapi.go:59-71`: the definitions of the view kinds, in the order given. -/
def addDefs (defs : Defs) : List GVK → Defs
  | [] => defs
  | t :: l =>
    if isViewKind t then addDefs ((defs.set (defName t) (genDef t)).set (listDefName t) (genListDef t (defName t))) l
    else addDefs defs l

/-- `openapi.go:38-74` `generateOpenAPIDefs` with the registered kinds in the order the maps are traversed in; `base` are the definitions of the library (line 51). -/
def generate (base : Defs) (gvks : List GVK) : Defs :=
  addDefs ((base.set unstructName genUnstruct).set unstructListName genUnstructList) gvks

/-! ### the type scheme -/

/-- The types the scheme knows kinds by (`registry.go:248-252`): objects and lists of views, and types of the library. -/
inductive Ty where
  | obj
  | list
  | lib (name : String)
deriving DecidableEq, Repr

/-- `runtime.Scheme`: the types of kinds. -/
abbrev Types := GVK → Option Ty

/-- `Scheme.AddKnownTypeWithName` (used in `registry.go:251-252`; library code): it panics, here `none`, for a kind without version and for a kind known by another
type. -/
def addType (s : Types) (t : GVK) (ty : Ty) : Option Types :=
  if t.version = "" then none
  else
    match s t with
    | some ty' => if ty' = ty then some s else none
    | none => some (upd s t (some ty))

/-- `metav1.AddToGroupVersion` (used in `registry.go:248`; library code): the kinds the library adds to each group and version, given by `libs`. What it adds to other
versions and groups is left out. -/
def addLibs (g v : String) : List String → Types → Option Types
  | [], s => some s
  | k :: l, s => (addType s ⟨g, v, k⟩ (.lib k)).bind (addLibs g v l)

/-- `registry.go:236-264` `addTypesToScheme` with the kinds in the order they are traversed in. `SetVersionPriority` (line 258) is left out. -/
def addTypes (libs : List String) : List GVK → Types → Option Types
  | [], s => some s
  | t :: l, s =>
    (addLibs t.group t.version libs s).bind fun s => (addType s t .obj).bind fun s => (addType s (listGVK t) .list).bind fun s => addTypes libs l s

/-! ### requests and registrations -/

/-- The two versions of the OpenAPI definitions, each with a cache (`apiserver.go:62-63`). -/
inductive Ver where
  | v2
  | v3
deriving DecidableEq, Repr

/-- How far a request for definitions is (`openapi.go:16-35`, `78-96`): it has seen the empty cache; it has generated definitions and not yet stored them. -/
inductive Call where
  | idle
  | empty (v : Ver)
  | made (v : Ver) (defs : Defs)
deriving DecidableEq, Repr

/-- The API server (`apiserver.go:49-79`) with its type scheme and caches, and the requests under way. -/
structure Sv where
  srv : ApiSrv
  types : Types
  cache : Ver → Option Defs
  calls : Nat → Call

/-- `apiserver.go:82-102`; the scheme starts with some types of the library. -/
def Sv.init (types : Types) : Sv := ⟨ApiSrv.init, types, fun _ => none, fun _ => .idle⟩

/-- A step: a registration or unregistration of a group (with the order versions are traversed in), or the next step of a request. -/
inductive Ev where
  | register (group : String) (gvks : List GVK) (versions : List String)
  | unregister (group : String)
  | look (n : Nat) (v : Ver)
  | generate (n : Nat) (order : List GVK)
  | store (n : Nat)

/-- The outcome of a step: the state and, if a request is answered, the version and the definitions. -/
inductive Out where
  | panics
  | blocked
  | ok (s : Sv) (answer : Option (Ver × Defs))

/-- `openapi.go:44-48`: the kind is in the maps of the registered kinds. -/
def _root_.Dctl.ApiSrv.registered (s : ApiSrv) (t : GVK) : Bool :=
  match s.groupGVKs t.group with
  | some l => decide (t ∈ l)
  | none => false

/-- One step; `blocked` are steps a request does not take next.
`registry.go:52-101` `RegisterAPIGroup` (types, storage and discovery, kinds, caches), `registry.go:104-150` `UnregisterAPIGroup`,
`openapi.go:18-25`, `80-87` (the cache is looked at), `27`, `89` (definitions are generated from the registered kinds in `order`, which gives the order the maps are traversed in), `29-33`, `90-94` (they are stored). -/
def Sv.step (base : Defs) (libs : List String) (s : Sv) : Ev → Out
  | .register g gvks vs =>
    if !isViewGroup g then .ok s none
    else
      match addTypes libs gvks s.types with
      | none => .panics
      | some types =>
        match s.srv.registerGroup g gvks vs with
        | none => .panics
        | some srv => .ok { s with srv := srv, types := types, cache := fun _ => none } none
  | .unregister g =>
    match s.srv.groupGVKs g with
    | none => .ok s none
    | some _ => .ok { s with srv := s.srv.unregisterGroup g, cache := fun _ => none } none
  | .look n v =>
    if s.calls n = .idle then
      match s.cache v with
      | some defs => .ok s (some (v, defs))
      | none => .ok { s with calls := upd s.calls n (.empty v) } none
    else .blocked
  | .generate n order =>
    match s.calls n with
    | .empty v => .ok { s with calls := upd s.calls n (.made v (generate base (order.filter s.srv.registered))) } none
    | _ => .blocked
  | .store n =>
    match s.calls n with
    | .made v defs => .ok { s with cache := upd s.cache v (some defs), calls := upd s.calls n .idle } (some (v, defs))
    | _ => .blocked

end OpenApi
end Dctl
