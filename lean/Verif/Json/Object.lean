import Verif.Json.Patch
import Verif.Pipeline.Adaptor
/-!
# Unstructured objects (`pkg/object`, `pkg/api/view/v1alpha1/group_version.go`, and the parts of `unstructured.Unstructured` used)

An object is its content, a map. The accessors are those of `k8s.io/apimachinery/pkg/apis/meta/v1/unstructured` (v0.34, an imported library),
modelled from its documented behaviour.
-/
set_option autoImplicit false
namespace Dctl

/-- `unstructured.NestedFieldNoCopy` (used by `pkg/reconciler/target.go:122`): the value at a path of fields. -/
def nested (m : SMap Json) (p : List String) : Option Json := (Json.map m).at p

/-- `unstructured.NestedString` with the error ignored, as in `GetName`, `GetNamespace`, `GetKind`, `GetUID` (used in
`pkg/object/uid.go:27-31`): the string at a path, empty if there is none. -/
def nestedString (m : SMap Json) (p : List String) : String :=
  match nested m p with
  | some (.str s) => s
  | _ => ""

/-- `unstructured.SetNestedField` (used by `pkg/reconciler/target.go:134,276-279`): missing maps on the way are created; nothing (an error) if something on
the way is not a map. -/
def setNested : SMap Json → List String → Json → Option (SMap Json)
  | m, [], _ => some m
  | m, [k], v => some (SMap.set m k v)
  | m, k :: k' :: p, v =>
    match SMap.get m k with
    | some (.map x) => (setNested x (k' :: p) v).map (fun y => SMap.set m k (.map y))
    | some _ => none
    | none => (setNested [] (k' :: p) v).map (fun y => SMap.set m k (.map y))

/-- `SetNestedField` with the error ignored, as in `SetName`, `SetKind`, … (used in `pkg/object/object.go:72-85`). -/
def setField (m : SMap Json) (p : List String) (v : Json) : SMap Json := (setNested m p v).getD m

/-- `unstructured.RemoveNestedField` (used by `pkg/object/uid.go:41`). -/
def removeNested : SMap Json → List String → SMap Json
  | m, [] => m
  | m, [k] => SMap.erase m k
  | m, k :: k' :: p =>
    match SMap.get m k with
    | some (.map x) => SMap.set m k (.map (removeNested x (k' :: p)))
    | _ => m

/-- `SetName`, `SetNamespace`, `SetUID` of an unstructured object: an empty string removes the field (used in `pkg/object/object.go:72-75`). -/
def setStr (m : SMap Json) (p : List String) (s : String) : SMap Json :=
  if s = "" then removeNested m p else setField m p (.str s)

/-- `schema.ParseGroupVersion` (used via `GroupVersionKind()` in `pkg/object/uid.go:27`). -/
def parseGroupVersion (s : String) : Option (String × String) :=
  if s = "" ∨ s = "/" then some ("", "")
  else
    match s.toList.count '/' with
    | 0 => some ("", s)
    | 1 => some (String.ofList (s.toList.takeWhile (· ≠ '/')), String.ofList ((s.toList.dropWhile (· ≠ '/')).drop 1))
    | _ => none

/-- `schema.GroupVersion.String` (used via `SetGroupVersionKind` in `pkg/object/object.go:83` and in `pkg/reconciler/target.go:275`). -/
def gvString (t : GVK) : String := if t.group = "" then t.version else t.group ++ "/" ++ t.version

/-- `obj.GroupVersionKind()` (used in `pkg/object/uid.go:27`). -/
def objGVK (m : SMap Json) : GVK :=
  match parseGroupVersion (nestedString m ["apiVersion"]) with
  | some (g, v) => ⟨g, v, nestedString m ["kind"]⟩
  | none => ⟨"", "", ""⟩

/-- `obj.SetGroupVersionKind(t)` (used in `pkg/object/object.go:83`). -/
def setGVK (m : SMap Json) (t : GVK) : SMap Json := setField (setField m ["apiVersion"] (.str (gvString t))) ["kind"] (.str t.kind)

/-- `client.ObjectKeyFromObject`: `GetNamespace()`, `GetName()` (used in `pkg/pipeline/zset_adaptor.go:241`). -/
def objKey (m : SMap Json) : ObjKey := (nestedString m ["metadata", "namespace"], nestedString m ["metadata", "name"])

/-- `obj.GetUID()` (used in `pkg/object/uid.go:28`). -/
def objUID (m : SMap Json) : String := nestedString m ["metadata", "uid"]

/-- `pkg/object/object.go:72-75` `SetName`. -/
def setName (m : SMap Json) (ns name : String) : SMap Json := setStr (setStr m ["metadata", "namespace"] ns) ["metadata", "name"] name

/-- `pkg/object/object.go:79-85` `SetContent`. -/
def setContent (obj content : SMap Json) : SMap Json := setName (setGVK content (objGVK obj)) (objKey obj).1 (objKey obj).2

/-- `group_version.go:11` `GroupSuffix`. -/
def groupSuffix : String := "view.dcontroller.io"

/-- `group_version.go:13` `Version`. -/
def viewVersion : String := "v1alpha1"

/-- `group_version.go:79` `IsViewGroup`. -/
def isViewGroup (g : String) : Bool := groupSuffix.toList.isSuffixOf g.toList

/-- `group_version.go:82-89` `IsViewGroupVersion`, `IsViewKind`. -/
def isViewKind (t : GVK) : Bool := isViewGroup t.group && t.version == viewVersion

/-- `pkg/object/uid.go:15-22` `NewUID`; `hash` is SHA-256 with UUID formatting. -/
def newUID (hash : String → String) (t : GVK) (ns name : String) : String :=
  hash (t.group ++ "/" ++ t.version ++ "/" ++ t.kind ++ "/" ++ ns ++ "/" ++ name)

/-- `pkg/object/uid.go:26-32` `WithUID`. -/
def withUID (hash : String → String) (m : SMap Json) : SMap Json :=
  if !isViewKind (objGVK m) || objUID m != "" then m
  else setStr m ["metadata", "uid"] (newUID hash (objGVK m) (objKey m).1 (objKey m).2)

/-- `pkg/object/uid.go:36-42` `RemoveUID`. -/
def removeUID (m : SMap Json) : SMap Json :=
  if !isViewKind (objGVK m) || objUID m == "" then m else removeNested m ["metadata", "uid"]

/-- `pkg/object/secret.go:38-49`: one value under `data`; kept if it is no string or cannot be decoded. `b64` is `base64.StdEncoding.DecodeString`. -/
def decodeVal (b64 : String → Option String) : Json → Json
  | .str s =>
    match b64 s with
    | some t => .str t
    | none => .str s
  | v => v

/-- `pkg/object/secret.go:17-53` `DecodeSecretData`. -/
def decodeSecret (b64 : String → Option String) (m : SMap Json) : SMap Json :=
  if nestedString m ["kind"] = "Secret" then
    match SMap.get m "data" with
    | some (.map d) => SMap.set m "data" (.map (SMap.mapVal (decodeVal b64) d))
    | _ => m
  else m

/-- `pkg/pipeline/zset_adaptor.go:131-174`: check the metadata of a result document and make it an object of the target kind. -/
def enforceDoc (t : GVK) (m : SMap Json) : Except Err (SMap Json) :=
  match SMap.get m "metadata" with
  | some (.map md) =>
    match SMap.get md "namespace" with
    | none | some (.str _) =>
      match SMap.get md "name" with
      | some (.str name) =>
        if name = "" then .error "empty metadata/name"
        else .ok (setStr (setStr (setGVK (setContent [] m) t) ["metadata", "name"] name) ["metadata", "namespace"] (nestedString m ["metadata", "namespace"]))
      | _ => .error "missing metadata/name"
    | some _ => .error "metadata/namespace must be a string"
  | _ => .error "no metadata in object"

example : (enforceDoc ⟨"test.view.dcontroller.io", "v1alpha1", "View"⟩
      [("kind", .str "Pod"), ("metadata", .map [("name", .str "a"), ("namespace", .str "")])]).toOption =
    some [("apiVersion", .str "test.view.dcontroller.io/v1alpha1"), ("kind", .str "View"), ("metadata", .map [("name", .str "a")])] := by decide

example : objGVK [("apiVersion", .str "apps/v1"), ("kind", .str "Deployment")] = ⟨"apps", "v1", "Deployment"⟩ := by decide
example : removeUID [("apiVersion", .str "x.view.dcontroller.io/v1alpha1"), ("kind", .str "V"), ("metadata", .map [("uid", .str "1")])] =
  [("apiVersion", .str "x.view.dcontroller.io/v1alpha1"), ("kind", .str "V"), ("metadata", .map [])] := by decide

end Dctl
