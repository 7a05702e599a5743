import Verif.Controller.Target
import Verif.Spec.SvcHealth
import Verif.Spec.ListPipeline
/-!
# Specification: the pod health controller of the service health operator shipped as an example

The controller `pod-health-monitor` of `examples/service-health-monitor/svc-health-operator.yaml`, and what its README says it does: for the pods of each application
there is a HealthView with the list of the pods and of whether they are ready.
-/
set_option autoImplicit false
namespace Dctl

/-- `examples/service-health-monitor/svc-health-operator.yaml:10-11`. -/
abbrev monPodK : GVK := ⟨"", "v1", "Pod"⟩

/-- Where the application is in a pod. -/
abbrev appPath : List String := ["metadata", "labels", "app"]
/-- The query for the application, as in the file. -/
abbrev appQuery : String := "$.metadata.labels['app']"
/-- The query for whether the pod is ready, as in the file. -/
abbrev readyQuery : String := "$.status.conditions[?(@.type=='Ready')].status"

/-- `examples/service-health-monitor/svc-health-operator.yaml:15-34`: the pipeline of the controller `pod-health-monitor`, as the JSON the YAML stands for. -/
def podHealthJson : Json := .list [
  .map [("@project", .map [
    ("metadata", .map [("name", .str appQuery), ("namespace", .str "$.metadata.namespace")]),
    ("pods", .map [("podName", .str "$.metadata.name"), ("ready", .str readyQuery)])])],
  .map [("@gather", .list [
    .map [("@concat", .list [.str "$.metadata.name", .str "--", .str "$.metadata.namespace"])],
    .str "$.pods"])]]

/-- The status of the first condition of type Ready that has one, null if there is none. -/
def readyStatus (m : SMap Json) : Json :=
  match nested m ["status", "conditions"] with
  | some (.list l) => ((l.filter (fun c => c.at ["type"] = some (.str "Ready"))).filterMap (fun c => c.at ["status"])).head?.getD .null
  | _ => .null

/-- How the JSONPath library reads the two queries that are no field paths (`pkg/expression/jsonpath.go:100-115`). -/
structure ReadsQueries (base : Env) : Prop where
  app : ∀ m : SMap Json, base.jget appQuery (.map m) = .ok ((nested m appPath).getD .null)
  ready : ∀ m : SMap Json, base.jget readyQuery (.map m) = .ok (readyStatus m)

/-- A pod of the application `app` in the namespace `ns`. -/
def PodOf (app ns : String) (d : CDoc) : Prop := nested d.1 appPath = some (.str app) ∧ nested d.1 nsPath = some (.str ns)

/-- The pod has a name, a namespace, and an application, and these and its status do not look like paths. -/
def PodHealthOk (d : CDoc) : Prop :=
  (∃ n, nested d.1 namePath = some (.str n) ∧ (Json.str n).Ordinary) ∧
  (∃ app ns, PodOf app ns d ∧ app ≠ "" ∧ (Json.str app).Ordinary ∧ (Json.str ns).Ordinary) ∧ (readyStatus d.1).Ordinary ∧ (readyStatus d.1).NotList

/-- What a HealthView says about a pod. -/
def podStatus (d : CDoc) : Json := .map [("podName", (nested d.1 namePath).getD .null), ("ready", readyStatus d.1)]

/-- What the watch of the controller delivers: pods, in a possible order; and no two applications whose names and namespaces, with two dashes between them, are the
same. -/
structure PodHealthHist (hist : List (EvalOrder CDoc × Delta CDoc)) : Prop where
  orders : ∀ e ∈ hist, e.1.Valid
  kinds : ∀ e ∈ hist, objGVK e.2.obj.1 = monPodK
  watch : WatchOk jsonOps (hist.map Prod.snd)
  ok : ∀ e ∈ hist, PodHealthOk e.2.obj
  apart : ∀ e ∈ hist, ∀ e' ∈ hist, ∀ app ns app' ns', PodOf app ns e.2.obj → PodOf app' ns' e'.2.obj → app ++ "--" ++ ns = app' ++ "--" ++ ns' → app = app' ∧ ns = ns'

/-- `xs` are the live pods of the application, each once. -/
def LivePods (hist : List (Delta CDoc)) (app ns : String) (xs : List CDoc) : Prop := xs.Nodup ∧ ∀ d, d ∈ xs ↔ LiveObj hist monPodK d ∧ PodOf app ns d

/-- The HealthView `obj` lists the live pods of the application, in some order. -/
def ListsPods (hist : List (Delta CDoc)) (app ns : String) (obj : SMap Json) : Prop :=
  ∃ xs l, LivePods hist app ns xs ∧ nested obj podsPath = some (.list l) ∧ l.Perm (xs.map podStatus)

/-- A pod is ready. -/
def podReady (d : CDoc) : Bool := decide (readyStatus d.1 = .str "True")

/-- The text of the annotation for the pods of an application: the number of those that are ready, a slash, and the number of all of them. -/
def podsText (xs : List CDoc) : String := toString (xs.countP podReady) ++ "/" ++ toString xs.length

/-- The second controller has seen the HealthViews as they are in the cluster, but for their UID: they are the ones that are live in its history. -/
def ViewsSeen (c : Cluster) (hist : List (Delta CDoc)) : Prop :=
  (∀ k obj, c.get (healthK, k) = some obj → ∃ hv, LiveObj hist healthK hv ∧ ∀ p, Disjoint p ["metadata", "uid"] → nested hv.1 p = nested obj p) ∧
  ∀ hv, LiveObj hist healthK hv → (c.get (healthK, objKey hv.1)).isSome

end Dctl
