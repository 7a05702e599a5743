import Verif.Operator.Kinds
import Verif.Apiserver.Registry
/-!
# The operator controller (`pkg/kubernetes/controllers/operator.go`)
-/
set_option autoImplicit false
namespace Dctl

/-- An operator made by `AddOperatorFromSpec` (`operator.go:198-216`): which one it is, its name, its specification, and its kinds (`GetGVKs`; kinds of the own
group do not depend on the REST mapper once the controllers are made). -/
structure OpInst where
  id : Nat
  name : String
  spec : List CtrlCfg
  kinds : List GVK
deriving DecidableEq, Repr

/-- State of the operator controller and what it acts on: the map of operators (`operator.go:50`), whether it was started (`operator.go:60`), the entries `Start`
has still to start (`operator.go:316-338`), the operators whose `cancel` is set (`operator.go:39,252`), those started and not cancelled, the calls made to
the API server, the operator objects in the cluster with their generations, and the work queue. Operators that stop by themselves with an error are left
out. -/
structure OpCtl where
  operators : String → Option OpInst
  started : Bool
  starting : List OpInst
  cancels : List Nat
  running : List OpInst
  next : Nat
  api : List ApiOp
  cluster : String → Option (Nat × List CtrlCfg)
  pending : List String

/-- `operator.go:99-109` `NewOpController`. -/
def OpCtl.init : OpCtl := ⟨fun _ => none, false, [], [], [], 0, [], fun _ => none, []⟩

namespace OpCtl

/-- `registry.go:20-47`: the groups of the kinds of an operator, its own if there are kinds. -/
def apiGroups (name : String) (kinds : List GVK) : List String := if kinds.length = 0 then [] else [viewGroup name]

/-- `registry.go:157-165`: the versions of the kinds of an operator, here in the order they occur (C53 holds for all orders). -/
def apiVersions (name : String) (kinds : List GVK) (g : String) : List String :=
  if g = viewGroup name then (kinds.map (·.version)).eraseDups else []

/-- `operator.go:247-278` `startOp`. -/
def startOp (s : OpCtl) (e : OpInst) : OpCtl := { s with cancels := e.id :: s.cancels, running := s.running ++ [e] }

/-- `operator.go:34` `StatusChannelBufferSize`. -/
def channelSize : Nat := 64

/-- `operator.go:198-216` `AddOperatorFromSpec` with `AddOperator` (lines 183-194) and `AddSpec` (`pkg/operator/operator.go:110-124`), if
`operator.New` succeeds; `env` is what the controllers meet. Every critical error of a controller is sent to a channel with a buffer that nobody reads before
the operator is started: none if it is full, the call then blocks for ever. -/
def addOperator (s : OpCtl) (env : CtrlCfg → BuildEnv) (name : String) (spec : List CtrlCfg) : Option OpCtl :=
  if channelSize < (spec.map (fun c => (newDeclarative (env c) name c).errors)).sum then none
  else
    let kinds := operatorGVKs name (spec.map (fun c => .declarative c (env c)))
    let e : OpInst := ⟨s.next, name, spec, kinds⟩
    let s' : OpCtl := { s with next := s.next + 1, api := s.api ++ [ApiOp.register kinds (apiGroups name kinds) (apiVersions name kinds)],
                               operators := upd s.operators name (some e) }
    some (if s.started then s'.startOp e else s')

/-- `operator.go:231-244` `DeleteOperator`; none if it panics because the operator was never started. -/
def deleteOperator (s : OpCtl) (name : String) : Option OpCtl :=
  match s.operators name with
  | none => some s
  | some e =>
    if s.cancels.contains e.id then
      some { s with operators := upd s.operators name none, api := s.api ++ [ApiOp.unregister e.kinds (apiGroups name e.kinds)],
                    running := s.running.filter (fun x => x.id ≠ e.id) }
    else none

/-- How a reconciliation goes: the object cannot be read, the operator cannot be made, or neither (with what its controllers meet). -/
inductive Outcome where
  | getFails
  | newFails
  | ok (env : CtrlCfg → BuildEnv)

/-- `operator.go:222-225`: remove the old operator, if there is one. -/
def dropOld (s : OpCtl) (name : String) : Option OpCtl :=
  match s.operators name with
  | none => some s
  | some _ => s.deleteOperator name

/-- `operator.go:219-228` `UpsertOperator`; the second component tells if it returned no error. -/
def upsert (s : OpCtl) (name : String) (spec : List CtrlCfg) (o : Outcome) : Option (OpCtl × Bool) :=
  match s.dropOld name with
  | none => none
  | some s =>
    match o with
    | .ok env =>
      match s.addOperator env name spec with
      | none => none
      | some s => some (s, true)
    | _ => some (s, false)

/-- The request is done; after an error it is queued again (`operator.go:281-306`). -/
def done (s : OpCtl) (name : String) : OpCtl := { s with pending := s.pending.filter (· ≠ name) }

/-- `operator.go:281-306` `Reconcile`. Requests are handled one after the other (`MaxConcurrentReconciles` is 1). The update of the status is left out. -/
def reconcile (s : OpCtl) (name : String) (o : Outcome) : Option OpCtl :=
  match o with
  | .getFails => some s
  | o =>
    match s.cluster name with
    | none =>
      match s.deleteOperator name with
      | none => none
      | some s => some (s.done name)
    | some (_, spec) =>
      match s.upsert name spec o with
      | none => none
      | some (s, true) => some (s.done name)
      | some (s, false) => some s

/-- What happens: the objects in the cluster, as the informer of the controller sees them, are created, changed or deleted (`operator.go:119-126`; the predicate
drops updates that leave the generation as it is, and the API server counts the generation up when the specification changes); the informer misses that
an object was deleted and created again (it sees an update); a queued request is reconciled; the program adds an operator (`operator.go:198`); or it
starts the controller (`operator.go:311-338`; the operators present are started one by one, while requests may already be reconciled). -/
inductive Ev where
  | apply (name : String) (spec : List CtrlCfg)
  | remove (name : String)
  | replaced (name : String) (spec : List CtrlCfg)
  | reconcile (name : String) (o : Outcome)
  | add (env : CtrlCfg → BuildEnv) (name : String) (spec : List CtrlCfg)
  | start (entries : List OpInst)
  | startNext

/-- Add a request to the work queue (it holds each once). -/
def enqueue (s : OpCtl) (name : String) : OpCtl := { s with pending := s.pending.filter (· ≠ name) ++ [name] }

/-- One event; none if the program panics or blocks for ever. -/
def step (s : OpCtl) : Ev → Option OpCtl
  | .apply name spec =>
    match s.cluster name with
    | none => some ({ s with cluster := upd s.cluster name (some (1, spec)) }.enqueue name)
    | some (gen, old) =>
      if old = spec then some s
      else some ({ s with cluster := upd s.cluster name (some (gen + 1, spec)) }.enqueue name)
  | .remove name =>
    match s.cluster name with
    | none => some s
    | some _ => some ({ s with cluster := upd s.cluster name none }.enqueue name)
  | .replaced name spec =>
    match s.cluster name with
    | none => some s
    | some (gen, _) =>
      if gen = 1 then some { s with cluster := upd s.cluster name (some (1, spec)) }
      else some ({ s with cluster := upd s.cluster name (some (1, spec)) }.enqueue name)
  | .reconcile name o => if s.pending.contains name then s.reconcile name o else some s
  | .add env name spec => s.addOperator env name spec
  | .start entries => some { s with started := true, starting := entries }
  | .startNext =>
    match s.starting with
    | [] => some s
    | e :: es => some ({ s with starting := es }.startOp e)

/-- A sequence of events. -/
def run (s : OpCtl) : List Ev → Option OpCtl
  | [] => some s
  | e :: es =>
    match s.step e with
    | none => none
    | some s => s.run es

end OpCtl
end Dctl
