import Verif.Operator.Status
import Verif.Operator.Lifecycle
import Verif.Operator.Pipeline
/-!
# Specification of controllers and operators
-/
set_option autoImplicit false
namespace Dctl

/-! ### errors -/

/-- A text as shown in a report: unchanged up to 245 bytes, otherwise its first 119 and last 120 bytes with "[...]" between them. -/
def Shortened (s t : Text) : Prop :=
  (s.length ≤ 245 → t = s) ∧
  (245 < s.length → ∃ a mid b, s = a ++ mid ++ b ∧ a.length = 119 ∧ b.length = 120 ∧ t = a ++ [91, 46, 46, 46, 93] ++ b)

/-- Every push comes at least two seconds after the one before. -/
def Apart : List Push → Prop
  | [] => True
  | [_] => True
  | p :: q :: l => 2000000000 ≤ q.time - p.time ∧ Apart (q :: l)

/-- The times of the pushes do not decrease. -/
def InOrder : List Push → Prop
  | [] => True
  | [_] => True
  | p :: q :: l => p.time ≤ q.time ∧ InOrder (q :: l)

/-- The name of a controller. -/
def StatusOf.called : StatusOf → String
  | .declarative n _ => n
  | .native n => n

/-! ### building controllers -/

/-- All sources have a kind and can be watched. -/
def SourcesOk (env : BuildEnv) (op : String) (srcs : List ResCfg) : Prop :=
  ∀ i s, srcs[i]? = some s → (∃ g, s.gvk env.native op = some g) ∧ env.setup i = true

/-- The kinds of the sources that are not periodic, in order. -/
def baseKinds (env : BuildEnv) (op : String) (srcs : List ResCfg) : List GVK := (srcs.filter (fun s => !s.periodic)).filterMap (fun s => s.gvk env.native op)

/-- A configuration a controller can be built from: a name, at least one source, a target; all kinds known, all sources watched, a valid pipeline. -/
def Buildable (env : BuildEnv) (op : String) (c : CtrlCfg) : Prop :=
  c.name ≠ "" ∧ c.sources ≠ [] ∧ (∃ t tg, c.target = some t ∧ t.gvk env.native op = some tg ∧ env.pipelineOk (baseKinds env op c.sources) tg = true) ∧
  SourcesOk env op c.sources

/-- The kinds a configuration mentions, as source or target. -/
def Mentions (env : BuildEnv) (op : String) (c : CtrlCfg) (g : GVK) : Prop :=
  (∃ t, c.target = some t ∧ t.gvk env.native op = some g) ∨ ∃ s ∈ c.sources, s.gvk env.native op = some g

/-- The kinds a controller uses. -/
def OpCtrl.Uses (op : String) (g : GVK) : OpCtrl → Prop
  | .declarative c env => Mentions env op c g
  | .native l => g ∈ l

/-- Its configuration is not rejected before the sources are set up. -/
def OpCtrl.Shaped (op : String) : OpCtrl → Prop
  | .declarative c env => c.name ≠ "" ∧ c.sources ≠ [] ∧ ∃ t tg, c.target = some t ∧ t.gvk env.native op = some tg
  | .native _ => True

/-! ### the operator controller -/

namespace OpCtl

/-- What the surroundings guarantee: requests are reconciled once the controller was started; it is started once, and then finds the operators of the map
in some order. -/
def Possible (s : OpCtl) : Ev → Prop
  | .reconcile _ _ => s.started = true
  | .start es => s.started = false ∧ es.Nodup ∧ ∀ e, e ∈ es ↔ s.operators e.name = some e
  | _ => True

/-- What is asked for besides: no request is reconciled while operators present at the start are still to be started; the program adds operators under new
names only; an object replaced without the informer noticing has its old specification, or another generation. -/
def Tame (s : OpCtl) : Ev → Prop
  | .reconcile _ _ => s.starting = []
  | .add _ name _ => s.operators name = none
  | .replaced name spec => ∀ gen old, s.cluster name = some (gen, old) → gen = 1 → old = spec
  | _ => True

/-- All events of a sequence satisfy a condition on the state they happen in. -/
def Along (P : OpCtl → Ev → Prop) (s : OpCtl) : List Ev → Prop
  | [] => True
  | e :: es => P s e ∧ ∀ s', s.step e = some s' → Along P s' es

/-- Only specifications with at most 64 controllers are used. -/
def Small : Ev → Prop
  | .apply _ spec | .replaced _ spec | .add _ _ spec => spec.length ≤ 64
  | _ => True

/-- The program adds no operator of the name. -/
def NotAdded (name : String) (es : List Ev) : Prop := ∀ e ∈ es, ∀ env spec, e ≠ .add env name spec

/-- The specification an object has in the end: the last one it was given since it was created, none if it was deleted. -/
def finalSpec (name : String) (es : List Ev) : Option (List CtrlCfg) :=
  es.foldl (fun cur e =>
    match e with
    | .apply n spec => if n = name then some spec else cur
    | .remove n => if n = name then none else cur
    | .replaced n spec => if n = name then cur.map (fun _ => spec) else cur
    | _ => cur) none

/-- The operators running under a name. -/
def instances (s : OpCtl) (name : String) : List OpInst := s.running.filter (fun e => e.name = name)

end OpCtl

/-! ### pipelines -/

/-- The operation a name stands for; two have an alias. -/
inductive Names : String → Expr → SpecOp → Prop
  | join (e) : Names "@join" e (.join e)
  | select (e) : Names "@select" e (.select e)
  | project (e) : Names "@project" e (.project e)
  | unwind (e) : Names "@unwind" e (.unwind e)
  | demux (e) : Names "@demux" e (.unwind e)
  | gather (e) : Names "@gather" e (.gather e)
  | mux (e) : Names "@mux" e (.gather e)

/-- An operation as it is to be written: an object with its name as only key and the expression as value. -/
def SpecOp.Written (env : Env) (j : Json) (o : SpecOp) : Prop := ∃ name ej e, j = .map [(name, ej)] ∧ unmarshalExpr env ej = .ok e ∧ Names name e o

/-- Written elements for a list of operations. -/
def AllWritten (env : Env) : List Json → List SpecOp → Prop
  | [], [] => True
  | j :: js, o :: os => o.Written env j ∧ AllWritten env js os
  | _, _ => False

/-- A pipeline as it is to be written: a list of operations, a single operation, or null for none. -/
def PipelineWritten (env : Env) (j : Json) (p : List SpecOp) : Prop :=
  (j = .null ∧ p = []) ∨ (∃ l, j = .list l ∧ AllWritten env l p) ∨ ∃ o, p = [o] ∧ o.Written env j

end Dctl
