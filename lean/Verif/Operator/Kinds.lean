import Verif.Cache.Group
/-!
# Building controllers, the kinds of an operator (`pkg/controller/declarative.go`, `pkg/operator/operator.go`)
-/
set_option autoImplicit false
namespace Dctl

/-- `pkg/api/operator/v1alpha1/controller_types.go:28-37` `Resource`, with the type of a source (`controller_types.go:40-75`): periodic or not. -/
structure ResCfg where
  group : Option String
  version : Option String
  kind : String
  periodic : Bool := false
deriving DecidableEq, Repr

/-- `controller_types.go:13-25` `Controller`, without the pipeline and the filters of the sources; an empty target is none. -/
structure CtrlCfg where
  name : String
  sources : List ResCfg
  target : Option ResCfg
deriving DecidableEq, Repr

/-- The REST mapper of the manager for native groups (`pkg/reconciler/resource.go:82-87`). -/
abbrev Mapper := String → String → Option GVK

/-- `pkg/reconciler/resource.go:51-90` `GetGVK` of a source or target of the operator `op`. -/
def ResCfg.gvk (native : Mapper) (op : String) (r : ResCfg) : Option GVK := resourceGVK native op r.group r.version r.kind

/-- What `NewDeclarative` meets: the REST mapper, if the runtime controller of the i-th source can be made and watches the source (`declarative.go:107-132`),
and if the pipeline can be made for the kinds of the sources and of the target (`declarative.go:138-143`). -/
structure BuildEnv where
  native : Mapper
  setup : Nat → Bool
  pipelineOk : List GVK → GVK → Bool

/-- The declarative controller (`declarative.go:24-33`): name, target, sources, the sources watched, the pipeline (by the kinds it was made for), the number of
critical errors pushed. -/
structure Built where
  name : String
  target : Option ResCfg
  sources : List ResCfg
  watched : List Nat
  pipeline : Option (List GVK)
  errors : Nat
deriving DecidableEq, Repr

/-- `declarative.go:88-135`: the sources one after the other, from the i-th; what is watched, the kinds of those that are not periodic, and if all went well. -/
def watchSources (env : BuildEnv) (op : String) (i : Nat) : List ResCfg → List Nat × List GVK × Bool
  | [] => ([], [], true)
  | s :: l =>
    match s.gvk env.native op with
    | none => ([], [], false)
    | some g =>
      if env.setup i then
        let r := watchSources env op (i + 1) l
        (i :: r.1, if s.periodic then r.2.1 else g :: r.2.1, r.2.2)
      else ([], [], false)

/-- `declarative.go:38-151` `NewDeclarative`; the controller is returned in any case, with an error if one was pushed. -/
def newDeclarative (env : BuildEnv) (op : String) (c : CtrlCfg) : Built :=
  if c.name = "" then ⟨"", none, [], [], none, 1⟩
  else if c.sources.length = 0 then ⟨c.name, none, [], [], none, 1⟩
  else
    match c.target with
    | none => ⟨c.name, none, [], [], none, 1⟩
    | some t =>
      match t.gvk env.native op with
      | none => ⟨c.name, some t, [], [], none, 1⟩
      | some tg =>
        let w := watchSources env op 0 c.sources
        if w.2.2 then
          if env.pipelineOk w.2.1 tg then ⟨c.name, some t, c.sources, w.1, some w.2.1, 0⟩
          else ⟨c.name, some t, c.sources, w.1, none, 1⟩
        else ⟨c.name, some t, c.sources, w.1, none, 1⟩

/-- `declarative.go:163-169`: the kinds of the sources; those without one are skipped. -/
def sourceGVKs (native : Mapper) (op : String) : List ResCfg → List GVK
  | [] => []
  | s :: l =>
    match s.gvk native op with
    | none => sourceGVKs native op l
    | some g => g :: sourceGVKs native op l

/-- `declarative.go:157-162`: the kind of the target. -/
def targetGVKs (native : Mapper) (op : String) : Option ResCfg → List GVK
  | none => []
  | some t =>
    match t.gvk native op with
    | none => []
    | some g => [g]

/-- `declarative.go:157-173` `GetGVKs`. -/
def ctrlGVKs (native : Mapper) (op : String) (c : Built) : List GVK := targetGVKs native op c.target ++ sourceGVKs native op c.sources

/-- `operator.go:275-285`: the kinds of the own group, each once; `seen` are those taken so far. -/
def ownKinds (group : String) : List GVK → List GVK → List GVK
  | [], _ => []
  | g :: l, seen =>
    if g.group ≠ group then ownKinds group l seen
    else if seen.contains g then ownKinds group l seen
    else g :: ownKinds group l (g :: seen)

/-- The controllers of an operator: declarative ones by their configuration and what they met, native ones by their kinds (`native.go:42-44`). -/
inductive OpCtrl where
  | declarative (c : CtrlCfg) (env : BuildEnv)
  | native (gvks : List GVK)

/-- The kinds of a controller of the operator. -/
def OpCtrl.gvks (op : String) : OpCtrl → List GVK
  | .declarative c env => ctrlGVKs env.native op (newDeclarative env op c)
  | .native l => l

/-- `operator.go:269-288` `GetGVKs`. -/
def operatorGVKs (op : String) (cs : List OpCtrl) : List GVK :=
  ownKinds (viewGroup op) (cs.flatMap (OpCtrl.gvks op)) []

end Dctl
