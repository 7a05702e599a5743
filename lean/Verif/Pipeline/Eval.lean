import Verif.Pipeline.New
import Verif.Pipeline.Adaptor
/-!
# `Pipeline.Evaluate` and `Pipeline.Sync` (`pkg/pipeline/pipeline.go`)
-/
set_option autoImplicit false
namespace Dctl
variable {D J : Type} [DecidableEq D] [DecidableEq J]

/-- `pkg/pipeline/pipeline.go:59-73` `Pipeline`; `snap` is `snapshotGraph`/`snapshotExecutor`. The mutex is implicit:
`Evaluate` and `Sync` are atomic steps. -/
structure Pipe (D J : Type) where
  sources : List GVK
  target : GVK
  graph : Graph D J
  snap : Option (Graph D J) := none
  src : SrcCache D := fun _ => []
  tgt : Store D := []

/-- `pipeline.go:77-170` `New`: the graph of the configuration over the kinds of the sources, empty caches. -/
def Pipe.new (target : GVK) (sources : List GVK) (cfg : List (PipeOp D J)) : Except Err (Pipe D J) :=
  match newPipeline (sources.map GVK.kind) cfg with
  | .error e => .error e
  | .ok g => .ok { sources := sources, target := target, graph := g }

/-- All map iteration orders of one call of `Evaluate` or `Sync`: of the executor, of the result Z-set, of
`Reconcile`, and of the listing of a store. -/
structure EvalOrder (D : Type) where
  exec : Order D
  list : ZSet D → ZSet D
  recon : RecOrder D
  store : Store D → Store D

/-- Iteration orders only permute. -/
structure EvalOrder.Valid (ω : EvalOrder D) : Prop where
  exec : ω.exec.Valid
  list : ∀ z, (ω.list z).Perm z
  recon : ω.recon.Valid
  store : ∀ s, (ω.store s).Perm s

/-- `pipeline.go:206-211`: one empty Z-set per source kind, then the change set under the kind of the object. -/
def evalInputs (sources : List GVK) (kind : String) (z : ZSet D) : AMap String (ZSet D) :=
  AMap.set (sources.foldl (fun m s => AMap.set m s.kind ([] : ZSet D)) ([] : AMap String (ZSet D))) kind z

/-- `pipeline.go:191-234` `Evaluate`. On errors the parts of the state already modified stay modified. -/
def Pipe.evaluate (O : ObjOps D) (ω : EvalOrder D) (p : Pipe D J) (δ : Delta D) :
    Pipe D J × Except Err (List (Delta D)) :=
  match convertDelta O p.src δ with
  | .error e => (p, .error e)
  | .ok (src', z) =>
    match p.graph.process ω.exec (evalInputs p.sources (O.gvk δ.obj).kind z) with
    | (g', .error e) => ({ p with src := src', graph := g' }, .error e)
    | (g', .ok r) =>
      match convertZSet O p.target (ω.list r) with
      | .error e => ({ p with src := src', graph := g' }, .error e)
      | .ok ds =>
        match reconcile O ω.recon p.tgt ds with
        | .error e => ({ p with src := src', graph := g' }, .error e)
        | .ok (tgt', ws) => ({ p with src := src', graph := g', tgt := tgt' }, .ok ws)

/-- `pipeline.go:278-287` and `299-307`: a store as Z-set, each object once, without view UIDs. -/
def storeZSet (O : ObjOps D) (s : Store D) : ZSet D :=
  s.foldl (fun z e => ZSet.addDoc z (O.removeUID e.2) 1) []

/-- `pipeline.go:251-266`: the snapshot graph, created on first use. -/
def Pipe.snapshot (p : Pipe D J) : Except Err (Graph D J) :=
  match p.snap with
  | some s => .ok s
  | none => p.graph.toSnapshot

/-- `pipeline.go:267-288`: the inputs of the snapshot executor. -/
def syncInputs (O : ObjOps D) (ω : EvalOrder D) (sources : List GVK) (src : SrcCache D) : AMap String (ZSet D) :=
  sources.foldl (fun m s => AMap.set m s.kind (storeZSet O (ω.store (src s)))) []

/-- `pipeline.go:247-332` `Sync`. -/
def Pipe.syncAll (O : ObjOps D) (ω : EvalOrder D) (p : Pipe D J) : Pipe D J × Except Err (List (Delta D)) :=
  match p.snapshot with
  | .error e => (p, .error e)
  | .ok s =>
    match s.process ω.exec (syncInputs O ω p.sources p.src) with
    | (s', .error e) => ({ p with snap := some s' }, .error e)
    | (s', .ok req) =>
      match convertZSet O p.target (ω.list (ZSet.sub req (storeZSet O (ω.store p.tgt)))) with
      | .error e => ({ p with snap := some s' }, .error e)
      | .ok ds =>
        match reconcile O ω.recon p.tgt ds with
        | .error e => ({ p with snap := some s' }, .error e)
        | .ok (tgt', ws) => ({ p with snap := some s', tgt := tgt' }, .ok ws)

/-- One call from a reconciler: `Evaluate` for an event, `Sync` for a tick of a periodic source
(`pkg/controller/reconcilers.go:58`, `108`). -/
def Pipe.step (O : ObjOps D) (p : Pipe D J) (e : EvalOrder D × Option (Delta D)) : Pipe D J × Except Err (List (Delta D)) :=
  match e.2 with
  | some δ => p.evaluate O e.1 δ
  | none => p.syncAll O e.1

end Dctl
