import Verif.Pipeline.HeapEmit
/-!
# `Sync` in memory (`pkg/pipeline/pipeline.go`)

`Verif/Pipeline/Eval.lean` treats objects as values; here they are addresses, as in `Verif/Pipeline/HeapConvert.lean` and `Verif/Pipeline/HeapEmit.lean`.
-/
set_option autoImplicit false
namespace Dctl
namespace Mem
variable {J : Type} [DecidableEq J]

/-- `pkg/cache/store.go:29-36` `List`: copies of the objects. -/
def storeListM : HStore → M (List Nat)
  | [] => .pure []
  | (_, a) :: s => (copyObjM a).bind (fun a' => (storeListM s).bind (fun l => .pure (a' :: l)))

/-- `pipeline.go:279-286`, `300-307`: the loops over the objects listed. Each is copied again. -/
def storeGo (c : Cfg CDoc J) : HZ CDoc → List Nat → M (HZ CDoc)
  | z, [] => .pure z
  | z, a :: l => (copyObjM a).bind (fun a1 => (removeUIDM a1).bind (fun _ => (addDoc c z a1 1).bind (fun z' => storeGo c z' l)))

/-- `pipeline.go:278-286`, `299-307`: a store as Z-set. -/
def storeM (c : Cfg CDoc J) (σ : Shuffle) (s : HStore) : M (HZ CDoc) := (storeListM (σ.run s)).bind (storeGo c [])

/-- `pipeline.go:267-288`: the inputs of the snapshot graph, in its order. (In the code a map by kind, from which the executor picks the inputs.) -/
def inputsM (c : Cfg CDoc J) (σ : Shuffle) (src : HSrc) : List GVK → M (List (HZ CDoc))
  | [] => .pure []
  | s :: ss => (storeM c σ (src s)).bind (fun z => (inputsM c σ src ss).bind (fun zs => .pure (z :: zs)))

/-- `pipeline.go:267-313`: run the snapshot graph on the source cache, and subtract the target cache. The answer: memory, snapshot graph, and the difference or an error. -/
def diffM (c : Cfg CDoc J) (σ : Shuffles) (sources : List GVK) (src : HSrc) (sg : HGraph CDoc) (tgt : HStore) (n : Nat) (h : Heap) :
    Option (Heap × HGraph CDoc × Except Err (HZ CDoc)) :=
  match inputsM c σ.store src sources n h with
  | none => none
  | some (h1, .error e) => some (h1, sg, .error e)
  | some (h1, .ok ins) =>
    match sg.process c ins n h1 with
    | none => none
    | some (h2, sg', .error e) => some (h2, sg', .error e)
    | some (h2, sg', .ok req) =>
      match ((storeM c σ.store tgt).bind (fun cur => subZ c req cur)) n h2 with
      | none => none
      | some (h3, r) => some (h3, sg', r)

/-- `pipeline.go:267-332`: `Sync` with a snapshot graph. The answer: memory, snapshot graph, target cache, and the deltas emitted or an error. -/
def syncRunM (c : Cfg CDoc J) (σ : Shuffles) (t : GVK) (sources : List GVK) (src : HSrc) (sg : HGraph CDoc) (tgt : HStore) (n : Nat) (h : Heap) :
    Option (Heap × HGraph CDoc × HStore × Except Err (List (Delta Nat))) :=
  match diffM c σ sources src sg tgt n h with
  | none => none
  | some (h1, sg', .error e) => some (h1, sg', tgt, .error e)
  | some (h1, sg', .ok z) =>
    match emitM σ t tgt z n h1 with
    | none => none
    | some (h2, .error e) => some (h2, sg', tgt, .error e)
    | some (h2, .ok (tgt', ds)) => some (h2, sg', tgt', .ok ds)

/-- `pkg/dbsp/graph_converter.go:97-122` `convertToSnapshotOperator`. The operators that go into the snapshot graph as they are keep nothing. -/
def HOp.toSnapshot : HOp CDoc → Except Err (HOp CDoc)
  | .project e => .ok (.project e)
  | .select e => .ok (.select e)
  | .distinct => .ok .distinct
  | .projSel p s => .ok (.projSel p s)
  | .selProjs s ps => .ok (.selProjs s ps)
  | .gather g => .ok (.gather g)
  | .integ _ => .error "IntegratorOp cannot be converted to snapshot"
  | .diff _ => .error "DifferentiatorOp cannot be converted to snapshot"
  | .delay _ => .error "DelayOp cannot be converted to snapshot"
  | _ => .error "unsupported operator type for snapshot conversion"

/-- `graph_converter.go:63-77` `convertToSnapshotJoin`. -/
def HJoin.toSnapshot : HJoin CDoc → HJoin CDoc
  | .snap e names => .snap e names
  | .incr e names _ => .snap e names

/-- `graph_converter.go:50-57`: the operators of the chain. -/
def snapChainM : List (HOp CDoc) → Except Err (List (HOp CDoc))
  | [] => .ok []
  | o :: os =>
    match o.toSnapshot with
    | .error e => .error e
    | .ok o' =>
      match snapChainM os with
      | .error e => .error e
      | .ok r => .ok (o' :: r)

/-- `graph_converter.go:12-14`, `25-60` `ToSnapshotGraph`, after `chain.go:122-143` `Validate`. -/
def HGraph.toSnapshot (inputs : List String) (g : HGraph CDoc) : Except Err (HGraph CDoc) :=
  if inputs = [] then .error "no input nodes"
  else if inputs.length > 1 ∧ g.join.isNone then .error "multiple inputs require a join node"
  else
    match snapChainM g.chain with
    | .error e => .error e
    | .ok r => .ok ⟨g.join.map HJoin.toSnapshot, r⟩

/-- `pipeline.go:251-265`: the snapshot graph, made on first use. -/
def snapshotM (inputs : List String) (g : HGraph CDoc) : Option (HGraph CDoc) → Except Err (HGraph CDoc)
  | some sg => .ok sg
  | none => g.toSnapshot inputs

/-- `pipeline.go:247-332` `Sync`. The answer: memory, snapshot graph, target cache, and the deltas emitted or an error. -/
def syncM (c : Cfg CDoc J) (σ : Shuffles) (t : GVK) (sources : List GVK) (inputs : List String) (src : HSrc) (g : HGraph CDoc) (sn : Option (HGraph CDoc)) (tgt : HStore) (n : Nat)
    (h : Heap) : Option (Heap × Option (HGraph CDoc) × HStore × Except Err (List (Delta Nat))) :=
  match snapshotM inputs g sn with
  | .error e => some (h, sn, tgt, .error e)
  | .ok sg =>
    match syncRunM c σ t sources src sg tgt n h with
    | none => none
    | some (h', sg', tgt', r) => some (h', some sg', tgt', r)

end Mem
end Dctl
