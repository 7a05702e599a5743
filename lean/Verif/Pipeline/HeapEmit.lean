import Verif.Pipeline.HeapConvert
/-!
# Answers on their way out of a pipeline, in memory (`pkg/pipeline/zset_adaptor.go`)

The second half of `Evaluate`: the answer of the executor becomes a list of objects, which are compared with the target cache. `Verif/Pipeline/Adaptor.lean`
treats objects as values; here they are addresses, as in `Verif/Pipeline/HeapConvert.lean`.
-/
set_option autoImplicit false
namespace Dctl
namespace Mem

/-- The order in which Go visits a map (`zset_adaptor.go:261`, `309`, `314`; `pkg/dbsp/zset.go:194`): any permutation, which may depend on the number of
entries but does not look at them. (Every order of one call is of this form.) -/
structure Shuffle where
  run : {X : Type} → List X → List X
  natural : ∀ {X Y : Type} (f : X → Y) (l : List X), run (l.map f) = (run l).map f
  perm : ∀ {X : Type} (l : List X), (run l).Perm l

/-- The orders of one call of `Evaluate` or `Sync` apart from those of the executor: of the stores (in `Sync`), of the answer, of `grouped`, and twice of `deltaCache`.
Simplification: stores with the same number of objects are visited in the same order. -/
structure Shuffles where
  store : Shuffle
  list : Shuffle
  groups : Shuffle
  deletes : Shuffle
  upserts : Shuffle

/-- `SetName`, `SetNamespace` (library; used in `pkg/object/object.go:72-75`), in place: an empty string removes the field. -/
def setStrH (h : Heap) (a : Nat) (p : List String) (s : String) : Heap := if s = "" then removeNestedH p h a else setNestedH p h a (.str s)

/-- `pkg/object/object.go:79-85` `SetContent` of a new object: a copy of the document, then kind, namespace and name of the new object, which are empty. -/
def setContentM (doc : Nat) : M Nat := fun n h =>
  match copy n h (.ref doc) with
  | some (h', .ref a) =>
    some (setStrH (setStrH (setGVKH h' a (objGVK [])) a ["metadata", "namespace"] (objKey []).1) a ["metadata", "name"] (objKey []).2, .ok a)
  | _ => none

/-- `zset_adaptor.go:131-174`: the checks, those of `enforceDoc`; then the object. The assignments `zset_adaptor.go:150`, `166` write what is there already. -/
def enforceM (t : GVK) (doc : Nat) : M Nat := fun n h =>
  match read n h (.ref doc) with
  | some (.map m) =>
    match enforceDoc t m with
    | .error e => some (h, .error e)
    | .ok _ =>
      match setContentM doc n h with
      | some (h', .ok a) =>
        some (setStrH (setStrH (setGVKH h' a t) a ["metadata", "name"] (nestedString m ["metadata", "name"])) a ["metadata", "namespace"]
          (nestedString m ["metadata", "namespace"]), .ok a)
      | _ => none
  | _ => none

/-- `pkg/dbsp/zset.go:191-202` `List`: copies of the documents. -/
def listM : HZ CDoc → M (List (Nat × Int))
  | [] => .pure []
  | (_, a, m) :: z => (copyDoc a).bind (fun a' => (listM z).bind (fun l => .pure ((a', m) :: l)))

/-- `zset_adaptor.go:119-177`: the loop of `ConvertZSetToDelta`. -/
def emitGo (t : GVK) : List (Nat × Int) → M (List (Delta Nat))
  | [] => .pure []
  | (a, m) :: l =>
    if m = 0 then emitGo t l
    else (enforceM t a).bind (fun o => (emitGo t l).bind (fun ds => .pure (⟨if 0 < m then .added else .deleted, o⟩ :: ds)))

/-- `zset_adaptor.go:243-247`: the group of a key. The copy that `Get` makes is dropped. -/
def groupOfM (tgt : HStore) (gs : AMap ObjKey (KeyOps Nat)) (k : ObjKey) : M (KeyOps Nat) :=
  match AMap.get gs k with
  | some ops => .pure ops
  | none => (tgt.getM k).bind (fun x => .pure { existed := x.isSome })

/-- `zset_adaptor.go:239-256`: group all deltas by key. -/
def groupM (tgt : HStore) : AMap ObjKey (KeyOps Nat) → List (Delta Nat) → M (AMap ObjKey (KeyOps Nat))
  | gs, [] => .pure gs
  | gs, δ :: ds =>
    (objM δ.obj).bind (fun o => (groupOfM tgt gs (objKey o)).bind (fun ops =>
      match ops.push δ with
      | .error e => .fail e
      | .ok ops => groupM tgt (AMap.set gs (objKey o) ops) ds))

/-- `zset_adaptor.go:261-305`, the action for one key. What is emitted is the object itself, the target cache gets a copy. -/
def actM (tgt : HStore) (ops : KeyOps Nat) : M (HStore × Option (Delta Nat)) :=
  match ops.adds.getLast?, ops.dels.head? with
  | some a, none => (tgt.putM a).bind (fun s => .pure (s, some ⟨.upserted, a⟩))
  | none, some d => if ops.existed then (tgt.delM d).bind (fun s => .pure (s, some ⟨.deleted, d⟩)) else .pure (tgt, none)
  | some a, some _ => if ops.existed then (tgt.putM a).bind (fun s => .pure (s, some ⟨.upserted, a⟩)) else .pure (tgt, none)
  | none, none => .pure (tgt, none)

/-- `zset_adaptor.go:259-305`: all groups. -/
def actAllM : HStore → List (ObjKey × KeyOps Nat) → M (HStore × List (Delta Nat))
  | tgt, [] => .pure (tgt, [])
  | tgt, (_, ops) :: gs => (actM tgt ops).bind (fun x => (actAllM x.1 gs).bind (fun y => .pure (y.1, x.2.toList ++ y.2)))

/-- `zset_adaptor.go:232-321` `Reconcile`. -/
def reconcileM (σ : Shuffles) (tgt : HStore) (ds : List (Delta Nat)) : M (HStore × List (Delta Nat)) :=
  (groupM tgt [] ds).bind (fun gs => (actAllM tgt (σ.groups.run gs)).bind (fun x =>
    .pure (x.1, (σ.deletes.run x.2).filter (fun δ => δ.type = .deleted) ++ (σ.upserts.run x.2).filter (fun δ => δ.type = .upserted))))

/-- `pipeline.go:220-228`: `ConvertZSetToDelta`, then `Reconcile`. -/
def emitM (σ : Shuffles) (t : GVK) (tgt : HStore) (z : HZ CDoc) : M (HStore × List (Delta Nat)) :=
  (listM z).bind (fun l => (emitGo t (σ.list.run l)).bind (fun ds => reconcileM σ tgt ds))

variable {J : Type} [DecidableEq J]

/-- `pipeline.go:191-234` `Evaluate`. The answer: memory, source cache, graph, target cache, and the deltas emitted or an error. -/
def evaluateM (c : Cfg CDoc J) (σ : Shuffles) (t : GVK) (inputs : List String) (src : HSrc) (g : HGraph CDoc) (tgt : HStore) (ty : DeltaType) (a : Nat) (n : Nat) (h : Heap) :
    Option (Heap × HSrc × HGraph CDoc × HStore × Except Err (List (Delta Nat))) :=
  match feedM c inputs src g ty a n h with
  | none => none
  | some (h1, src', g', .error e) => some (h1, src', g', tgt, .error e)
  | some (h1, src', g', .ok z) =>
    match emitM σ t tgt z n h1 with
    | none => none
    | some (h2, .error e) => some (h2, src', g', tgt, .error e)
    | some (h2, .ok (tgt', ds)) => some (h2, src', g', tgt', .ok ds)

end Mem
end Dctl
