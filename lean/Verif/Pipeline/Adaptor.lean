import Verif.Dbsp.Graph
import Verif.Util.Assoc
/-!
# Objects, deltas and the Z-set adaptor (`pkg/object`, `pkg/pipeline/zset_adaptor.go`, `pkg/cache/store.go`)
-/
set_option autoImplicit false
namespace Dctl
variable {D : Type} [DecidableEq D]

/-- `schema.GroupVersionKind`. -/
structure GVK where
  group : String
  version : String
  kind : String
deriving DecidableEq, Repr

/-- Namespace and name of an object. `client.ObjectKeyFromObject(o).String()` and `MetaNamespaceKeyFunc` join them
with a slash; Kubernetes names contain no slash, so the pair is used instead of the string. -/
abbrev ObjKey := String × String

/-- The operations on unstructured objects the pipeline uses. `Verif/Json/Object.lean` gives the JSON
implementation.
* `gvk`: `obj.GetObjectKind().GroupVersionKind()`
* `key`: `obj.GetNamespace()`, `obj.GetName()`
* `removeUID`: `pkg/object/uid.go:36-42`
* `enforce t d`: `zset_adaptor.go:131-174`, check the metadata of a result document and turn it into an object
  of the target kind `t`. -/
structure ObjOps (D : Type) where
  gvk : D → GVK
  key : D → ObjKey
  removeUID : D → D
  enforce : GVK → D → Except Err D

/-- Laws of object operations. -/
structure ObjOps.Lawful (O : ObjOps D) : Prop where
  gvk_uid : ∀ d, O.gvk (O.removeUID d) = O.gvk d
  key_uid : ∀ d, O.key (O.removeUID d) = O.key d
  uid_idem : ∀ d, O.removeUID (O.removeUID d) = O.removeUID d
  enforce_idem : ∀ t d o, O.enforce t d = .ok o → O.enforce t o = .ok o
  enforce_uid : ∀ t o, O.enforce t o = .ok o → O.enforce t (O.removeUID o) = .ok (O.removeUID o)

/-- `pkg/object/delta.go:11-20` `DeltaType`. -/
inductive DeltaType where
  | added | deleted | updated | replaced | sync | upserted
deriving DecidableEq, Repr

/-- `pkg/object/delta.go:27-30` `Delta`. -/
structure Delta (D : Type) where
  type : DeltaType
  obj : D
deriving DecidableEq, Repr

/-- `pkg/cache/store.go:10-12` `Store`: objects by key. Deep copies are implicit (values are immutable). -/
abbrev Store (D : Type) := AMap ObjKey D

/-- `pkg/pipeline/pipeline.go:66` `sourceCache map[GVK]*cache.Store`. A missing store behaves like an empty one. -/
abbrev SrcCache (D : Type) := GVK → Store D

/-- Go `p.sourceCache[gvk] = s`. -/
def SrcCache.put (c : SrcCache D) (g : GVK) (s : Store D) : SrcCache D := fun g' => if g' = g then s else c g'

/-- The delta types handled as "delete the old version, add the new one" (`zset_adaptor.go:62`). -/
def DeltaType.isUpsert : DeltaType → Bool
  | .updated | .replaced | .upserted => true
  | _ => false

/-- The Z-set of an update (`zset_adaptor.go:63-76`): retract the old version if any, add the new one. -/
def updateZSet (old : Option D) (new : D) : ZSet D :=
  match old with
  | some o => (ZSet.addDoc [] o (-1)).addDoc new 1
  | none => ZSet.addDoc [] new 1

/-- `zset_adaptor.go:16-107` `ConvertDeltaToZSet`: new source cache and change set. -/
def convertDelta (O : ObjOps D) (c : SrcCache D) (δ : Delta D) : Except Err (SrcCache D × ZSet D) :=
  let g := O.gvk δ.obj
  let k := O.key δ.obj
  let old := (c g).get k
  let d := O.removeUID δ.obj
  if δ.type.isUpsert ∧ old.map O.removeUID = some d then .ok (c, [])
  else
    match δ.type with
    | .added => .ok (c.put g ((c g).set k d), ZSet.addDoc [] d 1)
    | .updated | .replaced | .upserted => .ok (c.put g ((c g).set k d), updateZSet old d)
    | .deleted =>
      match old with
      | none => .error "delete for a nonexistent object"
      | some _ => .ok (c.put g ((c g).erase k), ZSet.addDoc [] d (-1))
    | .sync => .error "unknown event"

/-- `zset_adaptor.go:110-180` `ConvertZSetToDelta` on the entries in list order. -/
def convertZSet (O : ObjOps D) (t : GVK) : ZSet D → Except Err (List (Delta D))
  | [] => .ok []
  | (d, m) :: z =>
    if m = 0 then convertZSet O t z
    else
      match O.enforce t d with
      | .error e => .error e
      | .ok o =>
        match convertZSet O t z with
        | .error e => .error e
        | .ok ds => .ok (⟨if 0 < m then .added else .deleted, o⟩ :: ds)

/-- `zset_adaptor.go:234-238` `keyOps`. -/
structure KeyOps (D : Type) where
  adds : List D := []
  dels : List D := []
  existed : Bool

/-- `zset_adaptor.go:248-255`: append a delta to its group. -/
def KeyOps.push (ops : KeyOps D) (δ : Delta D) : Except Err (KeyOps D) :=
  match δ.type with
  | .added => .ok { ops with adds := ops.adds ++ [δ.obj] }
  | .deleted => .ok { ops with dels := ops.dels ++ [δ.obj] }
  | _ => .error "unexpected delta type in z-set"

/-- `zset_adaptor.go:243-247`: the group of a key, created on first sight with a snapshot of the target cache. -/
def groupOf (tgt : Store D) (gs : AMap ObjKey (KeyOps D)) (k : ObjKey) : KeyOps D :=
  match gs.get k with
  | some ops => ops
  | none => { existed := (tgt.get k).isSome }

/-- `zset_adaptor.go:239-256`: group all deltas by key. -/
def groupDeltas (O : ObjOps D) (tgt : Store D) :
    AMap ObjKey (KeyOps D) → List (Delta D) → Except Err (AMap ObjKey (KeyOps D))
  | gs, [] => .ok gs
  | gs, δ :: ds =>
    match (groupOf tgt gs (O.key δ.obj)).push δ with
    | .error e => .error e
    | .ok ops => groupDeltas O tgt (gs.set (O.key δ.obj) ops) ds

/-- `zset_adaptor.go:261-305`, the action for one key: target cache and the write recorded in `deltaCache`. The cache is
accessed with the key of the object, which is the key of its group. -/
def actOn (O : ObjOps D) (tgt : Store D) (ops : KeyOps D) : Store D × Option (Delta D) :=
  match ops.adds.getLast?, ops.dels.head? with
  | some a, none => (tgt.set (O.key a) a, some ⟨.upserted, a⟩)
  | none, some d => if ops.existed then (tgt.erase (O.key d), some ⟨.deleted, d⟩) else (tgt, none)
  | some a, some _ => if ops.existed then (tgt.set (O.key a) a, some ⟨.upserted, a⟩) else (tgt, none)
  | none, none => (tgt, none)

/-- `zset_adaptor.go:259-305`: process all groups in the given order. -/
def actAll (O : ObjOps D) : Store D → List (ObjKey × KeyOps D) → Store D × List (Delta D)
  | tgt, [] => (tgt, [])
  | tgt, (_, ops) :: gs =>
    let (tgt', w) := actOn O tgt ops
    let (tgt'', ws) := actAll O tgt' gs
    (tgt'', w.toList ++ ws)

/-- Iteration orders of the maps `grouped` and `deltaCache` in `Reconcile` (`zset_adaptor.go:261`, `309`, `314`). -/
structure RecOrder (D : Type) where
  groups : List (ObjKey × KeyOps D) → List (ObjKey × KeyOps D)
  deletes : List (Delta D) → List (Delta D)
  upserts : List (Delta D) → List (Delta D)

/-- Iteration orders only permute. -/
structure RecOrder.Valid (ρ : RecOrder D) : Prop where
  groups : ∀ l, (ρ.groups l).Perm l
  deletes : ∀ l, (ρ.deletes l).Perm l
  upserts : ∀ l, (ρ.upserts l).Perm l

/-- `zset_adaptor.go:232-321` `Reconcile`. -/
def reconcile (O : ObjOps D) (ρ : RecOrder D) (tgt : Store D) (ds : List (Delta D)) :
    Except Err (Store D × List (Delta D)) :=
  match groupDeltas O tgt [] ds with
  | .error e => .error e
  | .ok gs =>
    let (tgt', ws) := actAll O tgt (ρ.groups gs)
    .ok (tgt', (ρ.deletes ws).filter (fun δ => δ.type = .deleted) ++ (ρ.upserts ws).filter (fun δ => δ.type = .upserted))

end Dctl
