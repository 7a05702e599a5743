import Verif.Cache.HeapCache
import Verif.Pipeline.Eval
import Verif.Json.ObjectLemmas
/-!
# Deltas on their way into the engine, in memory (`pkg/pipeline/zset_adaptor.go`, `pkg/cache/store.go`, `pkg/object/uid.go`)

`Verif/Pipeline/Adaptor.lean` treats objects as values. Here an object is the address of its content, the stores of the source cache hold
addresses, and `DeepCopy` is called where the code calls it. Simplifications are those of `Verif/Cache/HeapCache.lean`.
-/
set_option autoImplicit false
namespace Dctl
namespace Mem

/-- `unstructured.RemoveNestedField` (library; used in `pkg/object/uid.go:41`), on memory: the last map is changed in place. -/
def removeNestedH : List String → Heap → Nat → Heap
  | [], h, _ => h
  | [k], h, a =>
    match h[a]? with
    | some (.map m) => h.set a (.map (SMap.erase m k))
    | _ => h
  | k :: k' :: p, h, a =>
    match h[a]? with
    | some (.map m) =>
      match SMap.get m k with
      | some (.ref x) =>
        match h[x]? with
        | some (.map _) => removeNestedH (k' :: p) h x
        | _ => h
      | _ => h
    | _ => h

/-- `pkg/object/object.go:107-111` `DeepCopy` as a step of a computation. -/
def copyObjM (a : Nat) : M Nat := fun n h => (copyObjH n h a).map (fun p => (p.1, .ok p.2))

/-- The content of an object, as its accessors see it (`GetName`, `GetNamespace`, `GroupVersionKind`: `zset_adaptor.go:19,25`). -/
def objM (a : Nat) : M Obj := fun n h =>
  match read n h (.ref a) with
  | some (.map o) => some (h, .ok o)
  | _ => none

/-- `pkg/object/uid.go:36-42` `RemoveUID`, in place. -/
def removeUIDM (a : Nat) : M Unit := fun n h =>
  match read n h (.ref a) with
  | some (.map o) => some (if !isViewKind (objGVK o) || objUID o == "" then h else removeNestedH ["metadata", "uid"] h a, .ok ())
  | _ => none

/-- `pkg/cache/store.go:10-12` `Store`: addresses by key. -/
abbrev HStore := AMap ObjKey Nat

/-- `pkg/pipeline/pipeline.go:66` `sourceCache`. A missing store behaves like an empty one (`zset_adaptor.go:20-22`). -/
abbrev HSrc := GVK → HStore

/-- `pkg/cache/store.go:47-53` `Get`: a copy. -/
def HStore.getM (s : HStore) (k : ObjKey) : M (Option Nat) :=
  match AMap.get s k with
  | none => .pure none
  | some x => (copyObjM x).bind (fun a => .pure (some a))

/-- `pkg/cache/store.go:20,23` `Add`, `Update`: a copy is stored, under the key of the object. -/
def HStore.putM (s : HStore) (a : Nat) : M HStore :=
  (copyObjM a).bind (fun a' => (objM a').bind (fun o => .pure (AMap.set s (objKey o) a')))

/-- `pkg/cache/store.go:26` `Delete`, with the key of the object. -/
def HStore.delM (s : HStore) (a : Nat) : M HStore := (objM a).bind (fun o => .pure (AMap.erase s (objKey o)))

/-- `zset_adaptor.go:39-49`: is the new object the old one, UIDs aside? -/
def sameM (t : DeltaType) (old : Option Nat) (a : Nat) : M Bool :=
  match old with
  | none => .pure false
  | some x =>
    if t.isUpsert then
      (copyObjM x).bind (fun x' => (removeUIDM x').bind (fun _ => (objM x').bind (fun o => (objM a).bind (fun o' => .pure (decide (o' = o))))))
    else .pure false

variable {J : Type} [DecidableEq J]

/-- `zset_adaptor.go:62-76`: the old version, if any, is retracted. -/
def retractM (c : Cfg CDoc J) (old : Option Nat) : M (HZ CDoc) :=
  match old with
  | none => .pure []
  | some x => addDoc c [] x (-1)

/-- `zset_adaptor.go:51-104`: the Z-set and the new source cache. `g` is the kind of the object (`zset_adaptor.go:19`). -/
def changeM (c : Cfg CDoc J) (src : HSrc) (t : DeltaType) (g : GVK) (old : Option Nat) (a : Nat) : M (HSrc × HZ CDoc) :=
  match t with
  | .added => (addDoc c [] a 1).bind (fun z => ((src g).putM a).bind (fun s => .pure (upd src g s, z)))
  | .updated | .replaced | .upserted =>
    (retractM c old).bind (fun z => (addDoc c z a 1).bind (fun z => ((src g).putM a).bind (fun s => .pure (upd src g s, z))))
  | .deleted =>
    match old with
    | none => .fail "delete for a nonexistent object"
    | some x => (addDoc c [] a (-1)).bind (fun z => ((src g).delM x).bind (fun s => .pure (upd src g s, z)))
  | .sync => .fail "unknown event"

/-- `zset_adaptor.go:16-107` `ConvertDeltaToZSet`, of the delta of type `t` with the object at `a`. -/
def convertM (c : Cfg CDoc J) (src : HSrc) (t : DeltaType) (a : Nat) : M (HSrc × HZ CDoc) :=
  (copyObjM a).bind (fun a1 => (objM a1).bind (fun o1 => ((src (objGVK o1)).getM (objKey o1)).bind (fun old => (removeUIDM a1).bind (fun _ =>
    (sameM t old a1).bind (fun same => if same then .pure (src, []) else changeM c src t (objGVK o1) old a1)))))

/-- `pipeline.go:203-210`: the inputs of the graph, in its order, empty but for that of the kind of the object. (In the code a map by kind, from
which the executor picks the inputs of the graph.) -/
def placed {Z : Type} (empty : Z) (inputs : List String) (kind : String) (z : Z) : List Z := inputs.map (fun s => if s = kind then z else empty)

/-- `pipeline.go:191-218`: the part of `Evaluate` up to the answer of the executor. The inputs of the graph are `inputs`: the kinds of the sources.
For an object of any other kind there is one Z-set too many (`pkg/dbsp/executor.go:35-38`). -/
def feedM (c : Cfg CDoc J) (inputs : List String) (src : HSrc) (g : HGraph CDoc) (t : DeltaType) (a : Nat) (n : Nat) (h : Heap) :
    Option (Heap × HSrc × HGraph CDoc × Except Err (HZ CDoc)) :=
  match read n h (.ref a) with
  | some (.map o) =>
    match convertM c src t a n h with
    | none => none
    | some (h1, .error e) => some (h1, src, g, .error e)
    | some (h1, .ok (src', z)) =>
      if (objGVK o).kind ∈ inputs then
        match g.process c (placed [] inputs (objGVK o).kind z) n h1 with
        | none => none
        | some (h2, g', r) => some (h2, src', g', r)
      else some (h1, src', g, .error "wrong number of inputs")
  | _ => none

end Mem
end Dctl
