import Verif.Cache.View
import Verif.Dbsp.Heap
/-!
# Objects of the view cache in memory (`pkg/object/object.go`, `pkg/cache/view_cache.go`, `view_cache_informer.go`, `util.go`)

`Verif/Cache/View.lean` treats objects as values. Here an object is the address of its content in memory, as in the code:
the cache stores addresses, hands out addresses and calls handlers with addresses; `DeepCopy` is called where the code calls it.

Simplifications: an `Unstructured` is not distinguished from the map it points to; the fields of a map are kept sorted by key. Which
handlers are registered is left open here (any number of them may be called for an event, see C41 and C43). Transforms are left out
(`SetTransform` is never called), so is logging.
-/
set_option autoImplicit false
namespace Dctl
namespace Mem

/-- `unstructured.SetNestedField` (library; used by `SetGroupVersionKind`, `SetUID` in `pkg/object/object.go:98`, `uid.go:31`), on memory: the last map is
changed in place, missing maps are allocated. Nothing happens if something on the way is no map. -/
def setNestedH : List String → Heap → Nat → Val → Heap
  | [], h, _, _ => h
  | [k], h, a, v =>
    match h[a]? with
    | some (.map m) => h.set a (.map (SMap.set m k v))
    | _ => h
  | k :: k' :: p, h, a, v =>
    match h[a]? with
    | some (.map m) =>
      match SMap.get m k with
      | some (.ref x) =>
        match h[x]? with
        | some (.map _) => setNestedH (k' :: p) h x v
        | _ => h
      | some _ => h
      | none => setNestedH (k' :: p) (h.set a (.map (SMap.set m k (.ref h.length))) ++ [.map []]) h.length v
    | _ => h

/-- `obj.SetGroupVersionKind` (library; used in `pkg/object/object.go:98`), in place. -/
def setGVKH (h : Heap) (a : Nat) (t : GVK) : Heap :=
  setNestedH ["kind"] (setNestedH ["apiVersion"] h a (.str (gvString t))) a (.str t.kind)

/-- `pkg/object/object.go:93-111` `DeepCopyInto`, `DeepCopy`: copy the content (`runtime.DeepCopyJSON`, the same function as `DeepCopyAny`), then write
the kind into the copy. `DeepCopyInto` puts the new map in the place of the old one of its target. -/
def copyObjH (n : Nat) (h : Heap) (a : Nat) : Option (Heap × Nat) :=
  match read n h (.ref a), copy n h (.ref a) with
  | some (.map o), some (h', .ref a') => some (setGVKH h' a' (objGVK o), a')
  | _, _ => none

/-- `pkg/object/uid.go:26-32` `WithUID`, in place. (`hash` never answers the empty string, for which `SetUID` would remove the field.) -/
def withUIDH (hash : String → String) (n : Nat) (h : Heap) (a : Nat) : Option Heap :=
  match read n h (.ref a) with
  | some (.map o) =>
    if !isViewKind (objGVK o) || objUID o != "" then some h
    else some (setNestedH ["metadata", "uid"] h a (.str (newUID hash (objGVK o) (objKey o).1 (objKey o).2)))
  | _ => none

/-- A call of a handler that `TriggerEvent` is about to make (`view_cache_informer.go:176-184`): the objects it was given. -/
inductive PEv where
  | add (a : Nat)
  | update (old a : Nat)
  | delete (a : Nat)
deriving DecidableEq

/-- The object of which handlers get a copy (`view_cache_informer.go:178,181,184`). -/
def PEv.obj : PEv → Nat
  | .add a => a
  | .update _ a => a
  | .delete a => a

/-- The event with another object in its place (`view_cache_informer.go:178,181,184`). -/
def PEv.withObj : PEv → Nat → PEv
  | .add _, b => .add b
  | .update old _, b => .update old b
  | .delete _, b => .delete b

/-- `view_cache.go:33-44` `ViewCache`: memory, the indexers, the calls of handlers under way; and the addresses that the rest of the program has
got hold of. -/
structure HState where
  heap : Heap
  stored : GVK → AMap String Nat
  pending : List PEv
  known : List Nat

/-- `view_cache.go:47-61` `NewViewCache`, before anything is allocated. -/
def HState.init : HState := ⟨[], fun _ => [], [], []⟩

namespace HState

/-- `view_cache.go:262-277,313-328,374-389` with `view_cache_informer.go:166-188`: `tg` handlers are to be called. -/
def notify (s : HState) (e : PEv) (tg : Nat) : HState := { s with pending := s.pending ++ List.replicate tg e }

/-- `view_cache.go:236-280` `Add`. -/
def add (hash : String → String) (n : Nat) (s : HState) (a tg : Nat) : Option (HState × Bool) :=
  match read n s.heap (.ref a) with
  | some (.map o) =>
    if isViewKind (objGVK o) then
      match copyObjH n s.heap a with
      | none => none
      | some (h1, a') =>
        match withUIDH hash n h1 a' with
        | none => none
        | some h2 =>
          match read n h2 (.ref a') with
          | some (.map o') =>
            some ({ s with heap := h2, stored := upd s.stored (objGVK o) ((s.stored (objGVK o)).set (cacheKey (objKey o')) a') }.notify (.add a') tg, true)
          | _ => none
    else some (s, false)
  | _ => none

/-- `view_cache.go:283-331` `Update`. The old object given goes to the handlers as it is (`view_cache_informer.go:181`): it stays with the rest of the
program. -/
def update (hash : String → String) (n : Nat) (s : HState) (old a tg : Nat) : Option (HState × Bool) :=
  match copyObjH n s.heap a with
  | none => none
  | some (h1, a') =>
    match withUIDH hash n h1 a' with
    | none => none
    | some h2 =>
      match read n h2 (.ref a'), read n h2 (.ref old) with
      | some (.map o'), some oldO =>
        if isViewKind (objGVK o') then
          if oldO = .map o' then some ({ s with heap := h2 }, true)
          else
            some ({ s with
              heap := h2, stored := upd s.stored (objGVK o') ((s.stored (objGVK o')).set (cacheKey (objKey o')) a'), known := old :: s.known }.notify (.update old a') tg, true)
        else some ({ s with heap := h2 }, false)
      | _, _ => none

/-- `view_cache.go:334-392` `Delete`: the object with the key of the one given is removed and handed to the handlers. -/
def delete (n : Nat) (s : HState) (a tg : Nat) : Option (HState × Bool) :=
  match read n s.heap (.ref a) with
  | some (.map o) =>
    if isViewKind (objGVK o) then
      match (s.stored (objGVK o)).get (cacheKey (objKey o)) with
      | none => some (s, false)
      | some x =>
        match read n s.heap (.ref x) with
        | some (.map xo) =>
          some ({ s with stored := upd s.stored (objGVK o) ((s.stored (objGVK o)).erase (cacheKey (objKey xo))) }.notify (.delete x) tg, true)
        | _ => none
    else some (s, false)
  | _ => none

/-- Something is given to the rest of the program. (Not code: returning from a call of the cache, calling a handler.) -/
def give (s : HState) (h : Heap) (as : List Nat) : HState := { s with heap := h, known := as ++ s.known }

/-- `view_cache.go:402-438` `Get`. -/
def get (n : Nat) (s : HState) (g : GVK) (k : ObjKey) : Option (HState × Option Nat) :=
  if isViewKind g then
    match (s.stored g).get (cacheKey k) with
    | none => some (s, none)
    | some x =>
      match copyObjH n s.heap x with
      | none => none
      | some (h1, a') => some (s.give h1 [a'], some a')
  else some (s, none)

/-- `view_cache.go:480-503` with `util.go:24-35` `AppendToListItem`: the loop in `List`. Each object is copied twice. -/
def listGo (n : Nat) (sel : Select) : Heap → List Nat → Option (Heap × List Nat)
  | h, [] => some (h, [])
  | h, x :: t =>
    match read n h (.ref x) with
    | some (.map o) =>
      if sel.includes o then
        match copyObjH n h x with
        | none => none
        | some (h1, a1) =>
          match copyObjH n h1 a1 with
          | none => none
          | some (h2, a2) =>
            match listGo n sel h2 t with
            | none => none
            | some (h3, as) => some (h3, a2 :: as)
      else listGo n sel h t
    | _ => none

/-- `view_cache.go:441-506` `List`. -/
def list (n : Nat) (s : HState) (listKind : GVK) (sel : Select) : Option (HState × Option (List Nat)) :=
  if isViewKind (objFromList listKind) then
    match listGo n sel s.heap ((s.stored (objFromList listKind)).map (·.2)) with
    | none => none
    | some (h1, as) => some (s.give h1 as, some as)
  else some (s, none)

/-- `view_cache_informer.go:166-188`: one call of a handler, out of those under way. Also `view_cache_informer.go:101`, a call with an object of the
initial list. -/
def deliver (n : Nat) (s : HState) (i : Nat) : Option (HState × PEv) :=
  match s.pending[i]? with
  | none => none
  | some e =>
    match copyObjH n s.heap e.obj with
    | none => none
    | some (h1, a') => some ({ s with pending := s.pending.eraseIdx i }.give h1 [a'], e.withObj a')

/-- `view_cache_informer.go:61-80` `AddEventHandler`: the new handler is to be called with what is stored, in some order (`is`: the
positions in the indexer). -/
def register (s : HState) (g : GVK) (is : List Nat) : HState :=
  { s with pending := s.pending ++ (is.filterMap (fun i => ((s.stored g)[i]?).map (·.2))).map .add }

/-- `view_cache_informer.go:193-200` `GetStore`, `GetIndexer`: the caller gets the indexer itself, and with it the stored objects. -/
def indexer (s : HState) (g : GVK) : HState := { s with known := (s.stored g).map (·.2) ++ s.known }

end HState

end Mem
end Dctl
