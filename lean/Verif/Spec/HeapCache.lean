import Verif.Cache.HeapCache
import Verif.Spec.Heap
import Verif.Spec.Cache
/-!
# What the rest of the program may do with memory, and what the cache is on values

Specification for C122. Nothing here models code.
-/
set_option autoImplicit false
namespace Dctl
namespace Mem

/-- The rest of the program can get at the cell `b`: from something it was given or made itself, following fields and elements. -/
def HState.Knows (s : HState) (b : Nat) : Prop := ∃ a ∈ s.known, Reach s.heap (.ref a) b

/-- The cache holds the cell `b`: it is part of an object that is stored or with which handlers are still to be called. -/
def HState.Holds (s : HState) (b : Nat) : Prop :=
  (∃ g, ∃ p ∈ s.stored g, Reach s.heap (.ref p.2) b) ∨ ∃ e ∈ s.pending, Reach s.heap (.ref e.obj) b

/-- The addresses in a cell. -/
def Cell.Refers : Cell → Nat → Prop
  | .map m, b => ∃ k, (k, Val.ref b) ∈ m
  | .list l, b => Val.ref b ∈ l

/-- What the rest of the program may do, at any time: make a new map or list, or overwrite one it can get at, with anything it can get at. -/
inductive Other : HState → HState → Prop
  | alloc (s : HState) (c : Cell) : (∀ b, c.Refers b → s.Knows b) → Other s { s with heap := s.heap ++ [c], known := s.heap.length :: s.known }
  | write (s : HState) (b : Nat) (c : Cell) : s.Knows b → (∀ b', c.Refers b' → s.Knows b') → Other s { s with heap := s.heap.set b c }

/-- A call of the cache or by the cache, with the values that were given and received at that moment. -/
inductive HCall where
  | add (o : Obj) (tg : Nat) (ok : Bool)
  | update (old o : Obj) (tg : Nat) (ok : Bool)
  | delete (o : Obj) (tg : Nat) (ok : Bool)
  | get (g : GVK) (k : ObjKey) (r : Option Obj)
  | list (g : GVK) (sel : Select) (r : Option (List Obj))
  | deliver (i : Nat) (e : CEv)
  | register (g : GVK) (is : List Nat)

/-- The address stands for the object: there is a map at it whose content is that of the object. -/
def ObjAt (h : Heap) (a : Nat) (o : Obj) : Prop := Reads h (.ref a) (.map o)

/-- The event in memory stands for the event. The old version in updates is what it has become meanwhile, if it still is an object. -/
def EvAt (h : Heap) : PEv → CEv → Prop
  | .add a, .add o => ObjAt h a o
  | .update old a, .update oldO o => (∀ x, ObjAt h old x → x = oldO) ∧ ObjAt h a o
  | .delete a, .delete o => ObjAt h a o
  | _, _ => False

/-- Nothing in, nothing out, or the same address and object. -/
def ResAt (h : Heap) : Option Nat → Option Obj → Prop
  | none, none => True
  | some a, some o => ObjAt h a o
  | _, _ => False

/-- Addresses and objects, position by position. -/
def ListAt (h : Heap) : Option (List Nat) → Option (List Obj) → Prop
  | none, none => True
  | some as, some os => All2 (ObjAt h) as os
  | _, _ => False

/-- Indexers in memory and indexers on values: the same keys, with addresses that stand for the objects. -/
def HState.Is (s : HState) (c : VCache) : Prop := ∀ g, All2 (fun p q => p.1 = q.1 ∧ ObjAt s.heap p.2 q.2) (s.stored g) (c.stored g)

/-- A call. The callers give objects they can get at, and these are JSON objects (`Obj.Ok`: no value of other types, no cycles). -/
inductive HStep (hash : String → String) : HState → HCall → HState → Prop
  | add {s s' : HState} {n a tg : Nat} {o : Obj} {ok : Bool} : s.Knows a → ObjAt s.heap a o → Obj.Ok o → s.add hash n a tg = some (s', ok) →
      HStep hash s (.add o tg ok) s'
  | update {s s' : HState} {n old a tg : Nat} {oldO o : Obj} {ok : Bool} : s.Knows old → s.Knows a → ObjAt s.heap old oldO → ObjAt s.heap a o → Obj.Ok o →
      s.update hash n old a tg = some (s', ok) → HStep hash s (.update oldO o tg ok) s'
  | delete {s s' : HState} {n a tg : Nat} {o : Obj} {ok : Bool} : s.Knows a → ObjAt s.heap a o → s.delete n a tg = some (s', ok) →
      HStep hash s (.delete o tg ok) s'
  | get {s s' : HState} {n : Nat} {g : GVK} {k : ObjKey} {a : Option Nat} {r : Option Obj} : s.get n g k = some (s', a) → ResAt s'.heap a r →
      HStep hash s (.get g k r) s'
  | list {s s' : HState} {n : Nat} {g : GVK} {sel : Select} {as : Option (List Nat)} {r : Option (List Obj)} : s.list n g sel = some (s', as) →
      ListAt s'.heap as r → HStep hash s (.list g sel r) s'
  | deliver {s s' : HState} {n i : Nat} {p : PEv} {e : CEv} : s.deliver n i = some (s', p) → EvAt s'.heap p e → HStep hash s (.deliver i e) s'
  | register {s : HState} {g : GVK} {is : List Nat} : is.Perm (List.range (s.stored g).length) → HStep hash s (.register g is) (s.register g is)

/-- What happened: calls, with the rest of the program doing what it likes with its memory in between. -/
inductive HRun (hash : String → String) : List HCall → HState → Prop
  | start : HRun hash [] .init
  | other {tr : List HCall} {s s' : HState} : HRun hash tr s → Other s s' → HRun hash tr s'
  | call {tr : List HCall} {s s' : HState} {x : HCall} : HRun hash tr s → HStep hash s x s' → HRun hash (tr ++ [x]) s'

/-- The event with copies of its new object. -/
def CEv.copied : CEv → CEv
  | .add o => .add (copyObj o)
  | .update old o => .update old (copyObj o)
  | .delete o => .delete (copyObj o)

/-- The same event, leaving aside the old version in updates. -/
def CEv.Same : CEv → CEv → Prop
  | .add o, .add o' => o = o'
  | .update _ o, .update _ o' => o = o'
  | .delete o, .delete o' => o = o'
  | _, _ => False

/-- The view cache on values (`Verif/Cache/View.lean`), and the calls of handlers under way, after a call. The call has the results that it
has on values. -/
inductive VStep (hash : String → String) : VCache × List CEv → HCall → VCache × List CEv → Prop
  | add (c : VCache) (es : List CEv) (o : Obj) (tg : Nat) : isViewKind (objGVK o) = true →
      VStep hash (c, es) (.add o tg true) (c.step hash (.add o), es ++ List.replicate tg (.add (withUID hash (copyObj o))))
  | addFails (c : VCache) (es : List CEv) (o : Obj) (tg : Nat) : isViewKind (objGVK o) = false → VStep hash (c, es) (.add o tg false) (c, es)
  | update (c : VCache) (es : List CEv) (old o : Obj) (tg : Nat) : isViewKind (objGVK o) = true → old ≠ withUID hash (copyObj o) →
      VStep hash (c, es) (.update old o tg true) (c.step hash (.update old o), es ++ List.replicate tg (.update old (withUID hash (copyObj o))))
  | updateSame (c : VCache) (es : List CEv) (old o : Obj) (tg : Nat) : isViewKind (objGVK o) = true → old = withUID hash (copyObj o) →
      VStep hash (c, es) (.update old o tg true) (c, es)
  | updateFails (c : VCache) (es : List CEv) (old o : Obj) (tg : Nat) : isViewKind (objGVK o) = false → VStep hash (c, es) (.update old o tg false) (c, es)
  | delete (c : VCache) (es : List CEv) (o x : Obj) (tg : Nat) : isViewKind (objGVK o) = true → (c.stored (objGVK o)).get (cacheKey (objKey o)) = some x →
      VStep hash (c, es) (.delete o tg true) (c.step hash (.delete o), es ++ List.replicate tg (.delete x))
  | deleteFails (c : VCache) (es : List CEv) (o : Obj) (tg : Nat) : c.get (objGVK o) (objKey o) = none → VStep hash (c, es) (.delete o tg false) (c, es)
  | get (c : VCache) (es : List CEv) (g : GVK) (k : ObjKey) : VStep hash (c, es) (.get g k (c.get g k)) (c, es)
  | list (c : VCache) (es : List CEv) (g : GVK) (sel : Select) : VStep hash (c, es) (.list g sel (c.list g sel)) (c, es)
  | deliver (c : VCache) (es : List CEv) (i : Nat) (e e' : CEv) : es[i]? = some e → CEv.Same e' (CEv.copied e) → VStep hash (c, es) (.deliver i e') (c, es.eraseIdx i)
  | register (c : VCache) (es : List CEv) (g : GVK) (is : List Nat) : is.Perm (List.range (c.stored g).length) →
      VStep hash (c, es) (.register g is) (c, es ++ (is.filterMap (fun i => ((c.stored g)[i]?).map (·.2))).map .add)

/-- A sequence of calls has the results that it has on values. -/
inductive VRun (hash : String → String) : List HCall → VCache × List CEv → Prop
  | start : VRun hash [] (.init, [])
  | call {tr : List HCall} {v v' : VCache × List CEv} {x : HCall} : VRun hash tr v → VStep hash v x v' → VRun hash (tr ++ [x]) v'

end Mem
end Dctl
