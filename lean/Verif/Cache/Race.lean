import Verif.Spec.Cache
/-!
# Interleavings in the view cache

`Verif/Cache/View.lean` takes operations to be atomic. They are not: a write changes the indexer first and calls the handlers later, holding no
lock in between; registering a handler and sending it the initial list are separate steps; and the list of delegating informers is read
outside the lock. This file has the finer steps, for one kind.
-/
set_option autoImplicit false
namespace Dctl

/-! ## Writers and one handler -/

/-- How far the registration of the handler is (`view_cache_informer.go:61-105`): not started; in the map of handlers (line 70); list taken (line 77). -/
inductive Phase where
  | off
  | registered
  | listed
deriving DecidableEq

/-- The indexer of a kind, the calls received by a handler, the writes between their change of the indexer and their `TriggerEvent`
(`view_cache.go:257-268`, `308-319`, `369-380`), and the initial events still to be sent to the handler. -/
structure Race where
  store : String → Option Obj
  phase : Phase
  log : List CEv
  pending : List CEv
  joining : List CEv

/-- Nothing has happened. -/
def Race.init : Race := ⟨fun _ => none, .off, [], [], []⟩

/-- The key of the object of an event. -/
def CEv.key : CEv → String
  | .add o => cacheKey (objKey o)
  | .update _ o => cacheKey (objKey o)
  | .delete o => cacheKey (objKey o)

/-- One step of some thread. -/
inductive Race.Step : Race → Race → Prop where
  /-- a write changes the indexer (`view_cache.go:257`, `308`, `369`) -/
  | write (r : Race) (e : CEv) : Race.Step r { r with store := Mirror.apply r.store e, pending := e :: r.pending }
  /-- a write calls the handlers (`view_cache.go:268`, `319`, `380`) -/
  | fire (r : Race) (e : CEv) (p q : List CEv) (h : r.pending = p ++ e :: q) :
      Race.Step r { r with pending := p ++ q, log := if r.phase = .off then r.log else r.log ++ [e] }
  /-- the handler is put into the map (`view_cache_informer.go:62-71`) -/
  | register (r : Race) (h : r.phase = .off) : Race.Step r { r with phase := .registered }
  /-- the list is taken (`view_cache_informer.go:77`), in some order -/
  | list (r : Race) (h : r.phase = .registered) (l : List Obj) (hl : ∀ o, o ∈ l ↔ ∃ k, r.store k = some o) :
      Race.Step r { r with phase := .listed, joining := l.map CEv.add }
  /-- the next initial event is sent (`view_cache_informer.go:101`) -/
  | deliver (r : Race) (e : CEv) (es : List CEv) (h : r.joining = e :: es) : Race.Step r { r with joining := es, log := r.log ++ [e] }

/-- Any number of steps. -/
inductive Race.Steps : Race → Race → Prop where
  | refl (r : Race) : Race.Steps r r
  | tail {a b c : Race} : Race.Steps a b → Race.Step b c → Race.Steps a c

/-- All writes are through, and the handler has its initial list. -/
def Race.Quiet (r : Race) : Prop := r.pending = [] ∧ r.joining = [] ∧ r.phase = .listed

/-- Steps in which no write touches an object with an event under way. -/
inductive Race.Serial : Race → Race → Prop where
  | refl (r : Race) : Race.Serial r r
  | tail {a b c : Race} : Race.Serial a b → Race.Step b c →
      (∀ e, c.pending = e :: b.pending → ∀ x, x ∈ b.pending ∨ x ∈ b.joining → x.key ≠ e.key) → Race.Serial a c

/-! ## The list of delegating informers -/

/-- A Go slice: its backing array and length. -/
structure Slice where
  arr : List Nat
  len : Nat

/-- `append(s, x)` (`view_cache.go:154`): in place if there is room, else into a larger array. -/
def Slice.append (s : Slice) (x : Nat) : Slice :=
  if s.len < s.arr.length then ⟨s.arr.set s.len x, s.len + 1⟩
  else ⟨s.arr ++ x :: List.replicate (s.arr.length - 1) 0, s.len + 1⟩

/-- The elements of a slice. -/
def Slice.toList (s : Slice) : List Nat := s.arr.take s.len

/-- `view_cache.go:170-178`, in place. -/
def Slice.remove (s : Slice) (x : Nat) : Slice :=
  match s.toList.idxOf? x with
  | none => s
  | some i => ⟨s.arr.set i (s.arr.getD (s.len - 1) 0), s.len - 1⟩

/-- A writer going through the list of informers (`view_cache.go:271-277`), which it has read before: the elements are read one by one from the
array, which changes under it unless the list has moved to a larger one. -/
structure Notify where
  cur : Slice
  /-- the array read by the writer, if the list has moved away from it -/
  own : Option (List Nat)
  len : Nat
  pos : Nat
  called : List Nat

/-- Lines 271-273: the list is read. -/
def Notify.start (s : Slice) : Notify := ⟨s, none, s.len, 0, []⟩

/-- Steps during the loop. -/
inductive NOp where
  /-- the next informer is called (lines 275-277) -/
  | call
  /-- an informer is registered (lines 144-157) -/
  | register (x : Nat)
  /-- an informer is unregistered (lines 160-181) -/
  | unregister (x : Nat)
deriving DecidableEq

/-- One step. -/
def Notify.step (w : Notify) : NOp → Notify
  | .call =>
    if w.pos < w.len then { w with pos := w.pos + 1, called := w.called ++ [(w.own.getD w.cur.arr).getD w.pos 0] } else w
  | .register x =>
    { w with cur := w.cur.append x, own := if w.cur.len < w.cur.arr.length then w.own else some (w.own.getD w.cur.arr) }
  | .unregister x => { w with cur := w.cur.remove x }

/-- The informers called while the writer goes through the list, with the given steps in between. -/
def Notify.run (s : Slice) (ops : List NOp) : Notify := ops.foldl Notify.step (Notify.start s)

end Dctl
