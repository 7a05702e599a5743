import Verif.Pipeline.Eval
import Verif.Spec.Writes
/-!
# The controllers of an operator working on a shared store

Composition of the parts modelled elsewhere: pipelines (`Verif/Pipeline/Eval.lean`), targets, sources with their work queues and the stores that notify them. The
controllers of an operator communicate only through the objects: what one writes, the others watch.

The evaluation of an event and the writes it leads to are separate steps: between them and between the writes of one evaluation, users may change objects, other
controllers may work, and other sources of the same controller may have their events evaluated. The writes of a controller may overtake each other unless they are writes
of one object (`C24`: the workers of the sources write concurrently, and writes of one object may then get in the wrong order).

Simplified: an event is put on the queues in the same step as the store changes (`Verif/Cache/Race.lean` has the finer steps; an event may stay on a queue for any time,
which covers late delivery as long as the order of the events of one source is kept); neither an evaluation nor a write fails (`C22`, `C23`), and sources have no filters
(`C66`).
-/
set_option autoImplicit false
namespace Dctl
variable {D J : Type} [DecidableEq D] [DecidableEq J]

/-- A controller at work (`pkg/controller/declarative.go:22-33`): its pipeline, the events waiting in the work queue of each of its sources
(`pkg/reconciler/source.go:92-130`), and the writes its workers have still to send (`pkg/controller/reconcilers.go:65-78`). `done` is not part of the program: it records the events evaluated so far and the iteration orders of the evaluations. -/
structure Station (D J : Type) where
  pipe : Pipe D J
  pending : GVK → List (Delta D) := fun _ => []
  out : List (Delta D) := []
  done : List (EvalOrder D × Delta D) := []

/-- The objects, by kind and name (the view cache and the API server), and the controllers. -/
structure World (D J : Type) where
  store : GVK → Target D
  stations : List (Station D J)

/-- All objects of one kind changed at one name. -/
def storePut (S : GVK → Target D) (g : GVK) (k : ObjKey) (v : Option D) : GVK → Target D :=
  fun g' k' => if g' = g ∧ k' = k then v else S g' k'

/-- One write to the store and the event it causes (`view_cache.go:236-392`): an object is added or updated, where `put` gives the object that is stored from the one that
is there, if any, and the one that is written (`pkg/reconciler/target.go:90-177`); a delete carries the deleted object, and a delete of a missing object causes no event. -/
def storeWrite (O : ObjOps D) (put : Option D → D → D) (S : GVK → Target D) (g : GVK) (w : Delta D) : (GVK → Target D) × Option (Delta D) :=
  match w.type, S g (O.key w.obj) with
  | .deleted, none => (S, none)
  | .deleted, some y => (storePut S g (O.key w.obj) none, some ⟨.deleted, y⟩)
  | _, none => (storePut S g (O.key w.obj) (some (put none w.obj)), some ⟨.added, put none w.obj⟩)
  | _, some y => (storePut S g (O.key w.obj) (some (put (some y) w.obj)), some ⟨.updated, put (some y) w.obj⟩)

/-- An event is queued at every controller that has its kind as source (`source.go:92-130`, `reconciler.go:99-136`). -/
def Station.notify (O : ObjOps D) (δ : Delta D) (s : Station D J) : Station D J :=
  if O.gvk δ.obj ∈ s.pipe.sources then
    { s with pending := fun g => if g = O.gvk δ.obj then s.pending g ++ [δ] else s.pending g }
  else s

/-- A write, and the notification of all controllers. -/
def World.write (O : ObjOps D) (put : Option D → D → D) (g : GVK) (W : World D J) (w : Delta D) : World D J :=
  match storeWrite O put W.store g w with
  | (S, none) => { W with store := S }
  | (S, some δ) => { store := S, stations := W.stations.map (Station.notify O δ) }

/-- A controller takes the first event of a source from its queue and evaluates it (`pkg/controller/reconcilers.go:34-63`); the writes are sent later. -/
def Station.work (O : ObjOps D) (ω : EvalOrder D) (g : GVK) (s : Station D J) : Option (Station D J) :=
  if g ∈ s.pipe.sources then
    match s.pending g with
    | [] => none
    | δ :: q =>
      match s.pipe.evaluate O ω δ with
      | (_, .error _) => none
      | (p', .ok ws) => some { pipe := p', pending := fun g' => if g' = g then q else s.pending g', out := s.out ++ ws, done := s.done ++ [(ω, δ)] }
  else none

/-- A worker sends a write (`reconcilers.go:65-78`): number `n` of those to be sent, which must be the first one of its object. Workers send the writes of their own
evaluation in order, so this leaves out the runs where writes of one object, from evaluations of different sources, are sent in the wrong order (`C24`). -/
def Station.send (O : ObjOps D) (n : Nat) (s : Station D J) : Option (Delta D × Station D J) :=
  match s.out[n]? with
  | none => none
  | some w => if (s.out.take n).all (fun v => O.key v.obj ≠ O.key w.obj) then some (w, { s with out := s.out.eraseIdx n }) else none

/-- What can happen: somebody else creates, changes or deletes an object, a controller evaluates an event of one of its sources, or sends one of its writes. -/
inductive LoopAct (D : Type) where
  | user (w : Delta D)
  | work (i : Nat) (g : GVK) (ω : EvalOrder D)
  | send (i n : Nat)

/-- One step; `none` if a controller has nothing to do for the source, the evaluation fails, or there is no such write. `put t` is how the target with kind `t` stores
objects (`pkg/reconciler/target.go:62-177`); users write objects as they are. -/
def World.act (O : ObjOps D) (put : GVK → Option D → D → D) (W : World D J) : LoopAct D → Option (World D J)
  | .user w => some (W.write O (fun _ x => x) (O.gvk w.obj) w)
  | .work i g ω =>
    match W.stations[i]? with
    | none => none
    | some s =>
      match s.work O ω g with
      | none => none
      | some s' => some { W with stations := W.stations.set i s' }
  | .send i n =>
    match W.stations[i]? with
    | none => none
    | some s =>
      match s.send O n with
      | none => none
      | some (w, s') => some (World.write O (put s.pipe.target) s.pipe.target { W with stations := W.stations.set i s' } w)

/-- Several steps. -/
def World.acts (O : ObjOps D) (put : GVK → Option D → D → D) (W : World D J) : List (LoopAct D) → Option (World D J)
  | [] => some W
  | a :: as =>
    match W.act O put a with
    | none => none
    | some W' => W'.acts O put as

/-- Before the operator starts: no objects, no events. Objects that exist when a controller is started are reported as added (`source.go:92-130`), as if they had just
been created. -/
def World.init (ps : List (Pipe D J)) : World D J := ⟨fun _ _ => none, ps.map (fun p => { pipe := p })⟩

end Dctl
