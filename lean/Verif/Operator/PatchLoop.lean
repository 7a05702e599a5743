import Verif.Operator.Loop
/-!
# Controllers that patch what they watch

The controllers of an operator as in `Verif/Operator/Loop.lean`, with Patcher targets: the objects belong to users, who create, change and delete them, also those of the
target kinds, and a controller only changes some of their fields. Most operators of the project with a Patcher target have the kind they patch among their sources, so
that every patch comes back to them as an event.

Simplified as in `Verif/Operator/Loop.lean`. A patch without snapshot whose object is missing is an error (`target.go:201-203`); there is no step for it here (C22, C23 say what
happens then).
-/
set_option autoImplicit false
namespace Dctl
variable {D J : Type} [DecidableEq D] [DecidableEq J]

/-- How a Patcher target changes an object (the first argument): for an upsert (`pkg/reconciler/target.go:218-226`) and for a delete (`target.go:270-290`). -/
structure Patching (D : Type) where
  upsert : D → D → D
  remove : D → D → D

/-- The object a patch starts from (`target.go:190-207,251-268`): the snapshot in the request if it is the object to be patched, otherwise the one in the store. The written object has been given the kind `t` of the target (`target.go:76-77`). -/
def patchBase (O : ObjOps D) (S : GVK → Target D) (t : GVK) (w : Delta D) (snap : D) : Option D :=
  if O.gvk snap = t ∧ O.key snap = O.key w.obj then some snap else S t (O.key w.obj)

/-- `pkg/reconciler/ctrlutils.go:96-144` `Update`: an object that is there is replaced, whatever it is by now (on a conflict only the resource version is read again); one that
is not there is not created. The event an update causes goes to the watches; an update that changes nothing causes none (`pkg/cache/view_cache.go:295-299`, and so for a
Kubernetes API server). -/
def storeReplace (S : GVK → Target D) (t : GVK) (k : ObjKey) (y : D) : (GVK → Target D) × Option (Delta D) :=
  match S t k with
  | none => (S, none)
  | some y0 => if y = y0 then (S, none) else (storePut S t k (some y), some ⟨.updated, y⟩)

/-- `pkg/reconciler/target.go:179-315` `patch`: a write of a Patcher target, with the snapshot of the request. `none` is an error: the object of an upsert is missing. -/
def patchWrite (O : ObjOps D) (P : Patching D) (S : GVK → Target D) (t : GVK) (w : Delta D) (snap : D) : Option ((GVK → Target D) × Option (Delta D)) :=
  match w.type, patchBase O S t w snap with
  | .deleted, none => some (S, none)
  | .deleted, some b => some (storeReplace S t (O.key w.obj) (P.remove b w.obj))
  | _, none => none
  | _, some b => some (storeReplace S t (O.key w.obj) (P.upsert b w.obj))

/-- A controller at work, with the object of the request that led to each of the writes to be sent (`pkg/controller/reconcilers.go:65-78`: the third argument of `Write`). -/
structure PStation (D J : Type) where
  base : Station D J
  snaps : List D := []

/-- The objects and the controllers. -/
structure PWorld (D J : Type) where
  store : GVK → Target D
  stations : List (PStation D J)

/-- The event goes to all controllers (`pkg/reconciler/source.go:92-130`). -/
def PWorld.notify (O : ObjOps D) (W : PWorld D J) : (GVK → Target D) × Option (Delta D) → PWorld D J
  | (S, none) => { W with store := S }
  | (S, some δ) => { store := S, stations := W.stations.map (fun s => { s with base := s.base.notify O δ }) }

/-- A controller evaluates the first event of a source (`pkg/controller/reconcilers.go:34-63`), and remembers its object with the writes. -/
def PStation.work (O : ObjOps D) (ω : EvalOrder D) (g : GVK) (s : PStation D J) : Option (PStation D J) :=
  match s.base.pending g, s.base.work O ω g with
  | δ :: _, some b => some { base := b, snaps := s.snaps ++ List.replicate (b.out.length - s.base.out.length) δ.obj }
  | _, _ => none

/-- A worker sends write number `n` (`reconcilers.go:65-78`). -/
def PStation.send (O : ObjOps D) (n : Nat) (s : PStation D J) : Option (Delta D × D × PStation D J) :=
  match s.base.send O n, s.snaps[n]? with
  | some (w, b), some o => some (w, o, { base := b, snaps := s.snaps.eraseIdx n })
  | _, _ => none

/-- One step; the same things can happen as in `World.act`. -/
def PWorld.act (O : ObjOps D) (P : Patching D) (W : PWorld D J) : LoopAct D → Option (PWorld D J)
  | .user w => some (W.notify O (storeWrite O (fun _ x => x) W.store (O.gvk w.obj) w))
  | .work i g ω =>
    match W.stations[i]? with
    | none => none
    | some s =>
      match s.work O ω g with
      | none => none
      | some s' => some { W with stations := W.stations.set i s' }
  | .send i n =>
    match W.stations[i]? with
    | none => none
    | some s =>
      match s.send O n with
      | none => none
      | some (w, o, s') =>
        match patchWrite O P W.store s.base.pipe.target w o with
        | none => none
        | some r => some (PWorld.notify O { W with stations := W.stations.set i s' } r)

/-- Several steps. -/
def PWorld.acts (O : ObjOps D) (P : Patching D) (W : PWorld D J) : List (LoopAct D) → Option (PWorld D J)
  | [] => some W
  | a :: as =>
    match W.act O P a with
    | none => none
    | some W' => W'.acts O P as

/-- Before the operator starts: no objects, no events (see `World.init`). -/
def PWorld.init (ps : List (Pipe D J)) : PWorld D J := ⟨fun _ _ => none, ps.map (fun p => { base := { pipe := p } })⟩

end Dctl
