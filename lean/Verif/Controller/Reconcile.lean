import Verif.Pipeline.Eval
import Verif.Spec.Writes
/-!
# The reconcilers of a declarative controller (`pkg/controller/reconcilers.go`)
-/
set_option autoImplicit false
namespace Dctl
variable {D J : Type} [DecidableEq D] [DecidableEq J]

/-- The writes of one reconciliation, `reconcilers.go:64-78`: write one delta after the other, stop at the first failure.
`fails i` says whether the `i`-th write fails. The target is an updater writing to a key-value store
(`pkg/reconciler/target.go:90-177`): a delete removes the object, an upsert puts it in place. Result: target, number of
writes performed, success. -/
def writeAll (O : ObjOps D) (fails : Nat → Bool) (T : Target D) : List (Delta D) → Target D × Nat × Bool
  | [] => (T, 0, true)
  | w :: ws =>
    if fails 0 then (T, 0, false)
    else
      let (T', n, ok) := writeAll O (fun i => fails (i + 1)) (T.write O w) ws
      (T', n + 1, ok)

/-- State of a running controller: its pipeline and the actual content of its target. -/
structure Ctl (D J : Type) where
  pipe : Pipe D J
  tgt : Target D

/-- What one reconciliation did: the writes computed, how many of them were performed, and whether it succeeded. A failed
one is put back into the work queue by controller-runtime. -/
structure RecRes (D : Type) where
  writes : List (Delta D) := []
  done : Nat := 0
  ok : Bool

/-- `reconcilers.go:36-80` `IncrementalReconciler.Reconcile`; `dec` is `object.DecodeSecretData`. -/
def Ctl.incremental (O : ObjOps D) (dec : D → D) (ω : EvalOrder D) (fails : Nat → Bool) (c : Ctl D J) (δ : Delta D) :
    Ctl D J × RecRes D :=
  match δ.type with
  | .added | .updated | .replaced | .deleted =>
    match c.pipe.evaluate O ω ⟨δ.type, dec δ.obj⟩ with
    | (p', .error _) => ({ c with pipe := p' }, { ok := false })
    | (p', .ok ws) =>
      let (T', n, ok) := writeAll O fails c.tgt ws
      ({ pipe := p', tgt := T' }, { writes := ws, done := n, ok := ok })
  | _ => (c, { ok := true })

/-- `reconcilers.go:102-133` `StateOfTheWorldReconciler.Reconcile`. -/
def Ctl.stateOfTheWorld (O : ObjOps D) (ω : EvalOrder D) (fails : Nat → Bool) (c : Ctl D J) : Ctl D J × RecRes D :=
  match c.pipe.syncAll O ω with
  | (p', .error _) => ({ c with pipe := p' }, { ok := false })
  | (p', .ok ws) =>
    let (T', n, ok) := writeAll O fails c.tgt ws
    ({ pipe := p', tgt := T' }, { writes := ws, done := n, ok := ok })

/-- A reconciliation request reaching a controller: a watch event for the incremental reconciler or a tick of a periodic source
for the state-of-the-world one. -/
inductive Req (D : Type) where
  | event (δ : Delta D)
  | tick

/-- One reconciliation by the reconciler of the request's source. -/
def Ctl.step (O : ObjOps D) (dec : D → D) (c : Ctl D J) (e : EvalOrder D × (Nat → Bool) × Req D) : Ctl D J × RecRes D :=
  match e.2.2 with
  | .event δ => c.incremental O dec e.1 e.2.1 δ
  | .tick => c.stateOfTheWorld O e.1 e.2.1

/-! ### several sources

Every source has its own controller-runtime controller with one worker (`pkg/controller/declarative.go:100-140`), so
requests of different sources are reconciled concurrently. `Evaluate` and `Sync` hold the pipeline's lock; the writes that
follow do not. -/

/-- A controller with concurrent workers: `pend i` are the writes worker `i` still has to perform. -/
structure Conc (D J : Type) where
  pipe : Pipe D J
  tgt : Target D
  pend : Nat → List (Delta D) := fun _ => []

/-- One atomic step of a worker: take the next event and evaluate it, or perform the next write. -/
inductive Act (D : Type) where
  | eval (i : Nat) (ω : EvalOrder D) (δ : Delta D)
  | write (i : Nat)

/-- Interleaving semantics of `reconcilers.go:58-78`; a worker takes an event only when it has performed all its writes, a
step that is not possible does nothing. -/
def Conc.step (O : ObjOps D) (c : Conc D J) : Act D → Conc D J
  | .eval i ω δ =>
    if c.pend i = [] then
      match c.pipe.evaluate O ω δ with
      | (p', .error _) => { c with pipe := p' }
      | (p', .ok ws) => { c with pipe := p', pend := fun j => if j = i then ws else c.pend j }
    else c
  | .write i =>
    match c.pend i with
    | [] => c
    | w :: ws => { c with tgt := c.tgt.write O w, pend := fun j => if j = i then ws else c.pend j }

end Dctl
