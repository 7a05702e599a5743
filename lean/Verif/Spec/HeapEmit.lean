import Verif.Pipeline.HeapEmit
import Verif.Spec.HeapConvert
/-!
# What a pipeline emits, in memory and on values

Specification for C124. Nothing here models code.
-/
set_option autoImplicit false
namespace Dctl
namespace Mem
variable {J : Type} [DecidableEq J]

/-- The target cache in memory has the entries of the target cache on values. -/
def TgtIs (h : Heap) (s : HStore) (S : Store CDoc) : Prop := All2 (fun p q => p.1 = q.1 ∧ ObjAt h p.2 q.2.1) s S

/-- The cells of the objects in the target cache. -/
def TgtHolds (h : Heap) (s : HStore) : Region := fun b => ∃ p ∈ s, Reach h (.ref p.2) b

/-- Every object is stored under its key, and has a kind. -/
def TgtOk (S : Store CDoc) : Prop := ∀ q ∈ S, q.1 = objKey q.2.1 ∧ Kinded q.2

/-- The delta in memory stands for the delta on values. Its object has a kind and lies in `A`. -/
def DeltaIs (h : Heap) (A : Region) (δ : Delta Nat) (Δ : Delta CDoc) : Prop :=
  δ.type = Δ.type ∧ ObjAt h δ.obj Δ.obj.1 ∧ Kinded Δ.obj ∧ ∀ b, Reach h (.ref δ.obj) b → A b

/-- The cells of the objects in the deltas. -/
def Emitted (h : Heap) (ds : List (Delta Nat)) : Region := fun b => ∃ δ ∈ ds, Reach h (.ref δ.obj) b

/-- The group and version of the kind can be read back from its API version. -/
def PlainKind (t : GVK) : Prop := parseGroupVersion (gvString t) = some (t.group, t.version)

/-- The documents of the Z-set in memory are maps without double keys: in Go they have a type of such maps. -/
def Docs (h : Heap) (z : HZ CDoc) : Prop := ∀ e ∈ z, ∃ d : CDoc, ObjAt h e.2.1 d.1

/-- The orders of `Reconcile` on values. -/
def Shuffles.recon (σ : Shuffles) : RecOrder CDoc := ⟨σ.groups.run, σ.deletes.run, σ.upserts.run⟩

/-- The orders of `Evaluate` on values. The executor of C110 visits Z-sets in one order. -/
def Shuffles.eval (σ : Shuffles) : EvalOrder CDoc := ⟨fun _ z => z, σ.list.run, σ.recon, σ.store.run⟩

/-- All a pipeline holds: its source cache, its graph, its target cache. -/
def AllHolds (h : Heap) (src : HSrc) (g : HGraph CDoc) (tgt : HStore) : Region := fun b => PipeHolds h src g b ∨ TgtHolds h tgt b

/-- The pipeline in memory, with its target cache, is the pipeline on values. -/
structure WholeIs (c : Cfg CDoc J) (h : Heap) (src : HSrc) (g : HGraph CDoc) (tgt : HStore) (p : Pipe CDoc J) : Prop where
  pipe : PipeIs c h src g p.src p.graph
  tgt : TgtIs h tgt p.tgt
  ok : TgtOk p.tgt

/-- What `Evaluate` emits for deltas given one after the other, on values. -/
def evalAll (p : Pipe CDoc J) : List (Shuffles × Delta CDoc) → List (Except Err (List (Delta CDoc)))
  | [] => []
  | (σ, δ) :: δs => (p.evaluate jsonOps σ.eval δ).2 :: evalAll (p.evaluate jsonOps σ.eval δ).1 δs

/-- Deltas given to `Evaluate` one after the other, with orders for each call. Between two calls anything may happen to any cell that the pipeline does not hold: to
objects given to it, and to objects it emitted. -/
inductive Evals (c : Cfg CDoc J) (t : GVK) (inputs : List String) : Heap → HSrc → HGraph CDoc → HStore → List (Shuffles × Delta CDoc) → List (Except Err (List (Delta CDoc))) → Prop
  | nil {h : Heap} {src : HSrc} {g : HGraph CDoc} {tgt : HStore} : Evals c t inputs h src g tgt [] []
  | cons {h h1 h2 : Heap} {src src' : HSrc} {g g' : HGraph CDoc} {tgt tgt' : HStore} {σ : Shuffles} {ty : DeltaType} {a : Nat} {o : CDoc} {r : Except Err (List (Delta Nat))}
      {R : Except Err (List (Delta CDoc))} {δs : List (Shuffles × Delta CDoc)} {Rs : List (Except Err (List (Delta CDoc)))} :
      (∀ b, AllHolds h src g tgt b → h1[b]? = h[b]?) → ObjAt h1 a o.1 → Kinded o →
      (∀ h2 src' g' z, Gives (feedM c inputs src g ty a) h1 (h2, src', g', .ok z) → Docs h2 z) →
      Gives (evaluateM c σ t inputs src g tgt ty a) h1 (h2, src', g', tgt', r) → SameOutcome (All2 (DeltaIs h2 (fun _ => True))) r R →
      Evals c t inputs h2 src' g' tgt' δs Rs → Evals c t inputs h src g tgt ((σ, ⟨ty, o⟩) :: δs) (R :: Rs)

end Mem
end Dctl
