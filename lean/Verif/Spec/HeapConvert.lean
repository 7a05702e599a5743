import Verif.Pipeline.HeapConvert
import Verif.Spec.HeapCache
import Verif.Pipeline.Eval
/-!
# Pipelines in memory and pipelines on values

Specification for C123. Nothing here models code.
-/
set_option autoImplicit false
namespace Dctl
namespace Mem
variable {J : Type} [DecidableEq J]

/-- The source cache in memory has the entries of the source cache on values: the same keys, with addresses that stand for the objects. -/
def SrcIs (h : Heap) (src : HSrc) (C : SrcCache CDoc) : Prop := ∀ g, All2 (fun p q => p.1 = q.1 ∧ ObjAt h p.2 q.2.1) (src g) (C g)

/-- The cells of the objects in the source cache. -/
def SrcHolds (h : Heap) (src : HSrc) : Region := fun b => ∃ g, ∃ p ∈ src g, Reach h (.ref p.2) b

/-- The cells a pipeline holds: of its source cache and of its graph. -/
def PipeHolds (h : Heap) (src : HSrc) (g : HGraph CDoc) : Region := fun b => SrcHolds h src b ∨ g.Holds h b

/-- `DeepCopy` of the object is equal to the object: it has a kind and an API version, both strings, and the latter in the usual form. -/
def Kinded (o : CDoc) : Prop := copyObj o.1 = o.1

/-- Every object is stored under its key, and has a kind. -/
def SrcOk (C : SrcCache CDoc) : Prop := ∀ g, ∀ q ∈ C g, q.1 = objKey q.2.1 ∧ Kinded q.2

/-- The pipeline in memory is the pipeline on values, and its source cache and its graph share no cell. -/
structure PipeIs (c : Cfg CDoc J) (h : Heap) (src : HSrc) (g : HGraph CDoc) (C : SrcCache CDoc) (G : Graph CDoc J) : Prop where
  stores : SrcIs h src C
  ok : SrcOk C
  graph : GraphIs c h g G
  apart : Apart (SrcHolds h src) (g.Holds h)

/-- The part of `Evaluate` up to the answer of the executor, on values: `convertDelta` (`Verif/Pipeline/Adaptor.lean`), then the graph. -/
def feed (p : SrcCache CDoc × Graph CDoc J) (δ : Delta CDoc) : (SrcCache CDoc × Graph CDoc J) × Except Err (ZSet CDoc) :=
  match convertDelta jsonOps p.1 δ with
  | .error e => (p, .error e)
  | .ok (C, Z) =>
    if (objGVK δ.obj.1).kind ∈ p.2.inputs then
      let r := callGraph p.2 (placed [] p.2.inputs (objGVK δ.obj.1).kind Z)
      ((C, r.1), r.2)
    else ((C, p.2), .error "wrong number of inputs")

/-- The part of `Evaluate` after the answer of the executor, on values: `convertZSet`, then `reconcile` (`Verif/Pipeline/Adaptor.lean`). -/
def emits (ω : EvalOrder CDoc) (t : GVK) (T : Store CDoc) (Z : ZSet CDoc) : Except Err (Store CDoc × List (Delta CDoc)) :=
  match convertZSet jsonOps t (ω.list Z) with
  | .error e => .error e
  | .ok ds => reconcile jsonOps ω.recon T ds

/-- Deltas fed to a pipeline one after the other. Between two of them, anything may happen to any cell that the pipeline does not hold: to
objects that were given to it, and to answers it gave. -/
inductive Feeds (c : Cfg CDoc J) (inputs : List String) : Heap → HSrc → HGraph CDoc → List (Delta CDoc) → List (Except Err (ZSet CDoc)) → Prop
  | nil {h : Heap} {src : HSrc} {g : HGraph CDoc} : Feeds c inputs h src g [] []
  | cons {h h1 h2 : Heap} {src src' : HSrc} {g g' : HGraph CDoc} {t : DeltaType} {a : Nat} {o : CDoc} {r : Except Err (HZ CDoc)} {R : Except Err (ZSet CDoc)}
      {δs : List (Delta CDoc)} {Rs : List (Except Err (ZSet CDoc))} :
      (∀ b, PipeHolds h src g b → h1[b]? = h[b]?) → ObjAt h1 a o.1 → Kinded o → Gives (feedM c inputs src g t a) h1 (h2, src', g', r) →
      SameOutcome (ZIs c h2 (fun _ => True)) r R → Feeds c inputs h2 src' g' δs Rs → Feeds c inputs h src g (⟨t, o⟩ :: δs) (R :: Rs)

end Mem
end Dctl
