import Verif.Pipeline.HeapSync
import Verif.Spec.HeapEmit
/-!
# `Sync` in memory and on values

Specification for C125. Nothing here models code.
-/
set_option autoImplicit false
namespace Dctl
namespace Mem
variable {J : Type} [DecidableEq J]

/-- The part of `Sync` up to the difference between the state required and the target cache, on values: `Pipe.syncAll` (`Verif/Pipeline/Eval.lean`) without `emits`. -/
def diffs (ω : EvalOrder CDoc) (p : Pipe CDoc J) (S : Graph CDoc J) : Graph CDoc J × Except Err (ZSet CDoc) :=
  match S.process ω.exec (syncInputs jsonOps ω p.sources p.src) with
  | (S', .error e) => (S', .error e)
  | (S', .ok req) => (S', .ok (ZSet.sub req (storeZSet jsonOps (ω.store p.tgt))))

/-- The cells of the snapshot graph, if there is one. -/
def SnapHolds (h : Heap) (sn : Option (HGraph CDoc)) : Region := fun b => ∃ sg, sn = some sg ∧ sg.Holds h b

/-- All a pipeline holds, with its snapshot graph. -/
def FullHolds (h : Heap) (src : HSrc) (g : HGraph CDoc) (sn : Option (HGraph CDoc)) (tgt : HStore) : Region := fun b => AllHolds h src g tgt b ∨ SnapHolds h sn b

/-- The pipeline in memory, with its snapshot graph, is the pipeline on values. -/
structure FullIs (c : Cfg CDoc J) (h : Heap) (src : HSrc) (g : HGraph CDoc) (sn : Option (HGraph CDoc)) (tgt : HStore) (p : Pipe CDoc J) : Prop where
  whole : WholeIs c h src g tgt p
  snap : OptIs (GraphIs c h) sn p.snap
  names : ∀ S, p.snap = some S → S.inputs = p.sources.map GVK.kind

/-- The answers to calls of `Evaluate` (with a delta) and `Sync` (without) one after the other, on values. -/
def stepAll (p : Pipe CDoc J) : List (Shuffles × Option (Delta CDoc)) → List (Except Err (List (Delta CDoc)))
  | [] => []
  | (σ, δ) :: es => (p.step jsonOps (σ.eval, δ)).2 :: stepAll (p.step jsonOps (σ.eval, δ)).1 es

/-- Calls of `Evaluate` and `Sync` one after the other, with orders for each call. Between two calls anything may happen to any cell that the pipeline does not hold. -/
inductive Steps (c : Cfg CDoc J) (t : GVK) (sources : List GVK) :
    Heap → HSrc → HGraph CDoc → Option (HGraph CDoc) → HStore → List (Shuffles × Option (Delta CDoc)) → List (Except Err (List (Delta CDoc))) → Prop
  | nil {h : Heap} {src : HSrc} {g : HGraph CDoc} {sn : Option (HGraph CDoc)} {tgt : HStore} : Steps c t sources h src g sn tgt [] []
  | evaluate {h h1 h2 : Heap} {src src' : HSrc} {g g' : HGraph CDoc} {sn : Option (HGraph CDoc)} {tgt tgt' : HStore} {σ : Shuffles} {ty : DeltaType} {a : Nat} {o : CDoc} {r : Except Err (List (Delta Nat))}
      {R : Except Err (List (Delta CDoc))} {es : List (Shuffles × Option (Delta CDoc))} {Rs : List (Except Err (List (Delta CDoc)))} :
      (∀ b, FullHolds h src g sn tgt b → h1[b]? = h[b]?) → ObjAt h1 a o.1 → Kinded o →
      (∀ h2 src' g' z, Gives (feedM c (sources.map GVK.kind) src g ty a) h1 (h2, src', g', .ok z) → Docs h2 z) →
      Gives (evaluateM c σ t (sources.map GVK.kind) src g tgt ty a) h1 (h2, src', g', tgt', r) → SameOutcome (All2 (DeltaIs h2 (fun _ => True))) r R →
      Steps c t sources h2 src' g' sn tgt' es Rs → Steps c t sources h src g sn tgt ((σ, some ⟨ty, o⟩) :: es) (R :: Rs)
  | sync {h h1 h2 : Heap} {src : HSrc} {g : HGraph CDoc} {sn sn' : Option (HGraph CDoc)} {tgt tgt' : HStore} {σ : Shuffles} {r : Except Err (List (Delta Nat))}
      {R : Except Err (List (Delta CDoc))} {es : List (Shuffles × Option (Delta CDoc))} {Rs : List (Except Err (List (Delta CDoc)))} :
      (∀ b, FullHolds h src g sn tgt b → h1[b]? = h[b]?) → (∀ sg, snapshotM (sources.map GVK.kind) g sn = .ok sg → ∀ h2 sg' z, Gives (diffM c σ sources src sg tgt) h1 (h2, sg', .ok z) → Docs h2 z) →
      Gives (syncM c σ t sources (sources.map GVK.kind) src g sn tgt) h1 (h2, sn', tgt', r) → SameOutcome (All2 (DeltaIs h2 (fun _ => True))) r R →
      Steps c t sources h2 src g sn' tgt' es Rs → Steps c t sources h src g sn tgt ((σ, none) :: es) (R :: Rs)

/-- No call of the sequence makes the graphs on values answer with an empty document. -/
def NoEmpty (p : Pipe CDoc J) : List (Shuffles × Option (Delta CDoc)) → Prop
  | [] => True
  | (σ, some δ) :: es => (∀ Z, (feed (p.src, p.graph) δ).2 = .ok Z → ∀ q ∈ Z, q.1.1 ≠ []) ∧ NoEmpty (p.step jsonOps (σ.eval, some δ)).1 es
  | (σ, none) :: es => (∀ S Z, p.snapshot = .ok S → (diffs σ.eval p S).2 = .ok Z → ∀ q ∈ Z, q.1.1 ≠ []) ∧ NoEmpty (p.step jsonOps (σ.eval, none)).1 es

/-- `Steps` without its conditions on documents in memory. -/
inductive Calls (c : Cfg CDoc J) (t : GVK) (sources : List GVK) :
    Heap → HSrc → HGraph CDoc → Option (HGraph CDoc) → HStore → List (Shuffles × Option (Delta CDoc)) → List (Except Err (List (Delta CDoc))) → Prop
  | nil {h : Heap} {src : HSrc} {g : HGraph CDoc} {sn : Option (HGraph CDoc)} {tgt : HStore} : Calls c t sources h src g sn tgt [] []
  | evaluate {h h1 h2 : Heap} {src src' : HSrc} {g g' : HGraph CDoc} {sn : Option (HGraph CDoc)} {tgt tgt' : HStore} {σ : Shuffles} {ty : DeltaType} {a : Nat} {o : CDoc} {r : Except Err (List (Delta Nat))}
      {R : Except Err (List (Delta CDoc))} {es : List (Shuffles × Option (Delta CDoc))} {Rs : List (Except Err (List (Delta CDoc)))} :
      (∀ b, FullHolds h src g sn tgt b → h1[b]? = h[b]?) → ObjAt h1 a o.1 → Kinded o →
      Gives (evaluateM c σ t (sources.map GVK.kind) src g tgt ty a) h1 (h2, src', g', tgt', r) → SameOutcome (All2 (DeltaIs h2 (fun _ => True))) r R →
      Calls c t sources h2 src' g' sn tgt' es Rs → Calls c t sources h src g sn tgt ((σ, some ⟨ty, o⟩) :: es) (R :: Rs)
  | sync {h h1 h2 : Heap} {src : HSrc} {g : HGraph CDoc} {sn sn' : Option (HGraph CDoc)} {tgt tgt' : HStore} {σ : Shuffles} {r : Except Err (List (Delta Nat))}
      {R : Except Err (List (Delta CDoc))} {es : List (Shuffles × Option (Delta CDoc))} {Rs : List (Except Err (List (Delta CDoc)))} :
      (∀ b, FullHolds h src g sn tgt b → h1[b]? = h[b]?) →
      Gives (syncM c σ t sources (sources.map GVK.kind) src g sn tgt) h1 (h2, sn', tgt', r) → SameOutcome (All2 (DeltaIs h2 (fun _ => True))) r R →
      Calls c t sources h2 src g sn' tgt' es Rs → Calls c t sources h src g sn tgt ((σ, none) :: es) (R :: Rs)

end Mem
end Dctl
