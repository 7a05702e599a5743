import Verif.Operator.PatchLoop
import Verif.Spec.Loop
/-!
# Specification: controllers that patch what they watch

Small definitions used in theorem statements only.
-/
set_option autoImplicit false
namespace Dctl
variable {D J V : Type} [DecidableEq D] [DecidableEq J]

/-- The events of a kind. -/
def kindEvents (O : ObjOps D) (g : GVK) (h : List (Delta D)) : List (Delta D) := h.filter (fun δ => O.gvk δ.obj = g)

/-- A watch history of good objects of the sources, where the events of each kind that is not patched are fine. -/
structure FineHist (O : ObjOps D) (ts : List GVK) (Good : D → Prop) (Fine : GVK → List (Delta D) → Prop) (sources : List GVK)
    (hist : List (EvalOrder D × Delta D)) : Prop where
  orders : ∀ e ∈ hist, e.1.Valid
  kinds : ∀ e ∈ hist, O.gvk e.2.obj ∈ sources
  good : ∀ e ∈ hist, Good e.2.obj
  watch : WatchOk O (hist.map Prod.snd)
  fine : ∀ g ∈ sources, g ∉ ts → Fine g (kindEvents O g (hist.map Prod.snd))

/-- What is asked of the pipeline of a controller: its evaluations do not fail; it computes at most one object for a name, only for objects of the target kind that
exist, and all of them are as `Res` says; and of the objects of the kinds `ts` it does not use more than that they exist: if one is updated, there is nothing to
write. -/
structure Settling (O : ObjOps D) (ts : List GVK) (Good : D → Prop) (Fine : GVK → List (Delta D) → Prop) (Res : D → Prop) (sources : List GVK) (target : GVK)
    (cfg : List (PipeOp D J)) (p0 : Pipe D J) : Prop where
  ok : ∀ hist, FineHist O ts Good Fine sources hist →
    ∃ wss : List (List (Delta D)), (runs (fun p (e : EvalOrder D × Delta D) => p.evaluate O e.1 e.2) p0 hist).2 = wss.map Except.ok
  one : ∀ hist, FineHist O ts Good Fine sources hist → ∀ ins o, LiveInputs O (hist.map Prod.snd) sources ins → PipelineSpec cfg ins o → OnePerName O target o
  result : ∀ hist, FineHist O ts Good Fine sources hist → ∀ ins o, LiveInputs O (hist.map Prod.snd) sources ins → PipelineSpec cfg ins o →
    ∀ d x, 0 < ZSet.get o d → O.enforce target d = .ok x → Res x ∧ ∃ y, LiveAs O (hist.map Prod.snd) target (O.key x) y
  blind : ∀ hist ω δ, FineHist O ts Good Fine sources (hist ++ [(ω, δ)]) → O.gvk δ.obj ∈ ts → δ.type = .updated →
    (∃ y, LiveAs O (hist.map Prod.snd) (O.gvk δ.obj) (O.key δ.obj) y) →
    ∀ p' ws, (runs (fun p (e : EvalOrder D × Delta D) => p.evaluate O e.1 e.2) p0 hist).1.evaluate O ω δ = (p', .ok ws) → ws = []

/-- What is asked of a controller: it was made from a pipeline as above, and the kind it patches is one of its sources. -/
structure SelfPatching (O : ObjOps D) (ts : List GVK) (Good : D → Prop) (Fine : GVK → List (Delta D) → Prop) (Res : D → Prop) (p0 : Pipe D J) : Prop where
  ex : ∃ cfg : List (PipeOp D J), (p0.sources.map GVK.kind).Nodup ∧ Pipe.new p0.target p0.sources cfg = .ok p0 ∧ p0.target ∈ p0.sources ∧
    Settling O ts Good Fine Res p0.sources p0.target cfg p0

/-- What is asked of the patches of objects of the kinds `ts`: the object keeps its kind and name and is good; an upsert gives the field of the written object, a delete leaves it blank. -/
structure Patching.Sound (O : ObjOps D) (P : Patching D) (ts : List GVK) (Good Res : D → Prop) (fld : D → V) (blank : V) : Prop where
  upsert : ∀ t ∈ ts, ∀ b x, O.enforce t x = .ok x → Res x → Good b → O.gvk b = t → O.key b = O.key x →
    O.gvk (P.upsert b x) = t ∧ O.key (P.upsert b x) = O.key x ∧ Good (P.upsert b x) ∧ fld (P.upsert b x) = fld x
  remove : ∀ t ∈ ts, ∀ b x, O.enforce t x = .ok x → Res x → Good b → O.gvk b = t → O.key b = O.key x →
    O.gvk (P.remove b x) = t ∧ O.key (P.remove b x) = O.key x ∧ Good (P.remove b x) ∧ fld (P.remove b x) = blank

/-- What users do: they write good objects; new objects of the kinds `ts` have the field blank, and changes leave it as it is. -/
def LoopAct.Polite (O : ObjOps D) (ts : List GVK) (Good : D → Prop) (fld : D → V) (blank : V) (S : GVK → Target D) : LoopAct D → Prop
  | .user w => Good w.obj ∧ (O.gvk w.obj ∈ ts → w.type ≠ .deleted → fld w.obj = match S (O.gvk w.obj) (O.key w.obj) with | none => blank | some y => fld y)
  | .work _ _ ω => ω.Valid
  | .send _ _ => True

/-- All steps of a run are as above. -/
def PWorld.PoliteRun (O : ObjOps D) (P : Patching D) (ts : List GVK) (Good : D → Prop) (fld : D → V) (blank : V) (W : PWorld D J) : List (LoopAct D) → Prop
  | [] => True
  | a :: as => a.Polite O ts Good fld blank W.store ∧ ∀ W', W.act O P a = some W' → PWorld.PoliteRun O P ts Good fld blank W' as

/-- The events of the kinds that are not patched, evaluated or queued, are fine at all controllers. -/
def PWorld.FineEvents (O : ObjOps D) (ts : List GVK) (Fine : GVK → List (Delta D) → Prop) (W : PWorld D J) : Prop :=
  ∀ (i : Nat) s, W.stations[i]? = some s → ∀ g ∈ s.base.pipe.sources, g ∉ ts → Fine g (kindEvents O g (s.base.done.map Prod.snd) ++ s.base.pending g)

/-- No controller has anything to evaluate, and what is left to be sent are patches of objects that do not exist. -/
def PWorld.Stopped (O : ObjOps D) (W : PWorld D J) : Prop :=
  ∀ (i : Nat) s, W.stations[i]? = some s → (∀ g ∈ s.base.pipe.sources, s.base.pending g = []) ∧
    ∀ w ∈ s.base.out, W.store s.base.pipe.target (O.key w.obj) = none

/-- A controller evaluates an event or sends a write: `W'` comes right after `W`. -/
def PatchStep (O : ObjOps D) (P : Patching D) (W' W : PWorld D J) : Prop := ∃ a : LoopAct D, a.Own ∧ W.act O P a = some W'

/-- The objects of the target kind hold what the pipeline computes: every result is in the field of the object it is for, and the field of all other objects is blank. -/
def HoldsFields (O : ObjOps D) (fld : D → V) (blank : V) (T : Target D) (target : GVK) (o : ZSet D) : Prop :=
  (∀ d x, 0 < ZSet.get o d → O.enforce target d = .ok x → ∃ y, T (O.key x) = some y ∧ fld y = fld x) ∧
  (∀ k y, T k = some y → (∀ d x, 0 < ZSet.get o d → O.enforce target d = .ok x → O.key x ≠ k) → fld y = blank)

end Dctl
