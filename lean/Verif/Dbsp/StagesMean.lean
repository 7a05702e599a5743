import Verif.Pipeline.New
/-!
# A pipeline evaluated from scratch with the model's own operators (helper)

The independent specification is in `Verif/Spec/Pipeline.lean`; this intermediate relation is used in the
proofs. It describes: join the complete inputs, then apply each stage, as written, to the complete result
of the previous one. No state, no deltas, no rewriting. Since the gather stage keeps one
representative document per group and Go map order is unspecified, the meaning is a relation: `m` is a possible result.
-/
set_option autoImplicit false
namespace Dctl
variable {D J : Type} [DecidableEq D] [DecidableEq J]
open ZSet

/-- The result of one stage on a complete collection. -/
def PipeOp.snap : PipeOp D J → ZSet D → Except Err (ZSet D)
  | .select ev, z => linProc ev z
  | .project ev, z => linProc ev z
  | .unwind ex tr, z => unwindProc ex tr z
  | .gather g, z => gatherProc g z
  | .join _, _ => .error "join is not a chain stage"

/-- `StagesMean stages z o`: `o` is a possible result of applying the stages one after the other to the complete
collection `z`, where each stage may see its input in any order. -/
inductive StagesMean : List (PipeOp D J) → ZSet D → ZSet D → Prop
  | nil {z o : ZSet D} : Eqv z o → StagesMean [] z o
  | cons {s : PipeOp D J} {ss : List (PipeOp D J)} {z z' m o : ZSet D} :
      z'.Perm z → s.snap z' = .ok m → StagesMean ss m o → StagesMean (s :: ss) z o

/-- `PipelineMeans cfg ins o`: `o` is a possible result of the pipeline `cfg` on the complete
inputs `ins`. -/
def PipelineMeans (cfg : List (PipeOp D J)) (ins : List (ZSet D)) (o : ZSet D) : Prop :=
  match cfg with
  | .join ev :: rest => ∃ m, cartesianJoin ev ins [] 1 = .ok m ∧ StagesMean rest m o
  | _ => ∃ z, ins = [z] ∧ StagesMean cfg z o

end Dctl
