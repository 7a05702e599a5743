import Verif.Pipeline.New
/-!
# Specification: what a pipeline computes from complete inputs

Independent of the operators of the model: a collection is read through its multiplicities `get`, the
result of every stage is described document by document. No deltas, no operator state, no rewriting.
-/
set_option autoImplicit false
namespace Dctl
variable {D J : Type} [DecidableEq D] [DecidableEq J]
open ZSet

/-- How often the document `d` is among the documents `f` produces from `x`. -/
def copies {A : Type} (f : A → Except Err (List D)) (d : D) (x : A) : Int :=
  match f x with
  | .ok ds => (ds.count d : Int)
  | .error _ => 0

/-- `m` is the image of `z` under `f`: `f` is defined on every document of `z`, and every document of `m` has
the total multiplicity with which it is produced. -/
def MapSpec (f : Ev D) (z m : ZSet D) : Prop :=
  WF m ∧ (∀ p ∈ z, ∃ ds, f p.1 = .ok ds) ∧
  ∀ d, get m d = (z.map (fun p => p.2 * copies f d p.1)).sum

/-- The documents unwinding produces from one document: one per element of the extracted list, none
without a list. -/
def unwindDocs (ex : D → Except Err (Option (List J))) (tr : D → J → Except Err D) : Ev D := fun x =>
  match ex x with
  | .error e => .error e
  | .ok none => .ok []
  | .ok (some es) => es.mapM (tr x)

/-- All tuples of documents, one from each input, with the product of their multiplicities. -/
def tuples : List (ZSet D) → List (List D × Int)
  | [] => [([], 1)]
  | z :: zs => z.flatMap (fun p => (tuples zs).map (fun t => (p.1 :: t.1, p.2 * t.2)))

/-- `m` is the join of the complete inputs: the condition is defined on every tuple and `m` holds what it
produces from all of them. -/
def JoinSpec (ev : JEv D) (ins : List (ZSet D)) (m : ZSet D) : Prop :=
  WF m ∧ (∀ t ∈ tuples ins, ∃ ds, ev t.1 = .ok ds) ∧
  ∀ d, get m d = ((tuples ins).map (fun t => t.2 * copies ev d t.1)).sum

/-- The values a live document contributes to the group `k`: its value, as often as the document occurs. -/
def contrib (g : Gather D J) (k : J) (p : D × Int) : List J :=
  match g.key p.1, g.val p.1 with
  | .ok (some k'), .ok (some v) => if k' = k then List.replicate p.2.toNat v else []
  | _, _ => []

/-- Document `x` is a member of group `k`. -/
def InGroup (g : Gather D J) (k : J) (x : D) : Prop := g.key x = .ok (some k) ∧ ∃ v, g.val x = .ok (some v)

/-- `m` is a gather of the complete collection `z`: there is one group per key, it holds
exactly the values of its members (as a multiset), its representative is a member, and `m` consists of one aggregated
document per group. -/
def GatherSpec (g : Gather D J) (z m : ZSet D) : Prop :=
  WF m ∧ ∃ grs : List (Group D J), ∃ outs : List D,
    (grs.map Group.key).Nodup ∧
    (∀ k, k ∈ grs.map Group.key ↔ ∃ p ∈ z, InGroup g k p.1) ∧
    (∀ gr ∈ grs, gr.vals.Perm (z.flatMap (contrib g gr.key)) ∧
      InGroup g gr.key gr.doc ∧ gr.doc ∈ z.map Prod.fst) ∧
    grs.map (fun gr => g.agg gr.doc gr.key (g.sort gr.vals)) = outs.map Except.ok ∧
    ∀ d, get m d = (outs.count d : Int)

/-- The multiplicities, in order, of the documents of group `k` with value `v`. -/
def changesOf (g : Gather D J) (k v : J) (z : ZSet D) : List Int :=
  z.filterMap (fun p => match g.key p.1, g.val p.1 with
    | .ok (some k'), .ok (some v') => if k' = k ∧ v' = v then some p.2 else none
    | _, _ => none)

/-- Copies left after additions and removals in this order, if copies that are not there cannot be removed. -/
def leftOver (ms : List Int) : Nat := ms.foldl (fun (c : Nat) (m : Int) => ((c : Int) + m).toNat) 0

/-- The result of one stage. -/
def StageSpec : PipeOp D J → ZSet D → ZSet D → Prop
  | .select ev, z, m => MapSpec ev z m
  | .project ev, z, m => MapSpec ev z m
  | .unwind ex tr, z, m => MapSpec (unwindDocs ex tr) z m
  | .gather g, z, m => GatherSpec g z m
  | .join _, _, _ => False

/-- The result of a sequence of stages, each applied to the complete result of the previous one. -/
inductive StagesSpec : List (PipeOp D J) → ZSet D → ZSet D → Prop
  | nil {z o : ZSet D} : WF o → Eqv z o → StagesSpec [] z o
  | cons {s : PipeOp D J} {ss : List (PipeOp D J)} {z m o : ZSet D} :
      StageSpec s z m → StagesSpec ss m o → StagesSpec (s :: ss) z o

/-- `o` is a result of the pipeline `cfg` on the complete inputs `ins`. -/
def PipelineSpec (cfg : List (PipeOp D J)) (ins : List (ZSet D)) (o : ZSet D) : Prop :=
  match cfg with
  | .join ev :: rest => ∃ m, JoinSpec ev ins m ∧ StagesSpec rest m o
  | _ => ∃ z, ins = [z] ∧ StagesSpec cfg z o

/-- A collection of actual documents: no negative multiplicities. -/
def NonNeg (z : ZSet D) : Prop := ∀ d, 0 ≤ get z d

/-- The pipeline has a gather stage. -/
def hasGather (cfg : List (PipeOp D J)) : Bool := cfg.any (fun p => match p with | .gather _ => true | _ => false)

/-- The inputs in graph order (missing ones are empty). -/
def inputRow (names : List String) (ins : List (String × ZSet D)) : List (ZSet D) :=
  names.map (fun n => (ins.lookup n).getD [])

end Dctl
