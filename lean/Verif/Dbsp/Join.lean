import Verif.Dbsp.Op
/-!
# Joins (`op_bilinear.go`)

The join evaluator receives the tuple of documents as a list, in the order of the input names. In the
code it receives the map `{name_i: doc_i}` (`op_bilinear.go:126-129`); the two agree when the input
names are distinct, which `ChainGraph.AddInput` enforces for the graph (`chain.go:43-47`).
-/
set_option autoImplicit false
namespace Dctl
variable {D : Type} [DecidableEq D]

/-- Join evaluator: tuple of documents to joined documents. -/
abbrev JEv (D : Type) := List D → Except Err (List D)

/-- The accumulation loop of `op_bilinear.go:151-165`: `result = result.Add(term)` for each entry. -/
def sumTerms (f : D → Int → Except Err (ZSet D)) : ZSet D → ZSet D → Except Err (ZSet D)
  | acc, [] => .ok acc
  | acc, (x, m) :: t =>
    match f x m with
    | .error e => .error e
    | .ok r => sumTerms f (acc.add r) t

/-- `op_bilinear.go:120-168` `cartesianJoin`. `docs` is the current tuple in reverse, `m` the product of the
current multiplicities. -/
def cartesianJoin (ev : JEv D) : List (ZSet D) → List D → Int → Except Err (ZSet D)
  | [], docs, m =>
    match ev docs.reverse with
    | .error e => .error e
    | .ok ds => .ok (ZSet.emit [] ds m)
  | z :: zs, docs, m => sumTerms (fun x k => cartesianJoin ev zs (x :: docs) (m * k)) [] z

/-- `op_bilinear.go:30-36` `JoinOp.Process` for a join declared on `n` inputs
(arity check `op.go:68-73`). -/
def snapJoin (ev : JEv D) (n : Nat) (ins : List (ZSet D)) : Except Err (ZSet D) :=
  if ins.length ≠ n then .error "arity mismatch" else cartesianJoin ev ins [] 1

/-- `op_bilinear.go:102-114`: the inputs of the term for `mask`: input `i` is the delta if bit `i` is
set, the previous state otherwise. -/
def termInputs : List (ZSet D) → List (ZSet D) → Nat → List (ZSet D)
  | d :: ds, p :: ps, mask =>
    (if mask % 2 = 1 then d else p) :: termInputs ds ps (mask / 2)
  | _, _, _ => []

/-- `op_bilinear.go:78-88`: the loop over the masks, `result = result.Add(term)`. -/
def sumMasks (ev : JEv D) (deltas prevs : List (ZSet D)) :
    ZSet D → List Nat → Except Err (ZSet D)
  | acc, [] => .ok acc
  | acc, k :: ks =>
    match cartesianJoin ev (termInputs deltas prevs k) [] 1 with
    | .error e => .error e
    | .ok t => sumMasks ev deltas prevs (acc.add t) ks

/-- `op_bilinear.go:64-100` `IncrementalJoinOp.Process`: `prevs` is the state (`prevStates`, nil entries are
replaced by empty Z-sets on the first call, lines 70-74; the model starts with empty ones). The
state changes only if every term succeeded. -/
def incJoin (ev : JEv D) (n : Nat) (prevs deltas : List (ZSet D)) :
    List (ZSet D) × Except Err (ZSet D) :=
  if deltas.length ≠ n then (prevs, .error "arity mismatch")
  else
    match sumMasks ev deltas prevs [] (List.range' 1 (2 ^ n - 1)) with
    | .error e => (prevs, .error e)
    | .ok r => (List.zipWith ZSet.add prevs deltas, .ok r)

/-- `op_bilinear.go:202-226`, inner loop of `BinaryJoinOp.Process`. -/
def binInner (ev : D → D → Except Err (List D)) (l : D) (lm : Int) :
    ZSet D → ZSet D → Except Err (ZSet D)
  | acc, [] => .ok acc
  | acc, (r, rm) :: t =>
    match ev l r with
    | .error e => .error e
    | .ok ds => binInner ev l lm (acc.emit ds (lm * rm)) t

/-- `op_bilinear.go:200-227`, outer loop of `BinaryJoinOp.Process`. -/
def binOuter (ev : D → D → Except Err (List D)) (right : ZSet D) :
    ZSet D → ZSet D → Except Err (ZSet D)
  | acc, [] => .ok acc
  | acc, (l, lm) :: t =>
    match binInner ev l lm acc right with
    | .error e => .error e
    | .ok acc' => binOuter ev right acc' t

/-- `op_bilinear.go:191-230` `BinaryJoinOp.Process` (two inputs given). -/
def binJoin (ev : D → D → Except Err (List D)) (l r : ZSet D) : Except Err (ZSet D) :=
  binOuter ev r [] l

/-- `op_bilinear.go:263-310` `IncrementalBinaryJoinOp.Process`; state is the pair of previous inputs. -/
def incBinJoin (ev : D → D → Except Err (List D)) (prev : ZSet D × ZSet D) (dl dr : ZSet D) :
    (ZSet D × ZSet D) × Except Err (ZSet D) :=
  match binJoin ev dl dr with
  | .error e => (prev, .error e)
  | .ok t1 =>
    match binJoin ev prev.1 dr with
    | .error e => (prev, .error e)
    | .ok t2 =>
      match binJoin ev dl prev.2 with
      | .error e => (prev, .error e)
      | .ok t3 => ((prev.1.add dl, prev.2.add dr), .ok ((t1.add t2).add t3))

end Dctl
