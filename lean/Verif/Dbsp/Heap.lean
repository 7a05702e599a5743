import Verif.Dbsp.Graph
import Verif.Json.Basic
/-!
# Documents in memory: copies and sharing (`document.go`, `zset.go`, `op_*.go`, `fused_op.go`)

Elsewhere in the model values have no identity. Here they have: maps and lists live in memory, a value is a scalar or
the address of a map or list, Z-sets hold addresses of documents, and `DeepCopyAny`, `DeepCopyDocument` and
`DocumentZSet.DeepCopy` are what the code says, at the places where the code calls them. Maps are association lists
in iteration order.

A recursive function gets the depth of values it can visit (`n`) and answers `none` for deeper ones: the Go stack is
finite, and values with cycles have no depth. Evaluators, extractors and transformers are arbitrary functions on
memory.
-/
set_option autoImplicit false
namespace Dctl
namespace Mem

/-- A value of type `any` (`document.go:8-10`): a scalar, or a map or list at an address. -/
inductive Val where
  | null
  | bool (b : Bool)
  | int (i : Int)
  | float (f : Rat)
  | str (s : String)
  | ref (a : Nat)

/-- What is stored at an address: a `map[string]any` or the elements of a `[]any` (`document.go:8-10`). -/
inductive Cell where
  | map (m : List (String × Val))
  | list (l : List Val)

/-- The memory: the address of a cell is its position. Nothing is ever freed. (Not code: the Go heap.) -/
abbrev Heap := List Cell

/-- A computation that may allocate and write. It gets the depth of the stack; `none`: the stack is too small. (Not code: Go execution.) -/
abbrev M (A : Type) := Nat → Heap → Option (Heap × Except Err A)

/-- Return a result. (Not code.) -/
def M.pure {A : Type} (a : A) : M A := fun _ h => some (h, .ok a)

/-- Fail. (Not code.) -/
def M.fail {A : Type} (e : Err) : M A := fun _ h => some (h, .error e)

/-- Sequence with `if err != nil { return nil, err }` in between. (Not code.) -/
def M.bind {A B : Type} (m : M A) (f : A → M B) : M B := fun n h =>
  match m n h with
  | none => none
  | some (h', .error e) => some (h', .error e)
  | some (h', .ok a) => f a n h'

/-- The loops over the fields of a map, `document.go:86-88`, threading the memory. -/
def mapFields (f : Heap → Val → Option (Heap × Val)) : Heap → List (String × Val) → Option (Heap × List (String × Val))
  | h, [] => some (h, [])
  | h, (k, v) :: t =>
    match f h v with
    | none => none
    | some (h', v') =>
      match mapFields f h' t with
      | none => none
      | some (h'', t') => some (h'', (k, v') :: t')

/-- The loop over the elements of a list, `document.go:93-96`, threading the memory. -/
def mapElems (f : Heap → Val → Option (Heap × Val)) : Heap → List Val → Option (Heap × List Val)
  | h, [] => some (h, [])
  | h, v :: t =>
    match f h v with
    | none => none
    | some (h', v') =>
      match mapElems f h' t with
      | none => none
      | some (h'', t') => some (h'', v' :: t')

/-- `document.go:83-107` `DeepCopyAny` (and `pkg/object/utils.go:88-107`, the same function): maps and lists are copied to a new
address, with copies of what they hold; scalars are returned as they are. Simplification: the new map is allocated after
its fields instead of before. The default branch (103-105), values of other types, is in `Unwind`. -/
def copy : Nat → Heap → Val → Option (Heap × Val)
  | 0, _, .ref _ => none
  | n + 1, h, .ref a =>
    match h[a]? with
    | none => none
    | some (.map m) =>
      match mapFields (copy n) h m with
      | none => none
      | some (h', m') => some (h' ++ [.map m'], .ref h'.length)
    | some (.list l) =>
      match mapElems (copy n) h l with
      | none => none
      | some (h', l') => some (h' ++ [.list l'], .ref h'.length)
  | _, h, v => some (h, v)

/-- Read the fields of a map, as `toCanonicalForm` does (`document.go:36-43`). -/
def readFields (f : Val → Option Json) : List (String × Val) → Option (List (String × Json))
  | [] => some []
  | (k, v) :: t =>
    match f v, readFields f t with
    | some j, some js => some ((k, j) :: js)
    | _, _ => none

/-- Read the elements of a list, as `toCanonicalForm` does (`document.go:47-54`). -/
def readElems (f : Val → Option Json) : List Val → Option (List Json)
  | [] => some []
  | v :: t =>
    match f v, readElems f t with
    | some j, some js => some (j :: js)
    | _, _ => none

/-- The JSON value that a value in memory stands for: what `toCanonicalForm` (`document.go:31-64`) and `json.Marshal` see. -/
def read : Nat → Heap → Val → Option Json
  | _, _, .null => some .null
  | _, _, .bool b => some (.bool b)
  | _, _, .int i => some (.int i)
  | _, _, .float f => some (.float f)
  | _, _, .str s => some (.str s)
  | 0, _, .ref _ => none
  | n + 1, h, .ref a =>
    match h[a]? with
    | none => none
    | some (.map m) => (readFields (read n h) m).map .map
    | some (.list l) => (readElems (read n h) l).map .list

variable {K J : Type} [DecidableEq K] [DecidableEq J]

/-- How values are identified: the key of a document (`document.go:14-27` `computeJSONKey`, see `Verif/Json/Key.lean`), the key of a
value (`document.go:116-123` `computeJSONAny`) and of an indexed list element (`pkg/pipeline/op.go:109-112`). -/
structure Cfg (K J : Type) where
  key : Json → K
  vkey : Json → J
  ekey : Nat → Json → J

/-- `zset.go:9-13` `DocumentZSet`: for each key the address of the document stored for it and the multiplicity. The key was
computed when the entry was made. -/
abbrev HZ (K : Type) := List (K × Nat × Int)

/-- `zset.go:61-71`: the map updates in `AddDocumentMutate`. The document of an existing entry stays. -/
def HZ.upd : HZ K → K → Nat → Int → HZ K
  | [], k, a, m => [(k, a, m)]
  | (k', a', m') :: t, k, a, m =>
    if k' = k then (if m' + m = 0 then t else (k', a', m' + m) :: t) else (k', a', m') :: HZ.upd t k a m

/-- `zset.go:51-74` `AddDocumentMutate`: the document itself is stored, not a copy, under the key it has now. -/
def addDoc (c : Cfg K J) (z : HZ K) (a : Nat) (m : Int) : M (HZ K) := fun n h =>
  if m = 0 then some (h, .ok z)
  else
    match read n h (.ref a) with
    | none => none
    | some j => some (h, .ok (z.upd (c.key j) a m))

/-- The loops that add documents with one multiplicity: `op_linear.go:41-45`, `87-91`, `fused_op.go:47-51`. -/
def addDocs (c : Cfg K J) (m : Int) : HZ K → List Nat → M (HZ K)
  | z, [] => .pure z
  | z, a :: t => (addDoc c z a m).bind (fun z' => addDocs c m z' t)

/-- `document.go:110-113` `DeepCopyDocument` as a step of a computation: the address of the copy of a document. The type
assertion succeeds because documents are maps. -/
def copyDoc (a : Nat) : M Nat := fun n h =>
  match copy n h (.ref a) with
  | some (h', .ref a') => some (h', .ok a')
  | _ => none

/-- `zset.go:170-182` `DeepCopy`. -/
def copyZ : HZ K → M (HZ K)
  | [] => .pure []
  | (k, a, m) :: t => (copyDoc a).bind (fun a' => (copyZ t).bind (fun t' => .pure ((k, a', m) :: t')))

/-- The loop of `zset.go:84-90` and `103-109`: the documents of the argument themselves are added, not copies. `s` is `1`
in `Add` and `-1` in `Subtract`. -/
def addAll (c : Cfg K J) (s : Int) : HZ K → HZ K → M (HZ K)
  | z, [] => .pure z
  | z, (_, a, m) :: t => (addDoc c z a (s * m)).bind (fun z' => addAll c s z' t)

/-- `zset.go:77-93` `Add`. -/
def addZ (c : Cfg K J) (z w : HZ K) : M (HZ K) := (copyZ z).bind (fun z' => addAll c 1 z' w)

/-- `zset.go:96-112` `Subtract`. -/
def subZ (c : Cfg K J) (z w : HZ K) : M (HZ K) := (copyZ z).bind (fun z' => addAll c (-1) z' w)

/-- `zset.go:116-130` `Distinct`, the loop. -/
def distinctZ (c : Cfg K J) : HZ K → HZ K → M (HZ K)
  | z, [] => .pure z
  | z, (_, a, m) :: t => if m > 0 then (addDoc c z a 1).bind (fun z' => distinctZ c z' t) else distinctZ c z t

/-- `op.go:8-11` `Evaluator.Evaluate` on the address of a document. -/
abbrev HEv := Nat → M (List Nat)

/-- `op_linear.go:70-95` `SelectionOp.Process`, the loop: the evaluator gets the document itself. -/
def selectGo (c : Cfg K J) (e : HEv) : HZ K → HZ K → M (HZ K)
  | acc, [] => .pure acc
  | acc, (_, a, m) :: t => (e a).bind (fun as => (addDocs c m acc as).bind (fun acc' => selectGo c e acc' t))

/-- `op_linear.go:26-49` `ProjectionOp.Process`, the loop: the evaluator gets a copy of the document. -/
def projectGo (c : Cfg K J) (e : HEv) : HZ K → HZ K → M (HZ K)
  | acc, [] => .pure acc
  | acc, (_, a, m) :: t => (copyDoc a).bind (fun a' => (e a').bind (fun as =>
      (addDocs c m acc as).bind (fun acc' => projectGo c e acc' t)))

/-- `fused_op.go:40-53`: evaluate each projected document and add the results. -/
def selectDocs (c : Cfg K J) (e : HEv) (m : Int) : HZ K → List Nat → M (HZ K)
  | acc, [] => .pure acc
  | acc, a :: t => (e a).bind (fun as => (addDocs c m acc as).bind (fun acc' => selectDocs c e m acc' t))

/-- `fused_op.go:22-56` `ProjectThenSelectOp.Process`, the loop: the evaluators get the document itself, and each other's
results. -/
def projSelGo (c : Cfg K J) (p s : HEv) : HZ K → HZ K → M (HZ K)
  | acc, [] => .pure acc
  | acc, (_, a, m) :: t => (p a).bind (fun as => (selectDocs c s m acc as).bind (fun acc' => projSelGo c p s acc' t))

/-- `fused_op.go:125-136`: the chain of projections; each gets the result of the one before, the first the
document itself. -/
def projChainH : List HEv → Nat → M Nat
  | [], a => .pure a
  | p :: ps, a => (p a).bind (fun as => match as with
    | [b] => projChainH ps b
    | _ => .fail "projection evaluator did not produce exactly 1 document")

/-- `fused_op.go:107-141`: the selection, where there is one, of one document. -/
def selOpt : Option HEv → HEv
  | some s, a => s a
  | none, a => .pure [a]

/-- `fused_op.go:96-145` `SelectThenProjectionsOp.Process`, the loop. -/
def selProjsGo (c : Cfg K J) (s : Option HEv) (ps : List HEv) : HZ K → HZ K → M (HZ K)
  | acc, [] => .pure acc
  | acc, (_, a, m) :: t => (selOpt s a).bind (fun as =>
      (selectDocs c (fun b => (projChainH ps b).bind (fun r => .pure [r])) m acc as).bind (fun acc' => selProjsGo c s ps acc' t))

/-- `op_linear.go:97-104` `UnwindOp`: an extractor of elements (`none`: no list, the document is skipped) and a
transformer. An element is an index and a value in a struct (`pkg/pipeline/op.go:109-112`). -/
structure Unwind where
  extract : Nat → M (Option (List (Nat × Val)))
  transform : Nat → Nat × Val → M Nat

/-- `op_linear.go:143-158`: the loop over the elements; each gets its own copy of the document. The element is
not copied: `DeepCopyAny` (line 147) does not look into structs, its default branch (`document.go:103-105`) returns them as they
are. -/
def unwindDoc (c : Cfg K J) (u : Unwind) (a : Nat) (m : Int) : HZ K → List (Nat × Val) → M (HZ K)
  | acc, [] => .pure acc
  | acc, x :: t => (copyDoc a).bind (fun a' => (u.transform a' x).bind (fun b =>
      (addDoc c acc b m).bind (fun acc' => unwindDoc c u a m acc' t)))

/-- `op_linear.go:116-162` `UnwindOp.Process`, the loop over the documents. -/
def unwindGo (c : Cfg K J) (u : Unwind) : HZ K → HZ K → M (HZ K)
  | acc, [] => .pure acc
  | acc, (_, a, m) :: t => (u.extract a).bind (fun r => match r with
    | none => unwindGo c u acc t
    | some es => (unwindDoc c u a m acc es).bind (fun acc' => unwindGo c u acc' t))

/-- `op_nonlinear.go:15-20` `GatherOp`: extractors of the key and of the value (`none`: Go `nil`), the aggregator, and the
sorting of values (148-175), which looks at memory and moves values. -/
structure HGather where
  key : Nat → M (Option Val)
  val : Nat → M (Option Val)
  agg : Nat → Val → List Val → M Nat
  sort : List Val → M (List Val)

/-- `op_nonlinear.go:119-123` `GroupData`, with its key in the map of groups. The document is the one in the input, the values
are the extracted ones, not copies. -/
structure HGroup (J : Type) where
  name : J
  key : Val
  vals : List Val
  doc : Nat

/-- `op_nonlinear.go:135-144` `removeFirstMatch`. -/
def removeMatch (c : Cfg K J) (j : J) : List Val → M (List Val)
  | [] => .pure []
  | v :: t => fun n h =>
    match read n h v with
    | none => none
    | some w => if c.vkey w = j then some (h, .ok t) else (removeMatch c j t).bind (fun t' => .pure (v :: t')) n h

/-- `op_nonlinear.go:84-88`: remove several times. -/
def removeMatches (c : Cfg K J) (j : J) : Nat → List Val → M (List Val)
  | 0, l => .pure l
  | i + 1, l => (removeMatch c j l).bind (removeMatches c j i)

/-- `op_nonlinear.go:79-89`: append the value, or remove values like it. -/
def applyMultH (c : Cfg K J) (vals : List Val) (v : Val) (m : Int) : M (List Val) := fun n h =>
  if m > 0 then some (h, .ok (vals ++ List.replicate m.toNat v))
  else
    match read n h v with
    | none => none
    | some w => removeMatches c (c.vkey w) (-m).toNat vals n h

/-- `op_nonlinear.go:69-89`: create the group if missing, update its values. -/
def updGroupH (c : Cfg K J) (name : J) (key v : Val) (a : Nat) (m : Int) : List (HGroup J) → M (List (HGroup J))
  | [] => (applyMultH c [] v m).bind (fun vs => .pure [⟨name, key, vs, a⟩])
  | g :: gs =>
    if g.name = name then (applyMultH c g.vals v m).bind (fun vs => .pure ({ g with vals := vs } :: gs))
    else (updGroupH c name key v a m gs).bind (fun gs' => .pure (g :: gs'))

/-- `document.go:116-123` `computeJSONAny` of a value. -/
def valKey (c : Cfg K J) (v : Val) : M J := fun n h => (read n h v).map (fun j => (h, .ok (c.vkey j)))

/-- `op_nonlinear.go:43-90`, the grouping loop. -/
def gatherGroupsH (c : Cfg K J) (g : HGather) : List (HGroup J) → HZ K → M (List (HGroup J))
  | acc, [] => .pure acc
  | acc, (_, a, m) :: t => (g.key a).bind (fun k => match k with
    | none => gatherGroupsH c g acc t
    | some k => (g.val a).bind (fun v => match v with
      | none => gatherGroupsH c g acc t
      | some v => (valKey c k).bind (fun name => (updGroupH c name k v a m acc).bind (fun acc' => gatherGroupsH c g acc' t))))

/-- `op_nonlinear.go:93-113`, the aggregation loop: the aggregator gets a copy of the document of the group, and
the values. -/
def gatherAggH (c : Cfg K J) (g : HGather) : HZ K → List (HGroup J) → M (HZ K)
  | acc, [] => .pure acc
  | acc, gr :: gs => (g.sort gr.vals).bind (fun vs => (copyDoc gr.doc).bind (fun a => (g.agg a gr.key vs).bind (fun b =>
      (addDoc c acc b 1).bind (fun acc' => gatherAggH c g acc' gs))))

/-- Operators of a chain with their state, in memory (compare `Op`). -/
inductive HOp (K : Type) where
  | project (e : HEv)
  | select (e : HEv)
  | unwind (u : Unwind)
  | gather (g : HGather)
  | distinct
  | integ (state : HZ K)
  | diff (prev : HZ K)
  | delay (buf : HZ K)
  | negate
  | projSel (p s : HEv)
  | selProjs (s : Option HEv) (ps : List HEv)

/-- `Process` of the chain operators: `op_linear.go:26-49`, `70-95`, `116-162`, `op_nonlinear.go:33-116`, `op_misc.go:20-29`,
`47-62`, `89-106`, `234-243`, `261-275`, `fused_op.go:22-56`, `96-145`. Note which copies are made: the integrator keeps its state and
returns a copy, the differentiator keeps a copy of its input, the delay keeps a copy of its input and returns a
copy of its buffer. -/
def HOp.proc (c : Cfg K J) : HOp K → HZ K → M (HOp K × HZ K)
  | .project e, z => (projectGo c e [] z).bind (fun r => .pure (.project e, r))
  | .select e, z => (selectGo c e [] z).bind (fun r => .pure (.select e, r))
  | .unwind u, z => (unwindGo c u [] z).bind (fun r => .pure (.unwind u, r))
  | .gather g, z => ((gatherGroupsH c g [] z).bind (gatherAggH c g [])).bind (fun r => .pure (.gather g, r))
  | .distinct, z => (distinctZ c [] z).bind (fun r => .pure (.distinct, r))
  | .integ s, z => (addZ c s z).bind (fun s' => (copyZ s').bind (fun r => .pure (.integ s', r)))
  | .diff p, z => (subZ c z p).bind (fun r => (copyZ z).bind (fun p' => .pure (.diff p', r)))
  | .delay b, z => (copyZ b).bind (fun r => (copyZ z).bind (fun b' => .pure (.delay b', r)))
  | .negate, z => (subZ c [] z).bind (fun r => .pure (.negate, r))
  | .projSel p s, z => (projSelGo c p s [] z).bind (fun r => .pure (.projSel p s, r))
  | .selProjs s ps, z => (selProjsGo c s ps [] z).bind (fun r => .pure (.selProjs s ps, r))

/-- Join operators, in memory (compare `JoinOp`): the evaluator gets a map of the documents by input name. Not
included: the joins for two inputs (`op_bilinear.go:171-312`), which the pipeline does not use. -/
inductive HJoin (K : Type) where
  | snap (e : HEv) (names : List String)
  | incr (e : HEv) (names : List String) (prevs : List (HZ K))

/-- `op_bilinear.go:138-142`: add copies of the joined documents. -/
def addCopies (c : Cfg K J) (m : Int) : HZ K → List Nat → M (HZ K)
  | z, [] => .pure z
  | z, a :: t => (copyDoc a).bind (fun a' => (addDoc c z a' m).bind (fun z' => addCopies c m z' t))

/-- `make(Document)` and the assignments of `op_bilinear.go:123-129`: a new map. -/
def newMap (m : List (String × Val)) : M Nat := fun _ h => some (h ++ [.map m], .ok h.length)

/-- The loop of `op_bilinear.go:151-165`: `result = result.Add(term)`. -/
def sumTermsH (c : Cfg K J) (f : Nat → Int → M (HZ K)) : HZ K → HZ K → M (HZ K)
  | acc, [] => .pure acc
  | acc, (_, a, m) :: t => (f a m).bind (fun r => (addZ c acc r).bind (fun acc' => sumTermsH c f acc' t))

/-- `op_bilinear.go:120-168` `cartesianJoin`; `docs` are the current documents, in reverse. -/
def cartH (c : Cfg K J) (e : HEv) (names : List String) : List (HZ K) → List Nat → Int → M (HZ K)
  | [], docs, m => (newMap (names.zip (docs.reverse.map .ref))).bind (fun a => (e a).bind (addCopies c m []))
  | z :: zs, docs, m => sumTermsH c (fun a k => cartH c e names zs (a :: docs) (m * k)) [] z

/-- `op_bilinear.go:102-114`: the inputs of one term. -/
def termInputsH : List (HZ K) → List (HZ K) → Nat → List (HZ K)
  | d :: ds, p :: ps, mask => (if mask % 2 = 1 then d else p) :: termInputsH ds ps (mask / 2)
  | _, _, _ => []

/-- `op_bilinear.go:78-88`: the loop over the terms. -/
def sumMasksH (c : Cfg K J) (e : HEv) (names : List String) (ds ps : List (HZ K)) : HZ K → List Nat → M (HZ K)
  | acc, [] => .pure acc
  | acc, k :: ks => (cartH c e names (termInputsH ds ps k) [] 1).bind (fun t =>
      (addZ c acc t).bind (fun acc' => sumMasksH c e names ds ps acc' ks))

/-- `op_bilinear.go:91-97`: the new states, which share the documents of the inputs. -/
def addStates (c : Cfg K J) : List (HZ K) → List (HZ K) → M (List (HZ K))
  | p :: ps, d :: ds => (addZ c p d).bind (fun p' => (addStates c ps ds).bind (fun ps' => .pure (p' :: ps')))
  | _, _ => .pure []

/-- `op_bilinear.go:30-36` `JoinOp.Process`, `64-100` `IncrementalJoinOp.Process`. -/
def HJoin.proc (c : Cfg K J) : HJoin K → List (HZ K) → M (HJoin K × HZ K)
  | .snap e names, ins =>
    if ins.length ≠ names.length then .fail "arity mismatch"
    else (cartH c e names ins [] 1).bind (fun r => .pure (.snap e names, r))
  | .incr e names ps, ins =>
    if ins.length ≠ names.length then .fail "arity mismatch"
    else (sumMasksH c e names ins ps [] (List.range' 1 (2 ^ names.length - 1))).bind (fun r =>
      (addStates c ps ins).bind (fun ps' => .pure (.incr e names ps', r)))

/-- `chain.go:10-18` `ChainGraph` in memory (compare `Graph`). -/
structure HGraph (K : Type) where
  join : Option (HJoin K)
  chain : List (HOp K)

/-- `executor.go:79-88`: run the operators of the chain in sequence; the first error ends the run, with the nodes before
it already changed. Iteration order of maps: the order of the lists. -/
def runOps (c : Cfg K J) : List (HOp K) → HZ K → Nat → Heap → Option (Heap × List (HOp K) × Except Err (HZ K))
  | [], z, _, h => some (h, [], .ok z)
  | o :: os, z, n, h =>
    match o.proc c z n h with
    | none => none
    | some (h', .error e) => some (h', o :: os, .error e)
    | some (h', .ok (o', r)) =>
      match runOps c os r n h' with
      | none => none
      | some (h'', os', res) => some (h'', o' :: os', res)

/-- `executor.go:51-94` `Executor.Process`, with the inputs collected in the order of the graph. -/
def HGraph.process (c : Cfg K J) (g : HGraph K) (ins : List (HZ K)) (n : Nat) (h : Heap) :
    Option (Heap × HGraph K × Except Err (HZ K)) :=
  match g.join with
  | some j =>
    match j.proc c ins n h with
    | none => none
    | some (h', .error e) => some (h', g, .error e)
    | some (h', .ok (j', r)) =>
      match runOps c g.chain r n h' with
      | none => none
      | some (h'', os, res) => some (h'', ⟨some j', os⟩, res)
  | none =>
    match ins with
    | [] => some (h, g, .error "no input")
    | z :: _ =>
      match runOps c g.chain z n h with
      | none => none
      | some (h'', os, res) => some (h'', ⟨none, os⟩, res)

end Mem
end Dctl
