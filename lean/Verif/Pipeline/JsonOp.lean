import Verif.Pipeline.Eval
import Verif.Operator.Pipeline
import Verif.Expr.Eval
import Verif.Json.Key
import Verif.Json.ObjectLemmas
/-!
# Pipeline operations given by expressions (`pkg/pipeline/op.go`, `pkg/dbsp/op_nonlinear.go:146-175`)

The evaluators of the operations of a pipeline specification. Documents are canonical maps, values handed from extractors to transformers
are `AnyVal`. Values are compared by equality where the code compares their JSON texts (see C01 for when that is the same).
Simplification: a Go panic during an evaluation is an error here; what it does to the process is not modelled.
-/
set_option autoImplicit false
namespace Dctl

/-- What `Extract` returns as `any` and `Transform` receives: a value, or an element of an unwound list with its index (`op.go:109-112` `listElem`). -/
inductive AnyVal where
  | val (j : Json)
  | elem (idx : Nat) (v : Json)
deriving DecidableEq

/-- `op.go:211-214`: the value in an `AnyVal`. -/
def AnyVal.json : AnyVal → Json
  | .val j => j
  | .elem _ v => v

/-- The errors of evaluations as errors of operators (`op.go:30-33` and the like); the texts are not modelled. -/
def opErr : EvalErr → Err
  | .err => "evaluation failed"
  | .panic => "panic"

/-- A result of the evaluator as a result of an operator (`op.go:30-33` and the like). -/
def toOpRes {α : Type} : Res α → Except Err α
  | .ok v => .ok v
  | .error e => .error (opErr e)

/-- A map as a document. All maps that evaluators produce are canonical (`jsonDoc_ok` and the lemmas in `JsonOpLemmas.lean`); there is no such check in
the code. -/
def jsonDoc (m : SMap Json) : Except Err CDoc := if h : (Json.map m).Canon then .ok ⟨m, h⟩ else .error "not canonical"

/-- `op.go:29`, `65`, `120`, `197`, `255`: evaluate an expression on a document. -/
def evalOn (env : Env) (e : Expr) (m : SMap Json) : Res Json := eval env e ⟨.map m, .null⟩

/-! ## @select, @join -/

/-- `op.go:26-47` `SelectionOp.Evaluate`. -/
def selectDoc (env : Env) (e : Expr) (m : SMap Json) : Res (List (SMap Json)) :=
  match evalOn env e m with
  | .error x => .error x
  | .ok v =>
    match asBool v with
    | .error x => .error x
    | .ok b => .ok (if b then [m] else [])

/-- `pkg/dbsp/op_bilinear.go:126-129`: the argument of a join condition, one field per input. -/
def joinInput (names : List String) (ds : List (SMap Json)) : SMap Json :=
  (names.zip ds).foldl (fun acc p => SMap.set acc p.1 (.map p.2)) []

/-- `op.go:254-272` `JoinOp.Evaluate` on the combined document. -/
def joinDoc (env : Env) (e : Expr) (m : SMap Json) : Res (List (SMap Json)) :=
  match evalOn env e m with
  | .error x => .error x
  | .ok v =>
    match asBool v with
    | .error x => .error x
    | .ok b => .ok (if b then [m] else [])

/-! ## @project -/

/-- `op.go:64-92` `ProjectionOp.Evaluate`: objects of a list are merged one after the other; an empty list is no object. -/
def projectDoc (env : Env) (e : Expr) (m : SMap Json) : Res (SMap Json) :=
  match evalOn env e m with
  | .error x => .error x
  | .ok v =>
    match asObjects v with
    | .error x => .error x
    | .ok us =>
      match mergeAll .null (us.map .map) with
      | none => .error .err
      | some r => asObject r

/-! ## @unwind -/

/-- `expression/literal.go:60-67` `GetLiteralString`: the literal as a string, whatever the operator. -/
def literalString (env : Env) : Expr → Res String
  | .lit _ v => asString env v
  | _ => .error .err

/-- `fmt.Sprintf("%s", v)` (`op.go:165`). For lists and maps the text is left open (`sprintv`). -/
def sprintS (env : Env) : Json → String
  | .str s => s
  | .null => "%!s(<nil>)"
  | .bool b => "%!s(bool=" ++ toString b ++ ")"
  | .int i => "%!s(int64=" ++ toString i ++ ")"
  | .float f => "%!s(float64=" ++ env.ftext f ++ ")"
  | v => env.sprintv v

/-- `op.go:133-136`: the elements with their indices, from index `i` on. -/
def indexed : Nat → List Json → List AnyVal
  | _, [] => []
  | i, v :: l => .elem i v :: indexed (i + 1) l

/-- `op.go:114-139` `UnwindOp.Extract`. The lookup of the name fails only for an invalid path: a missing name is `nil` without an error
(`jsonpath.go:107-112`). -/
def unwindExtract (env : Env) (e : Expr) (m : SMap Json) : Res (List AnyVal) :=
  match env.jget "$.metadata.name" (.map m) with
  | .error x => .error x
  | .ok _ =>
    match evalOn env e m with
    | .error x => .error x
    | .ok .null => .ok []
    | .ok v =>
      match asList v with
      | .error x => .error x
      | .ok l => .ok (indexed 0 l)

/-- `jsonpath.go:120-127` `SetJSONPathRaw` on a document, which stays a map. -/
def setRaw (env : Env) (q : String) (v : Json) (m : SMap Json) : Res (SMap Json) :=
  match env.jset q v (.map m) with
  | .error x => .error x
  | .ok r => asObject r

/-- `op.go:141-170` `UnwindOp.Transform`. -/
def unwindTransform (env : Env) (e : Expr) (m : SMap Json) : AnyVal → Res (SMap Json)
  | .val _ => .error .err
  | .elem i v =>
    match literalString env e with
    | .error x => .error x
    | .ok jp =>
      match setRaw env jp v m with
      | .error x => .error x
      | .ok m1 =>
        match env.jget "$.metadata.name" (.map m1) with
        | .error x => .error x
        | .ok name => setRaw env "$.metadata.name" (.str (sprintS env name ++ "-" ++ toString i)) m1

/-! ## @gather -/

/-- `op.go:196-203` `gatherExtractor.Extract`; a null is Go nil. -/
def gatherExtract (env : Env) (e : Expr) (m : SMap Json) : Res (Option AnyVal) :=
  match evalOn env e m with
  | .error x => .error x
  | .ok .null => .ok none
  | .ok v => .ok (some (.val v))

/-- `op.go:209-221` `GatherOp.Transform` with `jsonpath.go:130-141` `SetJSONPathRawExp`. -/
def gatherTransform (env : Env) (e : Expr) (m : SMap Json) (vals : List Json) : Res (SMap Json) :=
  match literalString env e with
  | .error x => .error x
  | .ok jp => setRaw env jp (.list vals) m

/-- `cmp.Compare` (`op_nonlinear.go:154-173`) from a "less" test. -/
def cmpBy {α : Type} (lt : α → α → Bool) (a b : α) : Ordering := if lt a b then .lt else if lt b a then .gt else .eq

/-- `op_nonlinear.go:149-174`: the comparison used by `sortValues`. Numbers and strings of the same kind are compared as such, everything else by the JSON text.
`ft` formats floats. The order of UTF-8 texts is that of their characters. -/
def cmpVal (ft : Rat → List Char) : Json → Json → Ordering
  | .int a, .int b => cmpBy (fun x y => decide (x < y)) a b
  | .float a, .float b => cmpBy (fun x y => decide (x < y)) a b
  | .str a, .str b => cmpBy (fun x y => decide (x < y)) a b
  | a, b => cmpBy (fun x y => decide (x < y)) (String.ofList (a.text ft)) (String.ofList (b.text ft))

/-- One step of `insertionSortCmpFunc`, see `insertionSort` (used by `op_nonlinear.go:149`): `x` moves left past the elements it is less than; the sorted part is given in
reverse. -/
def insertRev (cmp : Json → Json → Ordering) (x : Json) : List Json → List Json
  | [] => [x]
  | y :: l => if cmp x y = .lt then y :: insertRev cmp x l else x :: y :: l

/-- `insertionSortCmpFunc` of the Go library `slices`, which `slices.SortFunc` (`op_nonlinear.go:149`) runs for at most 12 elements. -/
def insertionSort (cmp : Json → Json → Ordering) (l : List Json) : List Json :=
  (l.foldl (fun acc x => insertRev cmp x acc) []).reverse

/-- The comparison is a total preorder on the elements of `l`: what `slices.SortFunc` demands of it. -/
def Orders (cmp : Json → Json → Ordering) (l : List Json) : Prop :=
  (∀ a ∈ l, ∀ b ∈ l, cmp a b = (cmp b a).swap) ∧
  ∀ a ∈ l, ∀ b ∈ l, ∀ c ∈ l, cmp a b ≠ .gt → cmp b c ≠ .gt → cmp a c ≠ .gt

/-- What is known of `slices.SortFunc` (Go library, used by `op_nonlinear.go:149`): it permutes, it sorts if the comparison is an order on the elements, and short
lists are sorted by insertion. -/
structure SortFunc (cmp : Json → Json → Ordering) (srt : List Json → List Json) : Prop where
  perm : ∀ l, (srt l).Perm l
  sorts : ∀ l, Orders cmp l → (srt l).Pairwise (fun a b => cmp a b ≠ .gt)
  short : ∀ l, l.length ≤ 12 → srt l = insertionSort cmp l

/-! ## The operations -/

/-- `op.go:49-52` `NewSelectionOp`. -/
def selectOp (env : Env) (e : Expr) : Ev CDoc := fun d =>
  match toOpRes (selectDoc env e d.1) with
  | .error x => .error x
  | .ok ms => ms.mapM jsonDoc

/-- `op.go:94-97` `NewProjectionOp`. -/
def projectOp (env : Env) (e : Expr) : Ev CDoc := fun d =>
  match toOpRes (projectDoc env e d.1) with
  | .error x => .error x
  | .ok m => [m].mapM jsonDoc

/-- `op.go:274-281` `NewJoinOp` with `op_bilinear.go:122-143`. -/
def joinOp (env : Env) (e : Expr) (names : List String) : JEv CDoc := fun ds =>
  match toOpRes (joinDoc env e (joinInput names (ds.map Subtype.val))) with
  | .error x => .error x
  | .ok ms => ms.mapM jsonDoc

/-- A map or an error as a document or an error (`op.go:169`, `220`). -/
def docRes (r : Res (SMap Json)) : Except Err CDoc :=
  match r with
  | .error x => .error (opErr x)
  | .ok m => jsonDoc m

/-- `op.go:172-178` `NewUnwindOp`. -/
def unwindOp (env : Env) (e : Expr) : Except Err (PipeOp CDoc AnyVal) :=
  match literalString env e with
  | .error _ => .error "expected a JSONpath expression"
  | .ok _ => .ok (.unwind (fun d => toOpRes ((unwindExtract env e d.1).map some)) (fun d v => docRes (unwindTransform env e d.1 v)))

/-- `converter.go:296-319` `AsExpOrExpList` on the argument of a gather (`op.go:224`). -/
def gatherArgs : Expr → Except Err (List Expr)
  | .exprs op es => .ok (if op = "@list" then es else [.exprs op es])
  | e@(.lit op _) => if op = "@list" then .error "list expression should contain a literal list" else .ok [e]
  | e@(.dict op _) => if op = "@list" then .error "list expression should contain a literal list" else .ok [e]
  | e@(.app op _) => if op = "@list" then .error "list expression should contain a literal list" else .ok [e]

/-- `op.go:233-241`: the operator of a gather with key and value expressions; `srt` is `sortValues` (`op_nonlinear.go:148-175`). -/
def gatherOf (env : Env) (srt : List Json → List Json) (k v : Expr) : Gather CDoc AnyVal where
  key d := toOpRes (gatherExtract env k d.1)
  val d := toOpRes (gatherExtract env v d.1)
  agg d _ vals := docRes (gatherTransform env v d.1 (vals.map AnyVal.json))
  sort l := (srt (l.map AnyVal.json)).map .val

/-- `op.go:223-242` `NewGatherOp`. -/
def gatherOp (env : Env) (srt : List Json → List Json) (e : Expr) : Except Err (PipeOp CDoc AnyVal) :=
  match gatherArgs e with
  | .error x => .error x
  | .ok [k, v] => .ok (.gather (gatherOf env srt k v))
  | .ok _ => .error "expected two expressions"

/-- `pipeline.go:104-150`: the operation of a specification. -/
def compileOp (env : Env) (srt : List Json → List Json) (names : List String) : SpecOp → Except Err (PipeOp CDoc AnyVal)
  | .join e => .ok (.join (joinOp env e names))
  | .select e => .ok (.select (selectOp env e))
  | .project e => .ok (.project (projectOp env e))
  | .unwind e => unwindOp env e
  | .gather e => gatherOp env srt e

/-- `pipeline.go:115-152`: all operations. -/
def compileOps (env : Env) (srt : List Json → List Json) (names : List String) : List SpecOp → Except Err (List (PipeOp CDoc AnyVal))
  | [] => .ok []
  | o :: os =>
    match compileOp env srt names o with
    | .error x => .error x
    | .ok p =>
      match compileOps env srt names os with
      | .error x => .error x
      | .ok ps => .ok (p :: ps)

/-- `pipeline.go:77-170` `New` for a specification. Which of several errors is reported is not modelled. -/
def newSpecPipe (env : Env) (srt : List Json → List Json) (target : GVK) (sources : List GVK) (spec : List SpecOp) : Except Err (Pipe CDoc AnyVal) :=
  match compileOps env srt (sources.map GVK.kind) spec with
  | .error x => .error x
  | .ok cfg => Pipe.new target sources cfg

end Dctl
