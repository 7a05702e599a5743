import Verif.Spec.Rows
import Verif.Spec.Defined
/-!
# Specification: pipelines on lists of documents

What a pipeline of expressions computes, in terms of lists (read as multisets) of documents: no Z-sets, no deltas, no operators.
-/
set_option autoImplicit false
namespace Dctl

/-- `ys` is the concatenation of lists related to the elements of `xs`, one after the other. -/
def Concat {A B : Type} (R : A → List B → Prop) : List A → List B → Prop
  | [], ys => ys = []
  | x :: xs, ys => ∃ l r, ys = l ++ r ∧ R x l ∧ Concat R xs r

/-- The value a document contributes to the group `key`, if it is in the group. -/
def rowVal (env : Env) (keyE valE : Expr) (key : Json) (x : CDoc) : Option Json :=
  match eval env keyE ⟨.map x.1, .null⟩, eval env valE ⟨.map x.1, .null⟩ with
  | .ok k, .ok v => if k = key ∧ v ≠ .null then some v else none
  | _, _ => none

/-- The document is in the group `key`: that is the value of the key expression, and it has a value. -/
def InGroupOf (env : Env) (keyE valE : Expr) (key : Json) (x : CDoc) : Prop := Yields env keyE x key ∧ ∃ v, Yields env valE x v

/-- `c` is one of the documents of the group `key`, with the values of all documents of the group at the path. -/
def GroupDoc (env : Env) (srt : List Json → List Json) (keyE valE : Expr) (path : List String) (xs : List CDoc) (key : Json) (c : CDoc) : Prop :=
  ∃ rep ∈ xs, InGroupOf env keyE valE key rep ∧ ∃ vals, vals.Perm (xs.filterMap (rowVal env keyE valE key)) ∧ SetAt path (.list (srt vals)) rep.1 c.1

/-- What one operation makes of the documents `xs`. -/
def StageRows (env : Env) (srt : List Json → List Json) : SpecOp → List CDoc → List CDoc → Prop
  | .select e, xs, ys => Concat (fun d l => (CondTrue env e d ∧ l = [d]) ∨ (CondFalse env e d ∧ l = [])) xs ys
  | .project e, xs, ys => Concat (fun d l => ∃ c, Projects env e d c ∧ l = [c]) xs ys
  | .unwind e, xs, ys => ∃ path, e = strE (pathString path) ∧ Words path ∧ Concat (fun d l => ∀ (i : Nat) c, l[i]? = some c ↔ UnwindsTo path i d c) xs ys
  | .gather e, xs, ys => ∃ keyE path, e = .exprs "@list" [keyE, strE (pathString path)] ∧ Words path ∧ ∃ keys : List Json, keys.Nodup ∧
      (∀ key, key ∈ keys ↔ ∃ x ∈ xs, InGroupOf env keyE (strE (pathString path)) key x) ∧ ys.length = keys.length ∧
      ∀ (i : Nat) key c, keys[i]? = some key → ys[i]? = some c → GroupDoc env srt keyE (strE (pathString path)) path xs key c
  | .join _, _, _ => False

/-- What a sequence of operations makes of the documents `xs`. -/
def PipeRows (env : Env) (srt : List Json → List Json) : List SpecOp → List CDoc → List CDoc → Prop
  | [], xs, ys => ys = xs
  | op :: ops, xs, ys => ∃ ms, StageRows env srt op xs ms ∧ PipeRows env srt ops ms ys

/-- The documents a pipeline starts from: the live objects of its only source, or the combinations of live objects that satisfy the join condition; and the
operations that follow. -/
def StartRows (env : Env) (hist : List (Delta CDoc)) (sources : List GVK) (spec : List SpecOp) (xs : List CDoc) (ops : List SpecOp) : Prop :=
  xs.Nodup ∧
  match spec with
  | .join e :: rest => ops = rest ∧
      ∀ j, j ∈ xs ↔ ∃ ds, LiveTuple hist sources ds ∧ Combines (sources.map GVK.kind) ds j ∧ CondTrue env e j
  | _ => ops = spec ∧ ∃ src, sources = [src] ∧ ∀ d, d ∈ xs ↔ LiveObj hist src d

/-- `ys` is what the pipeline computes from the live objects. -/
def Computes (env : Env) (srt : List Json → List Json) (hist : List (Delta CDoc)) (sources : List GVK) (spec : List SpecOp) (ys : List CDoc) : Prop :=
  ∃ xs ops, StartRows env hist sources spec xs ops ∧ PipeRows env srt ops xs ys

/-- A gather of the values at a field path. -/
def GathersField (e : Expr) (path : List String) : Prop := ∃ keyE, e = .exprs "@list" [keyE, strE (pathString path)] ∧ path ≠ [] ∧ Words path

/-- Unwinds and gathers are of fields, and documents that are unwound have a name: either they have it from the beginning (`named`) or a projection makes
one; unwinds and gathers of fields other than the name keep it. No join. -/
def FieldSpec (env : Env) : Bool → List SpecOp → Prop
  | _, [] => True
  | named, .select _ :: ops => FieldSpec env named ops
  | named, .project e :: ops =>
    FieldSpec env false ops ∨ ((∀ d c, (named = true → Named d) → Projects env e d c → Named c) ∧ FieldSpec env true ops)
  | named, .unwind e :: ops => named = true ∧ UnwindsField e ∧ FieldSpec env true ops
  | named, .gather e :: ops => ∃ path, GathersField e path ∧ (FieldSpec env false ops ∨ (Disjoint path namePath ∧ FieldSpec env named ops))
  | _, .join _ :: _ => False

/-- The same for a whole pipeline: objects are named, what a join makes is not. -/
def FieldPipeline (env : Env) : List SpecOp → Prop
  | .join _ :: ops => FieldSpec env false ops
  | spec => FieldSpec env true spec

/-- The same, relative to the documents in `P` the operations start from: unwinds and gathers are of fields, and what is unwound has a name. -/
def FieldSpecOn (env : Env) (srt : List Json → List Json) : List SpecOp → (CDoc → Prop) → Prop
  | [], _ => True
  | .select e :: ops, P => FieldSpecOn env srt ops (fun d => P d ∧ CondTrue env e d)
  | .project e :: ops, P => FieldSpecOn env srt ops (fun c => ∃ d, P d ∧ Projects env e d c)
  | .unwind e :: ops, P => UnwindsField e ∧ (∀ d, P d → Named d) ∧
      FieldSpecOn env srt ops (fun c => ∃ path d i, e = strE (pathString path) ∧ P d ∧ UnwindsTo path i d c)
  | .gather e :: ops, P => ∃ path, GathersField e path ∧ FieldSpecOn env srt ops (fun c => ∃ d vals, P d ∧ SetAt path (.list (srt vals)) d.1 c.1)
  | .join _ :: _, _ => False

/-- Different documents (also different occurrences of the same) make objects of different names. -/
def NamesApart (target : GVK) (ys : List CDoc) : Prop :=
  ys.Pairwise (fun c c' => c ≠ c' ∧ ∀ x x', enforceDoc target c.1 = .ok x → enforceDoc target c'.1 = .ok x' → objKey x ≠ objKey x')

/-- Documents with the same name and namespace are in the same group. -/
def KeyOfName (env : Env) (keyE : Expr) : Prop :=
  ∀ d d' k k', Named d → Named d' → Yields env keyE d k → Yields env keyE d' k' → objKey d.1 = objKey d'.1 → k = k'

/-- A value can be put at the path: there is nothing else than maps on the way. -/
def Settable (path : List String) (d : CDoc) : Prop := ∀ q x, q ≠ [] → q <+: path → q ≠ path → nested d.1 q = some x → ∃ y, x = .map y

/-- All operations succeed on the documents in `P` and on what the ones before make of them: conditions are true or false, projections make a document, an
unwound path holds a list or nothing, the keys of gathered documents can be evaluated and the lists stored. -/
def EvaluatesOn (env : Env) (srt : List Json → List Json) : List SpecOp → (CDoc → Prop) → Prop
  | [], _ => True
  | .select e :: ops, P => (∀ d, P d → CondTrue env e d ∨ CondFalse env e d) ∧ EvaluatesOn env srt ops (fun d => P d ∧ CondTrue env e d)
  | .project e :: ops, P => (∀ d, P d → ∃ c, Projects env e d c) ∧ EvaluatesOn env srt ops (fun c => ∃ d, P d ∧ Projects env e d c)
  | .unwind e :: ops, P => ∃ path, e = strE (pathString path) ∧ Words path ∧
      (∀ d, P d → (nested d.1 path).getD .null = .null ∨ ∃ l, nested d.1 path = some (.list l)) ∧
      EvaluatesOn env srt ops (fun c => ∃ d i, P d ∧ UnwindsTo path i d c)
  | .gather e :: ops, P => ∃ keyE path, e = .exprs "@list" [keyE, strE (pathString path)] ∧ Words path ∧
      (∀ d, P d → (∃ k, eval env keyE ⟨.map d.1, .null⟩ = .ok k) ∧ Settable path d) ∧
      EvaluatesOn env srt ops (fun c => ∃ d key vals, P d ∧ Yields env keyE d key ∧
        (∀ v ∈ vals, ∃ d', P d' ∧ Yields env (strE (pathString path)) d' v) ∧ SetAt path (.list (srt vals)) d.1 c.1)
  | .join _ :: _, _ => False

/-- The documents a pipeline can start from in a history: all versions of the objects of the source, or the tuples of them that the join accepts. -/
def StartVersions (env : Env) (hist : List (Delta CDoc)) (sources : List GVK) : List SpecOp → CDoc → Prop
  | .join e :: _, j => ∃ ds, TupleIn (sources.map (Versions jsonOps hist)) ds ∧ Combines (sources.map GVK.kind) ds j ∧ CondTrue env e j
  | _, d => ∃ src ∈ sources, Versions jsonOps hist src d

/-- The operations that follow the join, if there is one. -/
def afterJoin : List SpecOp → List SpecOp
  | .join _ :: ops => ops
  | spec => spec

/-- The condition of the join, if there is one, is true or false of every tuple of versions. -/
def JoinEvaluates (env : Env) (hist : List (Delta CDoc)) (sources : List GVK) : List SpecOp → Prop
  | .join e :: _ => ∀ ds j, TupleIn (sources.map (Versions jsonOps hist)) ds → Combines (sources.map GVK.kind) ds j → CondTrue env e j ∨ CondFalse env e j
  | _ => True

end Dctl
