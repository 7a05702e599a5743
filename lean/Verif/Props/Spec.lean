import Verif.Spec.Operator
import Verif.Spec.Expr
import Verif.Expr.MarshalLemmas
/-!
# Pipelines as JSON (C58)
-/
set_option autoImplicit false
namespace Dctl

theorem specOpOf_iff (name : String) (e : Expr) (o : SpecOp) : specOpOf name e = .ok o ↔ Names name e o := by
  constructor
  · intro h
    unfold specOpOf at h
    repeat' split at h
    all_goals simp only [Except.ok.injEq, reduceCtorEq] at h
    · subst h; rename_i h; subst h; exact .join e
    · subst h; rename_i h; subst h; exact .select e
    · subst h; rename_i h; subst h; exact .project e
    · subst h; rename_i h; rcases h with rfl | rfl
      · exact .unwind e
      · exact .demux e
    · subst h; rename_i h; rcases h with rfl | rfl
      · exact .gather e
      · exact .mux e
  · intro h
    cases h <;> simp [specOpOf]

theorem unmarshalM_one (env : Env) (m : List (String × Json)) (name : String) (e : Expr) :
    unmarshalM env m = .ok [(name, e)] ↔ ∃ ej, m = [(name, ej)] ∧ unmarshalExpr env ej = .ok e := by
  match m with
  | [] => simp [unmarshalM]
  | [(k, j)] =>
    simp only [unmarshalM]
    cases h : unmarshalExpr env j with
    | error x => simp; rintro rfl; simp [h]
    | ok x => simp [h]; grind
  | (k, j) :: (k', j') :: m =>
    simp only [unmarshalM]
    cases unmarshalExpr env j <;> cases unmarshalExpr env j' <;> cases unmarshalM env m <;> simp

theorem unmarshalSpecOp_iff (env : Env) (j : Json) (o : SpecOp) : unmarshalSpecOp env j = .ok o ↔ o.Written env j := by
  unfold SpecOp.Written
  cases j with
  | map m =>
    rw [unmarshalSpecOp]
    constructor
    · intro h
      cases hm : unmarshalM env m with
      | error x => rw [hm] at h; cases h
      | ok es =>
        rw [hm] at h
        match es, h with
        | [], h => cases h
        | [(name, e)], h =>
          obtain ⟨ej, h1, h2⟩ := (unmarshalM_one env m name e).1 hm
          exact ⟨name, ej, e, by rw [h1], h2, (specOpOf_iff _ _ _).1 h⟩
        | _ :: _ :: _, h => cases h
    · rintro ⟨name, ej, e, h1, h2, h3⟩
      cases h1
      rw [(unmarshalM_one env _ name e).2 ⟨ej, rfl, h2⟩]
      exact (specOpOf_iff _ _ _).2 h3
  | _ => simp [unmarshalSpecOp]

theorem unmarshalSpecOps_iff (env : Env) (l : List Json) (p : List SpecOp) : unmarshalSpecOps env l = .ok p ↔ AllWritten env l p := by
  induction l generalizing p with
  | nil => cases p <;> simp [unmarshalSpecOps, AllWritten]
  | cons j l ih =>
    cases p with
    | nil =>
      simp only [unmarshalSpecOps, AllWritten, iff_false]
      cases unmarshalSpecOp env j <;> cases unmarshalSpecOps env l <;> simp
    | cons o p =>
      simp only [unmarshalSpecOps, AllWritten, ← unmarshalSpecOp_iff, ← ih]
      cases unmarshalSpecOp env j <;> cases unmarshalSpecOps env l <;> simp

/-! ## C58 -/

/-- **C58.** A pipeline is read exactly from what is a pipeline as it is to be written: a list of operations, a single operation, or null. -/
theorem pipeline_read_iff (env : Env) (j : Json) (p : List SpecOp) : unmarshalPipeline env j = .ok p ↔ PipelineWritten env j p := by
  unfold PipelineWritten
  cases j with
  | null => simp [unmarshalPipeline, SpecOp.Written, eq_comm]
  | list l => simp [unmarshalPipeline, SpecOp.Written, unmarshalSpecOps_iff]
  | map m =>
    simp only [unmarshalPipeline, reduceCtorEq, false_and, exists_false, false_or, ← unmarshalSpecOp_iff]
    cases unmarshalSpecOp env (.map m) <;> simp
    grind
  | _ => simp [unmarshalPipeline, unmarshalSpecOp, SpecOp.Written]

/-- **C58.** An operation with no name, several names or an unknown name is rejected, alone or anywhere in a list. -/
theorem bad_operation_rejected (env : Env) (m : List (String × Json))
    (h : m.length ≠ 1 ∨ ∃ k j, m = [(k, j)] ∧ k ∉ ["@join", "@select", "@project", "@unwind", "@demux", "@gather", "@mux"]) (l l' : List Json) (p : List SpecOp) :
    unmarshalPipeline env (.map m) ≠ .ok p ∧ unmarshalPipeline env (.list (l ++ .map m :: l')) ≠ .ok p := by
  have hno : ∀ o : SpecOp, ¬ o.Written env (.map m) := by
    rintro o ⟨name, ej, e, h1, -, h3⟩
    cases h1
    rcases h with h | ⟨k, j, h, hk⟩
    · exact h rfl
    · cases h
      cases h3 <;> simp at hk
  have hall : ∀ (l : List Json) (p : List SpecOp), ¬ AllWritten env (l ++ .map m :: l') p := by
    intro l
    induction l with
    | nil =>
      intro p hp
      cases p with
      | nil => exact hp
      | cons o p => exact hno o hp.1
    | cons j l ih =>
      intro p hp
      cases p with
      | nil => exact hp
      | cons o p => exact ih p hp.2
  constructor
  · rw [Ne, pipeline_read_iff]
    rintro (⟨h, -⟩ | ⟨l, h, -⟩ | ⟨o, -, h⟩)
    · cases h
    · cases h
    · exact hno o h
  · rw [Ne, pipeline_read_iff]
    rintro (⟨h, -⟩ | ⟨l, h, h2⟩ | ⟨o, -, n, ej, e, h, -⟩)
    · cases h
    · cases h; exact hall _ _ h2
    · cases h

theorem marshalSpecOp_back {env : Env} {o : SpecOp} {j' : Json} (h1 : marshalExpr env o.expr = .ok j') (h2 : unmarshalExpr env j' = .ok o.expr) :
    ∃ j, marshalSpecOp env o = .ok j ∧ o.Written env j := by
  refine ⟨.map [(o.opType, j')], by rw [marshalSpecOp, h1], o.opType, j', o.expr, rfl, h2, ?_⟩
  cases o <;> simp only [SpecOp.opType, SpecOp.expr] <;> constructor

/-- **C58, partial.** A pipeline read from JSON, written and read again is the same, if its expressions are plain. Missing: expressions that do not survive
themselves (C35), see `pipeline_changed`. -/
theorem pipeline_round_trip_partial (env : Env) (j : Json) (hj : j.Canon) (p : List SpecOp) (h : unmarshalPipeline env j = .ok p) (hp : ∀ o ∈ p, o.expr.Plain) :
    ∃ j', marshalPipeline env p = .ok j' ∧ unmarshalPipeline env j' = .ok p := by
  have hone : ∀ (j : Json) (o : SpecOp), j.Canon → o.Written env j → o.expr.Plain → ∃ j', marshalSpecOp env o = .ok j' ∧ o.Written env j' := by
    rintro j o hj ⟨name, ej, e, rfl, h2, h3⟩ hpl
    have he : o.expr = e := by cases h3 <;> rfl
    have hc : ej.Canon := by
      simp only [Json.Canon, Json.CanonM] at hj
      exact hj.2.1
    rw [he] at hpl
    obtain ⟨j', a, b⟩ := round_trip ej hc e h2 hpl
    exact marshalSpecOp_back (j' := j') (by rw [he]; exact a) (by rw [he]; exact b)
  have hlist : ∀ (l : List Json) (p : List SpecOp), (Json.list l).Canon → AllWritten env l p → (∀ o ∈ p, o.expr.Plain) →
      ∃ js, marshalSpecOps env p = .ok js ∧ AllWritten env js p := by
    intro l
    induction l with
    | nil =>
      intro p _ ha _
      cases p with
      | nil => exact ⟨[], rfl, trivial⟩
      | cons o p => exact ha.elim
    | cons x l ih =>
      intro p hc ha hpl
      cases p with
      | nil => exact ha.elim
      | cons o p =>
        simp only [Json.Canon, Json.CanonL] at hc
        obtain ⟨j1, a1, b1⟩ := hone x o hc.1 ha.1 (hpl o (by simp))
        obtain ⟨js, a2, b2⟩ := ih p (by simpa [Json.Canon] using hc.2) ha.2 (fun o ho => hpl o (by simp [ho]))
        exact ⟨j1 :: js, by simp [marshalSpecOps, a1, a2], b1, b2⟩
  have hsingle : ∀ o j, o.Written env j → j.Canon → o.expr.Plain → ∃ j', marshalPipeline env [o] = .ok j' ∧ unmarshalPipeline env j' = .ok [o] := by
    intro o j ho hc hpl
    obtain ⟨j', a, b⟩ := hone j o hc ho hpl
    exact ⟨j', a, (pipeline_read_iff _ _ _).2 (.inr (.inr ⟨o, rfl, b⟩))⟩
  rcases (pipeline_read_iff _ _ _).1 h with ⟨rfl, rfl⟩ | ⟨l, rfl, ha⟩ | ⟨o, rfl, ho⟩
  · exact ⟨.list [], rfl, rfl⟩
  · match p, l, ha with
    | [o], [x], ha =>
      simp only [Json.Canon, Json.CanonL] at hj
      exact hsingle o x ha.1 hj.1 (hp o (by simp))
    | [_], [], ha => exact ha.elim
    | [_], _ :: _ :: _, ha => exact ha.2.elim
    | [], l, ha =>
      exact ⟨.list [], rfl, rfl⟩
    | o :: o' :: p, l, ha =>
      obtain ⟨js, a, b⟩ := hlist l _ hj ha hp
      exact ⟨.list js, by rw [marshalPipeline]; · simp [a]
                          · simp, (pipeline_read_iff _ _ _).2 (.inr (.inl ⟨js, rfl, b⟩))⟩
  · exact hsingle o j ho hj (hp o (by simp))

/-- **C58.** Copying a pipeline does not change it. -/
theorem pipeline_copy (p : List SpecOp) : copyPipeline p = p := by
  induction p with
  | nil => rfl
  | cons o p ih =>
    rw [copyPipeline, List.map_cons]
    have h1 : copySpecOp o = o := by cases o <;> rfl
    rw [h1]
    exact congrArg _ ih

/-- [{"@join": {"@eq": ["$.a", 1]}}, {"@mux": ["$.x", "$.y"]}] -/
def demoPipelineJson : Json := .list [.map [("@join", .map [("@eq", .list [.str "$.a", .int 1])])], .map [("@mux", .list [.str "$.x", .str "$.y"])]]

/-- See above. -/
def demoPipeline : List SpecOp := [.join (opList "@eq" [strE "$.a", intE 1]), .gather (.exprs "@list" [strE "$.x", strE "$.y"])]

example : unmarshalPipeline plainEnv demoPipelineJson = .ok demoPipeline := rfl
example : demoPipelineJson.Canon ∧ ∀ o ∈ demoPipeline, o.expr.Plain := by
  refine ⟨by decide, ?_⟩
  simp [demoPipeline, SpecOp.expr, opList, strE, intE, Expr.Plain, Expr.PlainL]
example : unmarshalPipeline plainEnv (.map [("@select", .bool true)]) = .ok [.select (boolE true)] := rfl

/-- **C58, not as stated.** A selection with `@any` comes back as one that selects nothing. -/
theorem pipeline_changed : ∃ (j j' : Json) (a : Expr), unmarshalPipeline plainEnv j = .ok [.select (.app "@any" a)] ∧
    marshalPipeline plainEnv [.select (.app "@any" a)] = .ok j' ∧ unmarshalPipeline plainEnv j' = .ok [.select (boolE false)] :=
  ⟨.map [("@select", .map [("@any", .list [.bool true, .list [.int 1]])])], _, .exprs "@list" [boolE true, .exprs "@list" [intE 1]], rfl, rfl, rfl⟩

end Dctl
