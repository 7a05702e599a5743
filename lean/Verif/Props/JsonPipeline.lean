import Verif.Pipeline.JsonOpLemmas
import Verif.Json.SortLemmas
import Verif.Props.Exec
import Verif.Props.Patch
import Verif.Props.Expr
/-!
# C76 – C81: pipelines given by expressions
-/
set_option autoImplicit false
namespace Dctl
open ZSet

/-! ## C76 -/

/-- A scalar that is read as a string. -/
def Json.Texty : Json → Bool
  | .str _ | .int _ | .float _ => true
  | _ => false

/-- What is demanded of the expressions. -/
def SpecOp.WellFormed : SpecOp → Prop
  | .unwind e => ∃ op v, e = .lit op v ∧ v.Texty = true
  | .gather e => ∃ k v, e = .exprs "@list" [k, v]
  | _ => True

theorem literalString_ok {env : Env} {e : Expr} : (∃ s, literalString env e = .ok s) ↔ ∃ op v, e = .lit op v ∧ v.Texty = true := by
  cases e with
  | lit op v =>
    have : (∃ s, asString env v = .ok s) ↔ v.Texty = true := by cases v <;> simp [asString, Json.Texty]
    constructor
    · exact fun h => ⟨op, v, rfl, this.mp h⟩
    · rintro ⟨_, _, h, ht⟩
      cases h
      exact this.mpr ht
  | _ => simp [literalString]

theorem gatherArgs_two {e k v : Expr} : gatherArgs e = .ok [k, v] ↔ e = .exprs "@list" [k, v] := by
  cases e with
  | exprs op es =>
    simp only [gatherArgs, Except.ok.injEq, Expr.exprs.injEq]
    by_cases h : op = "@list" <;> simp [h]
  | lit op v => simp only [gatherArgs]; split <;> simp
  | dict op v => simp only [gatherArgs]; split <;> simp
  | app op v => simp only [gatherArgs]; split <;> simp

theorem compileOp_ok {env : Env} {srt : List Json → List Json} {names : List String} {o : SpecOp} :
    (∃ p, compileOp env srt names o = .ok p) ↔ o.WellFormed := by
  cases o with
  | unwind e =>
    simp only [compileOp, unwindOp, SpecOp.WellFormed]
    rw [← literalString_ok (env := env)]
    cases literalString env e <;> simp
  | gather e =>
    simp only [compileOp, gatherOp, SpecOp.WellFormed]
    constructor
    · rintro ⟨p, h⟩
      split at h
      · cases h
      · rename_i k v hk; exact ⟨k, v, gatherArgs_two.mp hk⟩
      · cases h
    · rintro ⟨k, v, rfl⟩
      exact ⟨_, rfl⟩
  | _ => simp [compileOp, SpecOp.WellFormed]

theorem compileOp_join {env : Env} {srt : List Json → List Json} {names : List String} {o : SpecOp} {p : PipeOp CDoc AnyVal}
    (h : compileOp env srt names o = .ok p) : (∃ ev, p = .join ev) ↔ ∃ e, o = .join e := by
  cases o with
  | unwind e => simp only [compileOp, unwindOp] at h; split at h <;> cases h; simp
  | gather e => simp only [compileOp, gatherOp] at h; split at h <;> cases h; simp
  | _ => cases h; simp

theorem compileOps_ok {env : Env} {srt : List Json → List Json} {names : List String} : ∀ {spec : List SpecOp},
    (∃ cfg, compileOps env srt names spec = .ok cfg) ↔ ∀ o ∈ spec, o.WellFormed
  | [] => by simp [compileOps]
  | o :: os => by
    rw [List.forall_mem_cons, ← compileOp_ok (env := env) (srt := srt) (names := names), ← compileOps_ok (env := env) (srt := srt) (names := names) (spec := os)]
    simp only [compileOps]
    cases compileOp env srt names o <;> cases compileOps env srt names os <;> simp

theorem compileOps_join {env : Env} {srt : List Json → List Json} {names : List String} : ∀ {spec : List SpecOp} {cfg : List (PipeOp CDoc AnyVal)},
    compileOps env srt names spec = .ok cfg → ((∃ ev, PipeOp.join ev ∈ cfg) ↔ ∃ e, SpecOp.join e ∈ spec) ∧
      ((∃ ev rest, cfg = .join ev :: rest) ↔ ∃ e rest, spec = .join e :: rest) ∧ ((∃ ev, PipeOp.join ev ∈ cfg.drop 1) ↔ ∃ e, SpecOp.join e ∈ spec.drop 1)
  | [], cfg, h => by cases h; simp
  | o :: os, cfg, h => by
    simp only [compileOps] at h
    split at h
    · cases h
    · rename_i p hp
      split at h
      · cases h
      · rename_i ps hps
        cases h
        obtain ⟨h1, h2, h3⟩ := compileOps_join hps
        have hj := compileOp_join hp
        refine ⟨?_, ?_, ?_⟩
        · simp only [List.mem_cons, exists_or]
          rw [h1, show (∃ ev, PipeOp.join ev = p) ↔ ∃ ev, p = .join ev from ⟨fun ⟨a, b⟩ => ⟨a, b.symm⟩, fun ⟨a, b⟩ => ⟨a, b.symm⟩⟩, hj]
          exact or_congr_left ⟨fun ⟨a, b⟩ => ⟨a, b.symm⟩, fun ⟨a, b⟩ => ⟨a, b.symm⟩⟩
        · simp only [List.cons.injEq]
          constructor
          · rintro ⟨ev, rest, e, _⟩
            obtain ⟨x, hx⟩ := hj.mp ⟨ev, e⟩
            exact ⟨x, os, hx, rfl⟩
          · rintro ⟨ev, rest, e, _⟩
            obtain ⟨x, hx⟩ := hj.mpr ⟨ev, e⟩
            exact ⟨x, ps, hx, rfl⟩
        · simpa using h1

/-- **C76** (acceptance): a pipeline is accepted exactly if there is a source, a join comes first if there are several sources and nowhere else, every unwind
has a scalar literal and every gather a list of exactly two expressions. -/
theorem C76_accepted_iff (env : Env) (srt : List Json → List Json) (target : GVK) (sources : List GVK) (spec : List SpecOp) :
    (∃ p, newSpecPipe env srt target sources spec = .ok p) ↔
      sources ≠ [] ∧ (1 < sources.length → ∃ e rest, spec = .join e :: rest) ∧ (∀ e, SpecOp.join e ∉ spec.drop 1) ∧ ∀ o ∈ spec, o.WellFormed := by
  unfold newSpecPipe
  by_cases hwf : ∀ o ∈ spec, o.WellFormed
  · obtain ⟨cfg, hc⟩ := (compileOps_ok (env := env) (srt := srt) (names := sources.map GVK.kind)).mpr hwf
    obtain ⟨h1, h2, h3⟩ := compileOps_join hc
    rw [hc]
    simp only
    have hp : (∃ p, Pipe.new target sources cfg = .ok p) ↔ ∃ g, newPipeline (sources.map GVK.kind) cfg = .ok g := by
      unfold Pipe.new
      cases newPipeline (sources.map GVK.kind) cfg <;> simp
    rw [hp, C10_accepted_iff]
    simp only [List.length_map, ne_eq, List.map_eq_nil_iff]
    rw [h2]
    refine and_congr_right (fun _ => and_congr_right (fun _ => ?_))
    constructor
    · intro h
      refine ⟨fun e he => ?_, hwf⟩
      obtain ⟨ev, hev⟩ := h3.mpr ⟨e, he⟩
      exact (h ev).1 hev
    · rintro ⟨h, _⟩ ev
      have hd : PipeOp.join ev ∉ cfg.drop 1 := fun he => by
        obtain ⟨e, he⟩ := h3.mp ⟨ev, he⟩
        exact h e he
      refine ⟨hd, fun hm => ?_⟩
      cases cfg with
      | nil => simp at hm
      | cons x rest =>
        rcases List.mem_cons.mp hm with rfl | hm
        · exact h2.mp ⟨ev, rest, rfl⟩
        · exact absurd hm hd
  · cases hc : compileOps env srt (sources.map GVK.kind) spec with
    | error x => simp only [reduceCtorEq, exists_false, false_iff]; exact fun h => hwf h.2.2.2
    | ok cfg => exact absurd (compileOps_ok.mp ⟨cfg, hc⟩) hwf

/-- **C76** (no path needed): an unwind of a number is accepted although it is no JSON path, and then fails on every document. -/
theorem C76_unwind_number (base : Env) (srt : List Json → List Json) (target src : GVK) (i : Int) :
    (∃ p, newSpecPipe (fieldEnv base) srt target [src] [.unwind (intE i)] = .ok p) ∧
    ∀ ex tr, unwindOp (fieldEnv base) (intE i) = .ok (.unwind ex tr) → ∀ d, ∃ e, unwindDocs ex tr d = .error e := by
  constructor
  · rw [C76_accepted_iff]
    exact ⟨by simp, by simp, by simp, by simpa [SpecOp.WellFormed] using ⟨_, _, ⟨rfl, rfl⟩, rfl⟩⟩
  · intro ex tr h d
    cases h
    refine ⟨"evaluation failed", ?_⟩
    have he : evalOn (fieldEnv base) (intE i) d.1 = .ok (.int i) := rfl
    simp only [unwindDocs, unwindExtract, jget_name, he, asList]
    rfl

-- accepted: two sources with a join, then unwind and gather; rejected: a gather with one expression
example : (∃ p, newSpecPipe plainEnv id ⟨"g", "v1", "View"⟩ [⟨"", "v1", "Pod"⟩, ⟨"", "v1", "Service"⟩] [.join (boolE true), .unwind (strE "$.spec"), .gather (.exprs "@list" [strE "$.a", strE "$.b"])] = .ok p) ∧
    ¬ ∃ p, newSpecPipe plainEnv id ⟨"g", "v1", "View"⟩ [⟨"", "v1", "Pod"⟩] [.gather (strE "$.a")] = .ok p := by
  rw [C76_accepted_iff, C76_accepted_iff]
  simp [SpecOp.WellFormed]
  exact ⟨_, _, ⟨rfl, rfl⟩, rfl⟩

/-! ## C77 -/

theorem copies_select {env : Env} {e : Expr} {d x : CDoc} : (CondTrue env e x → copies (selectOp env e) d x = if x = d then 1 else 0) ∧
    (¬ CondTrue env e x → copies (selectOp env e) d x = 0) := by
  constructor
  · intro h
    rw [copies, selectOp_ok.mpr ⟨true, h, rfl⟩]
    simp only [if_true, List.count_cons, List.count_nil, beq_iff_eq, Nat.zero_add]
    split <;> rfl
  · intro h
    rw [copies]
    split
    · rename_i ds hds
      obtain ⟨b, h1, rfl⟩ := selectOp_ok.mp hds
      cases b
      · simp
      · exact absurd h1 h
    · rfl

/-- **C77** (select): a selection keeps exactly the documents of which the condition is true, unchanged and as often as they occur. -/
theorem C77_select (env : Env) (e : Expr) (z m : ZSet CDoc) (hz : WF z) (h : MapSpec (selectOp env e) z m) :
    (∀ d, CondTrue env e d → get m d = get z d) ∧ ∀ d, ¬ CondTrue env e d → get m d = 0 := by
  obtain ⟨_, _, h3⟩ := h
  constructor
  · intro d hd
    rw [h3, ← Int.mul_one (ZSet.get z d), ← sum_pick hz d 1]
    refine sum_congr (fun p _ => ?_)
    by_cases e' : p.1 = d
    · rw [if_pos e', e', copies_select.1 hd, if_pos rfl]
    · rw [if_neg e']
      by_cases hp : CondTrue env e p.1
      · rw [copies_select.1 hp, if_neg e']; simp
      · rw [copies_select.2 hp]; simp
  · intro d hd
    rw [h3]
    refine sum_zero (fun p _ => ?_)
    by_cases hp : CondTrue env e p.1
    · rw [copies_select.1 hp, if_neg (fun e' : p.1 = d => hd (e' ▸ hp))]; simp
    · rw [copies_select.2 hp]; simp

/-- **C77** (select, when it fails): a selection has a result exactly if the condition is true or false of every document. -/
theorem C77_select_total (env : Env) (e : Expr) (z : ZSet CDoc) : (∃ m, linProc (selectOp env e) z = .ok m) ↔ ∀ p ∈ z, CondTrue env e p.1 ∨ CondFalse env e p.1 := by
  have key : ∀ (z acc : ZSet CDoc), (∃ m, linGo (selectOp env e) acc z = .ok m) ↔ ∀ p ∈ z, CondTrue env e p.1 ∨ CondFalse env e p.1 := by
    intro z
    induction z with
    | nil => intro acc; simp [linGo]
    | cons p z ih =>
      intro acc
      obtain ⟨x, n⟩ := p
      rw [linGo, List.forall_mem_cons]
      cases hx : selectOp env e x with
      | error y =>
        simp only [reduceCtorEq, exists_false, false_iff]
        rintro ⟨h | h, _⟩
        · rw [selectOp_ok.mpr ⟨true, h, rfl⟩] at hx; cases hx
        · rw [selectOp_ok.mpr ⟨false, h, rfl⟩] at hx; cases hx
      | ok ds =>
        simp only
        rw [ih]
        obtain ⟨b, h1, _⟩ := selectOp_ok.mp hx
        constructor
        · intro h
          refine ⟨?_, h⟩
          cases b
          · exact .inr h1
          · exact .inl h1
        · exact fun h => h.2
  exact key z []

/-- **C77** (join): the join of documents of sources with different kinds consists of the combinations of which the condition is true, with one field per
kind, as often as the product of the multiplicities. -/
theorem C77_join (env : Env) (e : Expr) (names : List String) (hn : names.Nodup) (ins : List (ZSet CDoc)) (hl : ins.length = names.length)
    (hw : ∀ z ∈ ins, WF z) (m : ZSet CDoc) (h : JoinSpec (joinOp env e names) ins m) :
    (∀ ds c, ds.length = names.length → Combines names ds c → (CondTrue env e c → get m c = mults ins ds) ∧ (¬ CondTrue env e c → get m c = 0)) ∧
    ∀ c, get m c ≠ 0 → ∃ ds, ds.length = names.length ∧ Combines names ds c := by
  obtain ⟨_, _, h3⟩ := h
  have hcop : ∀ t : List CDoc, ∀ c, copies (joinOp env e names) c t = copies (selectOp env e) c (joinedDoc names t) := fun _ _ => rfl
  constructor
  · intro ds c hds hc
    rw [h3]
    constructor
    · intro ht
      rw [← sum_tuples hw (hds.trans hl.symm)]
      refine sum_congr (fun t htm => ?_)
      have htl : t.1.length = names.length := (tuples_length t htm).trans hl
      rw [hcop]
      by_cases hd : t.1 = ds
      · have : joinedDoc names t.1 = c := combines_unique (joinedDoc_combines hn _) (hd ▸ hc)
        rw [if_pos hd, this, copies_select.1 ht, if_pos rfl]; simp
      · have hne : joinedDoc names t.1 ≠ c := fun hx => hd (combines_inj hn htl hds (hx ▸ joinedDoc_combines hn t.1) hc)
        rw [if_neg hd]
        by_cases hp : CondTrue env e (joinedDoc names t.1)
        · rw [copies_select.1 hp, if_neg hne]; simp
        · rw [copies_select.2 hp]; simp
    · intro ht
      refine sum_zero (fun t _ => ?_)
      rw [hcop]
      by_cases hp : CondTrue env e (joinedDoc names t.1)
      · rw [copies_select.1 hp, if_neg (fun e' : joinedDoc names t.1 = c => ht (e' ▸ hp))]; simp
      · rw [copies_select.2 hp]; simp
  · intro c hc
    refine Classical.byContradiction (fun hno => hc ?_)
    rw [h3]
    refine sum_zero (fun t htm => ?_)
    have hne : joinedDoc names t.1 ≠ c := fun hx => hno ⟨t.1, (tuples_length t htm).trans hl, hx ▸ joinedDoc_combines hn t.1⟩
    rw [hcop]
    by_cases hp : CondTrue env e (joinedDoc names t.1)
    · rw [copies_select.1 hp, if_neg hne]; simp
    · rw [copies_select.2 hp]; simp

/-- A document of the examples. -/
def exDoc (n : String) (v : Int) : CDoc :=
  ⟨[("metadata", .map [("name", .str n)]), ("spec", .int v)], by simp [SMap.Sorted, Json.Canon, Json.CanonM]⟩

-- a selection: the condition is false of one document, and the other stays
example : ∃ m, MapSpec (selectOp plainEnv (opList "@gt" [strE "$.spec", intE 1])) [(exDoc "a" 1, 1), (exDoc "b" 2, 3)] m ∧ WF [(exDoc "a" 1, 1), (exDoc "b" 2, 3)] ∧
    get m (exDoc "a" 1) = 0 ∧ get m (exDoc "b" 2) = 3 := by
  obtain ⟨m, hm⟩ := (C77_select_total plainEnv (opList "@gt" [strE "$.spec", intE 1]) [(exDoc "a" 1, 1), (exDoc "b" 2, 3)]).mpr (by
    intro p hp
    simp only [List.mem_cons, List.not_mem_nil, or_false] at hp
    rcases hp with rfl | rfl
    · exact .inr rfl
    · exact .inl rfl)
  have hs := mapSpec_of_linProc hm
  have hw : WF [(exDoc "a" 1, (1 : Int)), (exDoc "b" 2, 3)] := by decide
  have h := C77_select _ _ _ _ hw hs
  refine ⟨m, hs, hw, h.2 _ ?_, h.1 _ rfl⟩
  intro hc
  have : CondFalse plainEnv (opList "@gt" [strE "$.spec", intE 1]) (exDoc "a" 1) := rfl
  rw [CondFalse, show eval _ _ _ = _ from hc] at this
  cases this

theorem exJoin_eval (a b : String) (x y : Int) : eval plainEnv (opList "@eq" [strE (pathString ["Pod", "spec"]), strE (pathString ["View", "spec"])])
    ⟨.map (joinedDoc ["Pod", "View"] [exDoc a x, exDoc b y]).1, .null⟩ = .ok (.bool (decide (x = y))) := by
  have j : (joinedDoc ["Pod", "View"] [exDoc a x, exDoc b y]).1 = [("Pod", .map (exDoc a x).1), ("View", .map (exDoc b y).1)] := by
    simp [joinedDoc, joinInput, SMap.set]
  rw [j]
  refine (C32_ints plainEnv _ _ _ x y ?_ ?_).2
  · refine eval_path_ne ?_ ?_ (by simp)
    · intro w hw
      simp only [List.mem_cons, List.not_mem_nil, or_false] at hw
      rcases hw with rfl | rfl <;> decide
    · simp [nested, Json.at, Json.field, SMap.get, exDoc]
  · refine eval_path_ne ?_ ?_ (by simp)
    · intro w hw
      simp only [List.mem_cons, List.not_mem_nil, or_false] at hw
      rcases hw with rfl | rfl <;> decide
    · simp [nested, Json.at, Json.field, SMap.get, exDoc]

-- a join: the hypotheses hold, one combination is in the result and one is not
example : ∃ m, JoinSpec (joinOp plainEnv (opList "@eq" [strE (pathString ["Pod", "spec"]), strE (pathString ["View", "spec"])]) ["Pod", "View"])
    [[(exDoc "a" 1, 2)], [(exDoc "b" 1, 3), (exDoc "c" 2, 1)]] m ∧ get m (joinedDoc ["Pod", "View"] [exDoc "a" 1, exDoc "b" 1]) = 6 ∧
    get m (joinedDoc ["Pod", "View"] [exDoc "a" 1, exDoc "c" 2]) = 0 := by
  have hw : ∀ z ∈ [[(exDoc "a" 1, 2)], [(exDoc "b" 1, (3 : Int)), (exDoc "c" 2, 1)]], WF z := by
    intro z hz
    simp only [List.mem_cons, List.not_mem_nil, or_false] at hz
    rcases hz with rfl | rfl <;> decide
  obtain ⟨m, hm⟩ := cart_of_ok (ev := joinOp plainEnv (opList "@eq" [strE (pathString ["Pod", "spec"]), strE (pathString ["View", "spec"])]) ["Pod", "View"])
    (ins := [[(exDoc "a" 1, 2)], [(exDoc "b" 1, 3), (exDoc "c" 2, 1)]]) (by
    intro t ht
    simp only [tuples, List.flatMap_cons, List.flatMap_nil, List.map_cons, List.map_nil, List.append_nil, List.cons_append, List.nil_append, List.mem_cons,
      List.not_mem_nil, or_false] at ht
    rcases ht with rfl | rfl
    · exact ⟨_, joinOp_ok.mpr ⟨_, exJoin_eval "a" "b" 1 1, rfl⟩⟩
    · exact ⟨_, joinOp_ok.mpr ⟨_, exJoin_eval "a" "c" 1 2, rfl⟩⟩)
  have hn : ["Pod", "View"].Nodup := by decide
  have h := (C77_join _ _ _ hn _ rfl hw m (joinSpec_of_cart hm)).1
  refine ⟨m, joinSpec_of_cart hm, ?_, ?_⟩
  · rw [(h _ _ rfl (joinedDoc_combines hn _)).1 (exJoin_eval "a" "b" 1 1)]
    decide
  · refine (h _ _ rfl (joinedDoc_combines hn _)).2 (fun hc => ?_)
    rw [CondTrue, exJoin_eval] at hc
    exact absurd hc (by simp)

/-! ## C78 -/

theorem mapAll_asObject : ∀ {l : List Json} {us : List (SMap Json)}, mapAll asObject l = .ok us ↔ l = us.map .map
  | [], us => by cases us <;> simp [mapAll]
  | x :: l, us => by
    rw [mapAll]
    cases x with
    | map m =>
      simp only [asObject]
      cases hr : mapAll asObject l with
      | error y =>
        simp only [reduceCtorEq, false_iff]
        intro h
        cases us with
        | nil => cases h
        | cons u us =>
          simp only [List.map_cons, List.cons.injEq] at h
          rw [mapAll_asObject.mpr h.2] at hr
          cases hr
      | ok vs =>
        have := mapAll_asObject.mp hr
        subst this
        cases us with
        | nil => simp
        | cons u us =>
          simp only [Except.ok.injEq, List.cons.injEq, List.map_cons, Json.map.injEq]
          refine and_congr_right (fun _ => ⟨fun h => by rw [h], fun h => ?_⟩)
          have e := mapAll_asObject.mpr h
          rw [hr] at e
          cases e
          rfl
    | _ =>
      simp only [asObject, reduceCtorEq, false_iff]
      cases us <;> simp

theorem projectDoc_ok {env : Env} {e : Expr} {d c : CDoc} : projectDoc env e d.1 = .ok c.1 ↔ Projects env e d c := by
  unfold projectDoc Projects evalOn
  cases hv : eval env e ⟨.map d.1, .null⟩ with
  | error x => simp
  | ok v =>
    simp only [Except.ok.injEq]
    cases v with
    | map m =>
      simp only [asObjects, List.map_cons, List.map_nil, mergeAll, reduceCtorEq, false_and, exists_false, or_false, Json.map.injEq]
      rw [show Json.merge .null (.map m) = some (.map m) from rfl]
      simp [asObject]
    | list l =>
      simp only [asObjects, reduceCtorEq, false_or, Json.list.injEq]
      cases hm : mapAll asObject l with
      | error x =>
        simp only [reduceCtorEq, false_iff]
        rintro ⟨us, h, _⟩
        rw [mapAll_asObject.mpr h] at hm
        cases hm
      | ok us =>
        have hl := mapAll_asObject.mp hm
        constructor
        · intro h
          refine ⟨us, hl, ?_⟩
          simp only at h
          split at h
          · cases h
          · rename_i r hr
            rw [hr, asObject_ok.mp h]
        · rintro ⟨us', h1, h2⟩
          have := mapAll_asObject.mpr h1
          rw [hm] at this
          cases this
          simp only [h2]
          rfl
    | _ => simp [asObjects]

/-- **C78** (one document): a projection turns a document into exactly one document, the projection of it, or fails. -/
theorem C78_one (env : Env) (H : env.Canon) (e : Expr) (d : CDoc) (ds : List CDoc) : projectOp env e d = .ok ds ↔ ∃ c, Projects env e d c ∧ ds = [c] := by
  rw [projectOp_ok H]
  exact exists_congr (fun c => and_congr_left (fun _ => projectDoc_ok))

theorem projects_unique {env : Env} {e : Expr} {d c c' : CDoc} (h : Projects env e d c) (h' : Projects env e d c') : c = c' := by
  have h1 := projectDoc_ok.mpr h
  have h2 := projectDoc_ok.mpr h'
  rw [h1] at h2
  exact Subtype.ext (by simpa using h2)

/-- **C78** (collection): the result holds the projection of every document, with the multiplicities of all documents that have the same projection added up. -/
theorem C78_project (env : Env) (H : env.Canon) (e : Expr) (z m : ZSet CDoc) (h : MapSpec (projectOp env e) z m) :
    ∃ f : CDoc → CDoc, (∀ p ∈ z, ∀ c, Projects env e p.1 c ↔ c = f p.1) ∧ ∀ c, get m c = (z.map (fun p => if f p.1 = c then p.2 else 0)).sum := by
  obtain ⟨_, h2, h3⟩ := h
  classical
  have hex : ∀ p ∈ z, ∃ c, Projects env e p.1 c := fun p hp => by
    obtain ⟨ds, hd⟩ := h2 p hp
    obtain ⟨c, hc, _⟩ := (C78_one env H e p.1 ds).mp hd
    exact ⟨c, hc⟩
  refine ⟨fun d => if h : ∃ c, Projects env e d c then Classical.choose h else d, ?_, ?_⟩
  · intro p hp c
    simp only [dif_pos (hex p hp)]
    constructor
    · exact fun hc => projects_unique hc (Classical.choose_spec (hex p hp))
    · rintro rfl; exact Classical.choose_spec (hex p hp)
  · intro c
    rw [h3]
    refine sum_congr (fun p hp => ?_)
    simp only [dif_pos (hex p hp)]
    rw [copies, (C78_one env H e p.1 _).mpr ⟨_, Classical.choose_spec (hex p hp), rfl⟩]
    by_cases hc : Classical.choose (hex p hp) = c
    · simp [hc]
    · simp [hc]

/-- **C78** (when it fails): a projection of a collection has a result exactly if every document has a projection. -/
theorem C78_total (env : Env) (H : env.Canon) (e : Expr) (z : ZSet CDoc) : (∃ m, linProc (projectOp env e) z = .ok m) ↔ ∀ p ∈ z, ∃ c, Projects env e p.1 c := by
  constructor
  · rintro ⟨m, hm⟩ p hp
    obtain ⟨ds, hd⟩ := (mapSpec_of_linProc hm).2.1 p hp
    obtain ⟨c, hc, _⟩ := (C78_one env H e p.1 ds).mp hd
    exact ⟨c, hc⟩
  · intro h
    refine linProc_of_ok (fun p hp => ?_)
    obtain ⟨c, hc⟩ := h p hp
    exact ⟨[c], (C78_one env H e p.1 _).mpr ⟨c, hc, rfl⟩⟩

/-- **C78** (lists): if the expression gives a list, every field of the projection comes from an element, and a scalar of an element is in the projection unless a
later element says something about its path. -/
theorem C78_list (env : Env) (H : env.Canon) (e : Expr) (d c : CDoc) (us : List (SMap Json)) (hv : eval env e ⟨.map d.1, .null⟩ = .ok (.list (us.map .map)))
    (h : Projects env e d c) :
    (∀ pre u post, us = pre ++ u :: post → ∀ (q : List String) (v : Json), nested u q = some v → v.Scalar → (∀ x ∈ post, ¬ (Json.map x).Mentions q) →
      nested c.1 q = some v) ∧
    ∀ k q v, nested c.1 (k :: q) = some v → ∃ u ∈ us, ∃ x, nested u (k :: q) = some x := by
  have hc : ∀ x ∈ us.map Json.map, x.Canon := by
    have := eval_canon H (ctx := ⟨.map d.1, .null⟩) d.2 canon_null hv
    exact Json.canon_list.mp this
  have hm : mergeAll .null (us.map .map) = some (.map c.1) := by
    rcases h with h | ⟨us', h1, h2⟩
    · rw [hv] at h; cases h
    · rw [hv] at h1
      simp only [Except.ok.injEq, Json.list.injEq] at h1
      rw [h1]; exact h2
  constructor
  · rintro pre u post rfl q v hu hs hp
    rw [List.map_append, List.map_cons] at hm hc
    exact C27_present _ _ _ _ hc hm q v hu hs (by simpa using hp)
  · intro k q v hq
    obtain ⟨u, hu, x, hx⟩ := C27_only _ _ v hc hm k q hq
    obtain ⟨w, hw, rfl⟩ := List.mem_map.mp hu
    exact ⟨w, hw, x, hx⟩

/-- **C78** (empty list): if the expression gives an empty list, the projection fails. -/
theorem C78_empty (env : Env) (H : env.Canon) (e : Expr) (d : CDoc) (hv : eval env e ⟨.map d.1, .null⟩ = .ok (.list [])) : ¬ ∃ ds, projectOp env e d = .ok ds := by
  rintro ⟨ds, h⟩
  obtain ⟨c, hc, _⟩ := (C78_one env H e d ds).mp h
  rcases hc with hc | ⟨us, h1, h2⟩
  · rw [hv] at hc; cases hc
  · rw [hv] at h1
    cases us with
    | nil => cases h2
    | cons u us => cases h1

theorem plainEnv_canon : plainEnv.Canon := by
  refine fieldEnv_canon ⟨?_, ?_⟩
  · intro _ _ _ _ h; cases h
  · intro _ _ _ _ _ _ h; cases h

-- a projection to a list of two maps, merged
example : Projects plainEnv (.exprs "@list" [.dict "@dict" [("metadata", strE "$.metadata")], .dict "@dict" [("data", .dict "@dict" [("v", strE "$.spec")])]]) (exDoc "a" 1)
    ⟨[("data", .map [("v", .int 1)]), ("metadata", .map [("name", .str "a")])], by simp [SMap.Sorted, Json.Canon, Json.CanonM]⟩ :=
  .inr ⟨[[("metadata", .map [("name", .str "a")])], [("data", .map [("v", .int 1)])]], rfl, rfl⟩
-- an empty list
example : eval plainEnv (.exprs "@list" []) ⟨.map (exDoc "a" 1).1, .null⟩ = .ok (.list []) := rfl

/-! ## C79 -/

theorem elemName_inj {n n' : String} {i i' : Nat} (h : elemName n i = elemName n' i') : n = n' ∧ i = i' := by
  have dig : ∀ i : Nat, ∀ c ∈ (toString i).toList, c ≠ '-' := by
    intro i c hc
    have hd : c.isDigit = true := by
      have : c ∈ i.repr.toList := hc
      rw [Nat.toList_repr] at this
      exact Nat.isDigit_of_mem_toDigits (by omega) (by omega) this
    rintro rfl
    exact absurd hd (by decide)
  have split : ∀ (a a' b b' : List Char), (∀ c ∈ b, c ≠ '-') → (∀ c ∈ b', c ≠ '-') → a ++ '-' :: b = a' ++ '-' :: b' → a = a' ∧ b = b' := by
    intro a
    induction a with
    | nil =>
      intro a' b b' hb hb' h
      cases a' with
      | nil => simpa using h
      | cons x a' =>
        simp only [List.nil_append, List.cons_append, List.cons.injEq] at h
        exact absurd rfl (hb '-' (by rw [h.2]; simp))
    | cons x a ih =>
      intro a' b b' hb hb' h
      cases a' with
      | nil =>
        simp only [List.nil_append, List.cons_append, List.cons.injEq] at h
        exact absurd rfl (hb' '-' (by rw [← h.2]; simp))
      | cons y a' =>
        simp only [List.cons_append, List.cons.injEq] at h
        obtain ⟨e1, e2⟩ := ih a' b b' hb hb' h.2
        exact ⟨by rw [h.1, e1], e2⟩
  have hl : n.toList ++ '-' :: (toString i).toList = n'.toList ++ '-' :: (toString i').toList := by
    have := congrArg String.toList h
    simpa [elemName, String.toList_append] using this
  obtain ⟨h1, h2⟩ := split _ _ _ _ (dig i) (dig i') hl
  exact ⟨String.ext h1, Nat.repr_inj.mp (String.ext h2)⟩

/-- **C79** (elements): unwinding a document with a name and a list at the path gives one document per element, in order, and nothing else: the element is at
the path instead of the list, the index is added to the name, everything else is unchanged. -/
theorem C79_list (base : Env) (k : String) (p : List String) (hp : Words (k :: p)) (ha : Disjoint (k :: p) namePath)
    (ex : CDoc → Except Err (Option (List AnyVal))) (tr : CDoc → AnyVal → Except Err CDoc)
    (hop : unwindOp (fieldEnv base) (strE (pathString (k :: p))) = .ok (.unwind ex tr)) (d : CDoc) (l : List Json) (n : String)
    (hl : nested d.1 (k :: p) = some (.list l)) (hn : nested d.1 namePath = some (.str n)) :
    ∃ ds, unwindDocs ex tr d = .ok ds ∧ ds.length = l.length ∧ ∀ i, i < l.length → ∃ c, ds[i]? = some c ∧ UnwindsTo (k :: p) i d c := by
  have hmd : SMap.get d.1 "metadata" = none ∨ ∃ md, SMap.get d.1 "metadata" = some (.map md) := by
    rw [nested_cons, Option.bind_eq_some_iff] at hn
    obtain ⟨x, h1, h2⟩ := hn
    cases x with
    | map md => exact .inr ⟨md, h1⟩
    | _ => rw [at_not_map (by intro x; simp)] at h2; cases h2
  obtain ⟨ds, h1, h2, h3⟩ := unwindDocs_list base hp ha d hl hmd hop
  refine ⟨ds, h1, h2, fun i hi => ?_⟩
  obtain ⟨c, g1, g2, g3, g4⟩ := h3 i l[i] (List.getElem?_eq_getElem hi)
  refine ⟨c, g1, l, l[i], n, hl, List.getElem?_eq_getElem hi, hn, g2, ?_, g4⟩
  rw [hn] at g3
  exact g3

/-- **C79** (no list): without a list at the path there are no documents; any other value is an error. -/
theorem C79_no_list (base : Env) (k : String) (p : List String) (hp : Words (k :: p))
    (ex : CDoc → Except Err (Option (List AnyVal))) (tr : CDoc → AnyVal → Except Err CDoc)
    (hop : unwindOp (fieldEnv base) (strE (pathString (k :: p))) = .ok (.unwind ex tr)) (d : CDoc) :
    ((nested d.1 (k :: p)).getD .null = .null → unwindDocs ex tr d = .ok []) ∧
    ∀ v, nested d.1 (k :: p) = some v → v ≠ .null → (∀ l, v ≠ .list l) → ∃ e, unwindDocs ex tr d = .error e := by
  rw [unwindOp_eq] at hop
  cases hop
  constructor
  · intro h
    have he : evalOn (fieldEnv base) (strE (pathString (k :: p))) d.1 = .ok .null := eval_path_ne hp h (by simp)
    have : unwindExtract (fieldEnv base) (strE (pathString (k :: p))) d.1 = .ok [] := by simp only [unwindExtract, jget_name, he]
    simp only [unwindDocs, this, Except.map, toOpRes]
    rfl
  · intro v hv hnull hlist
    have : ∃ x, unwindExtract (fieldEnv base) (strE (pathString (k :: p))) d.1 = .error x := by
      have he := eval_path base hp d.1
      simp only [unwindExtract, jget_name]
      rw [show evalOn _ _ _ = _ from he, hv]
      cases v with
      | null => exact absurd rfl hnull
      | list l => exact absurd rfl (hlist l)
      | _ => exact ⟨_, rfl⟩
    obtain ⟨x, hx⟩ := this
    exact ⟨opErr x, by simp only [unwindDocs, hx, Except.map, toOpRes]⟩

/-- **C79** (names stay apart): documents with different names give documents with different names, and so do different elements. -/
theorem C79_names (path : List String) (i j : Nat) (d d' c c' : CDoc) (h : UnwindsTo path i d c) (h' : UnwindsTo path j d' c')
    (hne : nested d.1 namePath ≠ nested d'.1 namePath ∨ i ≠ j) : nested c.1 namePath ≠ nested c'.1 namePath := by
  obtain ⟨_, _, n, _, _, hn, _, hc, _⟩ := h
  obtain ⟨_, _, n', _, _, hn', _, hc', _⟩ := h'
  rw [hc, hc']
  intro e
  simp only [Option.some.injEq, Json.str.injEq] at e
  obtain ⟨e1, e2⟩ := elemName_inj e
  rcases hne with h | h
  · exact h (by rw [hn, hn', e1])
  · exact h e2

/-- **C79** (nameless documents): the check that a name is there never fails: a document without a name is unwound to documents whose names begin with the
text Go prints for a missing value. -/
theorem C79_nameless (base : Env) (k : String) (p : List String) (hp : Words (k :: p)) (ha : Disjoint (k :: p) namePath)
    (ex : CDoc → Except Err (Option (List AnyVal))) (tr : CDoc → AnyVal → Except Err CDoc)
    (hop : unwindOp (fieldEnv base) (strE (pathString (k :: p))) = .ok (.unwind ex tr)) (d : CDoc) (l : List Json)
    (hl : nested d.1 (k :: p) = some (.list l)) (hn : SMap.get d.1 "metadata" = none) :
    ∃ ds, unwindDocs ex tr d = .ok ds ∧ ds.length = l.length ∧
      ∀ i, i < l.length → ∃ c, ds[i]? = some c ∧ nested c.1 namePath = some (.str (elemName "%!s(<nil>)" i)) := by
  obtain ⟨ds, h1, h2, h3⟩ := unwindDocs_list base hp ha d hl (.inl hn) hop
  refine ⟨ds, h1, h2, fun i hi => ?_⟩
  obtain ⟨c, g1, _, g3, _⟩ := h3 i l[i] (List.getElem?_eq_getElem hi)
  refine ⟨c, g1, ?_⟩
  rw [show nested d.1 namePath = none by rw [nested_cons, hn]; rfl] at g3
  exact g3

/-- A document with a list. -/
def exListDoc : CDoc := ⟨[("metadata", .map [("name", .str "a")]), ("spec", .map [("ports", .list [.int 80, .int 443]), ("x", .int 1)])], by
  simp [SMap.Sorted, Json.Canon, Json.CanonM, Json.CanonL]⟩

-- the hypotheses of C79, and the names of the two documents
example : Words ["spec", "ports"] ∧ Disjoint ["spec", "ports"] namePath ∧ nested exListDoc.1 ["spec", "ports"] = some (.list [.int 80, .int 443]) ∧
    nested exListDoc.1 namePath = some (.str "a") ∧ (∃ ex tr, unwindOp plainEnv (strE (pathString ["spec", "ports"])) = .ok (.unwind ex tr)) ∧ elemName "a" 1 = "a-1" := by
  refine ⟨?_, ⟨by decide, by decide⟩, by decide, by decide, ⟨_, _, rfl⟩, by decide⟩
  intro x hx
  simp only [List.mem_cons, List.not_mem_nil, or_false] at hx
  rcases hx with rfl | rfl <;> decide

/-! ## C80 -/

theorem gatherExtract_ok {env : Env} {e : Expr} {d : CDoc} {a : AnyVal} : toOpRes (gatherExtract env e d.1) = .ok (some a) ↔ ∃ v, a = .val v ∧ Yields env e d v := by
  rw [toOpRes_ok]
  unfold gatherExtract evalOn Yields
  cases eval env e ⟨.map d.1, .null⟩ with
  | error x => simp
  | ok v =>
    cases v with
    | null =>
      simp only [Except.ok.injEq, reduceCtorEq, false_iff, not_exists, not_and]
      intro x _ h
      exact fun hn => hn h.symm
    | _ =>
      simp only [Except.ok.injEq, Option.some.injEq]
      constructor
      · rintro rfl; exact ⟨_, rfl, rfl, by simp⟩
      · rintro ⟨_, rfl, rfl, _⟩; rfl

theorem yields_unique {env : Env} {e : Expr} {d : CDoc} {v w : Json} (h : Yields env e d v) (h' : Yields env e d w) : v = w := by
  have := h.1.symm.trans h'.1
  cases this
  rfl

theorem inGroup_iff {env : Env} {srt : List Json → List Json} {kE vE : Expr} {a : AnyVal} {d : CDoc} :
    InGroup (gatherOf env srt kE vE) a d ↔ ∃ key, a = .val key ∧ Yields env kE d key ∧ ∃ v, Yields env vE d v := by
  unfold InGroup
  rw [show (gatherOf env srt kE vE).key d = toOpRes (gatherExtract env kE d.1) from rfl, gatherExtract_ok]
  constructor
  · rintro ⟨⟨key, rfl, h⟩, x, hx⟩
    rw [show (gatherOf env srt kE vE).val d = toOpRes (gatherExtract env vE d.1) from rfl, gatherExtract_ok] at hx
    obtain ⟨v, _, hv⟩ := hx
    exact ⟨key, rfl, h, v, hv⟩
  · rintro ⟨key, rfl, h, v, hv⟩
    exact ⟨⟨key, rfl, h⟩, .val v, gatherExtract_ok.mpr ⟨v, rfl, hv⟩⟩

theorem contrib_vals {env : Env} {srt : List Json → List Json} {kE vE : Expr} {key : Json} (hk : key ≠ .null) (q : CDoc × Int) :
    (contrib (gatherOf env srt kE vE) (.val key) q).map AnyVal.json = entryVals env kE vE key q := by
  unfold contrib entryVals
  have e1 : (gatherOf env srt kE vE).key q.1 = toOpRes (gatherExtract env kE q.1.1) := rfl
  have e2 : (gatherOf env srt kE vE).val q.1 = toOpRes (gatherExtract env vE q.1.1) := rfl
  rw [e1, e2]
  unfold gatherExtract evalOn
  cases eval env kE ⟨.map q.1.1, .null⟩ with
  | error x => rfl
  | ok k =>
    cases eval env vE ⟨.map q.1.1, .null⟩ with
    | error x => cases k <;> rfl
    | ok v =>
      by_cases hkk : k = key
      · subst hkk
        cases k with
        | null => exact absurd rfl hk
        | _ => cases v <;> simp [toOpRes, AnyVal.json]
      · cases k <;> cases v <;> simp [toOpRes, hkk]

theorem count_inst (c : CDoc) (l : List CDoc) : @List.count CDoc instBEqOfDecidableEq c l = @List.count CDoc Subtype.instBEq c l := by
  induction l with
  | nil => rfl
  | cons x l ih =>
    rw [@List.count_cons CDoc instBEqOfDecidableEq, @List.count_cons CDoc Subtype.instBEq, ih]
    congr 1
    by_cases h : x = c
    · subst h; simp
    · have h' : x.1 ≠ c.1 := fun e => h (Subtype.ext e)
      simp [h, h']

theorem nodup_of_map {A B : Type} (f : A → B) : ∀ {l : List A}, (l.map f).Nodup → l.Nodup
  | [], _ => List.nodup_nil
  | a :: l, h => by
    rw [List.map_cons, List.nodup_cons] at h
    exact List.nodup_cons.mpr ⟨fun hm => h.1 (List.mem_map.mpr ⟨a, hm, rfl⟩), nodup_of_map f h.2⟩

/-- **C80** (groups): a gather gives one document per group. Groups are the values of the key expression, except null, over the documents whose value is not
null; the document of a group is one of its documents with the list of the values of all its documents at the path, everything else unchanged. -/
theorem C80_gather (base : Env) (srt : List Json → List Json) (kE : Expr) (k : String) (p : List String) (hp : Words (k :: p)) (z m : ZSet CDoc)
    (hc : ∀ l : List Json, (∀ x ∈ l, x.Canon) → ∀ x ∈ srt l, x.Canon) (H : base.Canon)
    (h : GatherSpec (gatherOf (fieldEnv base) srt kE (strE (pathString (k :: p)))) z m) :
    ∃ (keys : List Json) (outs : List CDoc), keys.Nodup ∧ outs.length = keys.length ∧
      (∀ key, key ∈ keys ↔ ∃ q ∈ z, Yields (fieldEnv base) kE q.1 key ∧ ∃ v, Yields (fieldEnv base) (strE (pathString (k :: p))) q.1 v) ∧
      (∀ (i : Nat) key c, keys[i]? = some key → outs[i]? = some c → Gathered (fieldEnv base) srt kE (strE (pathString (k :: p))) (k :: p) z key c) ∧
      ∀ c, get m c = (outs.count c : Int) := by
  obtain ⟨hw, grs, outs, h1, h2, h3, h4, h5⟩ := h
  have hval : ∀ gr ∈ grs, ∃ key, gr.key = .val key ∧ key ≠ .null := by
    intro gr hgr
    obtain ⟨key, e, hy, _⟩ := inGroup_iff.mp (h3 gr hgr).2.1
    exact ⟨key, e, hy.2⟩
  have hlen : outs.length = grs.length := by
    have := congrArg List.length h4
    simpa using this.symm
  refine ⟨grs.map (fun gr => gr.key.json), outs, ?_, by simpa using hlen, ?_, ?_, fun c => by rw [h5, count_inst]⟩
  · have : grs.map Group.key = (grs.map (fun gr => gr.key.json)).map AnyVal.val := by
      rw [List.map_map]
      refine List.map_congr_left (fun gr hgr => ?_)
      obtain ⟨key, e, _⟩ := hval gr hgr
      simp [e, AnyVal.json]
    rw [this] at h1
    exact nodup_of_map _ h1
  · intro key
    constructor
    · intro hm
      obtain ⟨gr, hgr, rfl⟩ := List.mem_map.mp hm
      obtain ⟨q, hq, hin⟩ := (h2 gr.key).mp (List.mem_map.mpr ⟨gr, hgr, rfl⟩)
      obtain ⟨key, e, hy, hv⟩ := inGroup_iff.mp hin
      exact ⟨q, hq, by rw [e]; exact hy, hv⟩
    · rintro ⟨q, hq, hy, hv⟩
      obtain ⟨gr, hgr, e⟩ := List.mem_map.mp ((h2 (.val key)).mpr ⟨q, hq, inGroup_iff.mpr ⟨key, rfl, hy, hv⟩⟩)
      exact List.mem_map.mpr ⟨gr, hgr, by rw [e]; rfl⟩
  · intro i key c hi hci
    rw [List.getElem?_map, Option.map_eq_some_iff] at hi
    obtain ⟨gr, hgi, rfl⟩ := hi
    have hgr := List.mem_of_getElem? hgi
    obtain ⟨hperm, hin, hrep⟩ := h3 gr hgr
    obtain ⟨key, e, hy, v, hv⟩ := inGroup_iff.mp hin
    have hagg : (gatherOf (fieldEnv base) srt kE (strE (pathString (k :: p)))).agg gr.doc gr.key
        ((gatherOf (fieldEnv base) srt kE (strE (pathString (k :: p)))).sort gr.vals) = .ok c := by
      have := congrArg (·[i]?) h4
      simp only [List.getElem?_map, hgi, hci, Option.map_some, Option.some.injEq] at this
      exact this
    rw [e] at hperm ⊢
    have hpv : (gr.vals.map AnyVal.json).Perm (groupVals (fieldEnv base) kE (strE (pathString (k :: p))) z key) := by
      refine (hperm.map _).trans (List.Perm.of_eq ?_)
      rw [List.map_flatMap, groupVals]
      congr 1
      funext q
      exact contrib_vals hy.2 q
    refine ⟨gr.doc, hrep, gr.vals.map AnyVal.json, hy, ⟨v, hv⟩, hpv, ?_⟩
    have hcan : ∀ x ∈ srt (gr.vals.map AnyVal.json), x.Canon := by
      refine hc _ (fun x hx => ?_)
      have := hpv.mem_iff.mp hx
      simp only [groupVals, List.mem_flatMap] at this
      obtain ⟨q, _, hxq⟩ := this
      unfold entryVals at hxq
      split at hxq
      · rename_i k' v' hk' hv'
        split at hxq
        · rw [(List.mem_replicate.mp hxq).2]
          exact eval_canon (fieldEnv_canon H) (ctx := ⟨.map q.1.1, .null⟩) q.1.2 canon_null hv'
        · cases hxq
      · cases hxq
    have hsort : ((gatherOf (fieldEnv base) srt kE (strE (pathString (k :: p)))).sort gr.vals).map AnyVal.json = srt (gr.vals.map AnyVal.json) := by
      show ((srt (gr.vals.map AnyVal.json)).map AnyVal.val).map AnyVal.json = _
      rw [List.map_map]
      exact List.map_id' _
    have hset : docRes (gatherTransform (fieldEnv base) (strE (pathString (k :: p))) gr.doc.1 (srt (gr.vals.map AnyVal.json))) = .ok c := by
      rw [← hsort]; exact hagg
    have hls : literalString (fieldEnv base) (strE (pathString (k :: p))) = .ok (pathString (k :: p)) := rfl
    simp only [gatherTransform, hls, setRaw_path base hp, docRes] at hset
    cases hn : setNested gr.doc.1 (k :: p) (.list (srt (gr.vals.map AnyVal.json))) with
    | none => rw [hn] at hset; cases hset
    | some r =>
      rw [hn] at hset
      have hcr : c.1 = r := jsonDoc_inv hset
      refine ⟨by rw [hcr]; exact setNested_at _ _ _ gr.doc.2 (by simp) hn, fun q hq => ?_⟩
      rw [hcr]
      exact setNested_off gr.doc.2 hn hq.1 hq.2

/-- A group that a gather can aggregate. -/
def GoodGroup (path : List String) (gr : Group CDoc AnyVal) : Prop := (∃ v, nested gr.doc.1 path = some v) ∧ ∀ v ∈ gr.vals, v.json.Canon

theorem foldl_erase_mem {v : AnyVal} : ∀ (xs l : List AnyVal), v ∈ xs.foldl removeFirstMatch l → v ∈ l
  | [], _, h => h
  | x :: xs, l, h => List.mem_of_mem_erase (foldl_erase_mem xs (l.erase x) h)

theorem applyMult_mem {vals : List AnyVal} {v w : AnyVal} {n : Int} (h : w ∈ applyMult vals v n) : w ∈ vals ∨ w = v := by
  unfold applyMult at h
  split at h
  · rcases List.mem_append.mp h with h | h
    · exact .inl h
    · exact .inr (List.mem_replicate.mp h).2
  · exact .inl (foldl_erase_mem _ _ h)

theorem updGroup_good {path : List String} {a v : AnyVal} {x : CDoc} {n : Int} (hx : ∃ w, nested x.1 path = some w) (hv : v.json.Canon) :
    ∀ {gs : List (Group CDoc AnyVal)}, (∀ gr ∈ gs, GoodGroup path gr) → ∀ gr ∈ updGroup a v x n gs, GoodGroup path gr
  | [], _, gr, h => by
    simp only [updGroup, List.mem_singleton] at h
    subst h
    refine ⟨hx, fun w hw => ?_⟩
    rcases applyMult_mem hw with h | rfl
    · cases h
    · exact hv
  | g :: gs, hg, gr, h => by
    rw [updGroup] at h
    split at h
    · rcases List.mem_cons.mp h with rfl | h
      · refine ⟨(hg g (by simp)).1, fun w hw => ?_⟩
        rcases applyMult_mem hw with h | rfl
        · exact (hg g (by simp)).2 w h
        · exact hv
      · exact hg gr (by simp [h])
    · rcases List.mem_cons.mp h with rfl | h
      · exact hg gr (by simp)
      · exact updGroup_good hx hv (fun y hy => hg y (by simp [hy])) gr h

theorem setNested_present {m : SMap Json} {p : List String} {w : Json} (hw : nested m p = some w) (v : Json) : ∃ r, setNested m p v = some r := by
  refine Option.isSome_iff_exists.mp ((setNested_isSome (v := v) p m).mpr ?_)
  intro q x hq1 hq2 hq3 hq4
  obtain ⟨r, hr⟩ := hq2
  cases r with
  | nil => simp at hr; exact absurd hr hq3
  | cons y r =>
    rw [nested, ← hr, at_append] at hw
    rw [nested] at hq4
    rw [hq4, Option.bind_some] at hw
    cases x with
    | map y => exact ⟨y, rfl⟩
    | _ => rw [at_not_map (by intro x; simp)] at hw; cases hw

/-- **C80** (when it fails): a gather of the values at a path has a result exactly if the key expression has a value on every document. -/
theorem C80_total (base : Env) (H : base.Canon) (srt : List Json → List Json) (hc : ∀ l : List Json, (∀ x ∈ l, x.Canon) → ∀ x ∈ srt l, x.Canon)
    (kE : Expr) (k : String) (p : List String) (hp : Words (k :: p)) (z : ZSet CDoc) :
    (∃ m, gatherProc (gatherOf (fieldEnv base) srt kE (strE (pathString (k :: p)))) z = .ok m) ↔
      ∀ q ∈ z, ∃ v, eval (fieldEnv base) kE ⟨.map q.1.1, .null⟩ = .ok v := by
  have agg : ∀ (gs : List (Group CDoc AnyVal)) (acc : ZSet CDoc), (∀ gr ∈ gs, GoodGroup (k :: p) gr) →
      ∃ m, gatherAgg (gatherOf (fieldEnv base) srt kE (strE (pathString (k :: p)))) acc gs = .ok m := by
    intro gs
    induction gs with
    | nil => intro acc _; exact ⟨acc, rfl⟩
    | cons gr gs ih =>
      intro acc hg
      obtain ⟨⟨w, hw⟩, hvs⟩ := hg gr (by simp)
      obtain ⟨r, hr⟩ := setNested_present hw (.list (srt (gr.vals.map AnyVal.json)))
      have hcan : (Json.list (srt (gr.vals.map AnyVal.json))).Canon := by
        refine Json.canon_list.mpr (hc _ (fun x hx => ?_))
        obtain ⟨y, hy, rfl⟩ := List.mem_map.mp hx
        exact hvs y hy
      have hrc := setNested_canon gr.doc.2 hcan hr
      have hls : literalString (fieldEnv base) (strE (pathString (k :: p))) = .ok (pathString (k :: p)) := rfl
      have hsort : ((gatherOf (fieldEnv base) srt kE (strE (pathString (k :: p)))).sort gr.vals).map AnyVal.json = srt (gr.vals.map AnyVal.json) := by
        show ((srt (gr.vals.map AnyVal.json)).map AnyVal.val).map AnyVal.json = _
        rw [List.map_map]
        exact List.map_id' _
      have ha : (gatherOf (fieldEnv base) srt kE (strE (pathString (k :: p)))).agg gr.doc gr.key
          ((gatherOf (fieldEnv base) srt kE (strE (pathString (k :: p)))).sort gr.vals) = .ok ⟨r, hrc⟩ := by
        show docRes (gatherTransform _ _ gr.doc.1 (List.map AnyVal.json _)) = _
        rw [hsort]
        simp only [gatherTransform, hls, setRaw_path base hp, hr, docRes]
        exact jsonDoc_ok hrc
      rw [gatherAgg, ha]
      exact ih _ (fun y hy => hg y (by simp [hy]))
  have grp : ∀ (z : ZSet CDoc) (acc : List (Group CDoc AnyVal)), (∀ gr ∈ acc, GoodGroup (k :: p) gr) →
      ((∃ gs, gatherGroups (gatherOf (fieldEnv base) srt kE (strE (pathString (k :: p)))) acc z = .ok gs ∧ ∀ gr ∈ gs, GoodGroup (k :: p) gr) ↔
        ∀ q ∈ z, ∃ v, eval (fieldEnv base) kE ⟨.map q.1.1, .null⟩ = .ok v) ∧
      ∀ gs, gatherGroups (gatherOf (fieldEnv base) srt kE (strE (pathString (k :: p)))) acc z = .ok gs → ∀ gr ∈ gs, GoodGroup (k :: p) gr := by
    intro z
    induction z with
    | nil =>
      intro acc ha
      refine ⟨⟨fun _ => by simp, fun _ => ⟨acc, rfl, ha⟩⟩, ?_⟩
      intro gs h
      cases h
      exact ha
    | cons q z ih =>
      intro acc ha
      obtain ⟨x, n⟩ := q
      rw [gatherGroups, List.forall_mem_cons]
      have e1 : (gatherOf (fieldEnv base) srt kE (strE (pathString (k :: p)))).key x = toOpRes (gatherExtract (fieldEnv base) kE x.1) := rfl
      have e2 : (gatherOf (fieldEnv base) srt kE (strE (pathString (k :: p)))).val x = toOpRes (gatherExtract (fieldEnv base) (strE (pathString (k :: p))) x.1) := rfl
      rw [e1, e2]
      cases hk : eval (fieldEnv base) kE ⟨.map x.1, .null⟩ with
      | error y =>
        have : gatherExtract (fieldEnv base) kE x.1 = .error y := by simp only [gatherExtract, evalOn, hk]
        rw [this]
        simp [toOpRes]
      | ok kv =>
        have skip : kv = .null → gatherExtract (fieldEnv base) kE x.1 = .ok none := by rintro rfl; simp only [gatherExtract, evalOn, hk]
        have keep : kv ≠ .null → gatherExtract (fieldEnv base) kE x.1 = .ok (some (.val kv)) := by
          intro hn
          simp only [gatherExtract, evalOn, hk]
        by_cases hkn : kv = .null
        · rw [skip hkn]
          simpa only [toOpRes, Except.ok.injEq, exists_eq', true_and] using ih acc ha
        · rw [keep hkn]
          obtain ⟨w, hw⟩ : ∃ w, eval (fieldEnv base) (strE (pathString (k :: p))) ⟨.map x.1, .null⟩ = .ok w := ⟨_, eval_path base hp x.1⟩
          by_cases hwn : w = .null
          · have : gatherExtract (fieldEnv base) (strE (pathString (k :: p))) x.1 = .ok none := by subst hwn; simp only [gatherExtract, evalOn, hw]
            rw [this]
            simpa only [toOpRes, Except.ok.injEq, exists_eq', true_and] using ih acc ha
          · have : gatherExtract (fieldEnv base) (strE (pathString (k :: p))) x.1 = .ok (some (.val w)) := by
              simp only [gatherExtract, evalOn, hw]
            rw [this]
            simp only [toOpRes, Except.ok.injEq, exists_eq', true_and]
            refine ih _ (updGroup_good ?_ ?_ ha)
            · cases hnx : nested x.1 (k :: p) with
              | some u => exact ⟨u, rfl⟩
              | none =>
                rw [eval_path_ne (base := base) hp (v := .null) (by rw [hnx]; rfl) (by simp)] at hw
                cases hw
                exact absurd rfl hwn
            · exact eval_canon (fieldEnv_canon H) (ctx := ⟨.map x.1, .null⟩) x.2 canon_null hw
  obtain ⟨h1, h2⟩ := grp z [] (by simp)
  rw [← h1]
  unfold gatherProc
  constructor
  · rintro ⟨m, hm⟩
    split at hm
    · cases hm
    · rename_i gs hgs
      exact ⟨gs, hgs, h2 gs hgs⟩
  · rintro ⟨gs, hgs, hg⟩
    rw [hgs]
    exact agg gs [] hg

/-- **C80** (no path): a value expression that is no literal is accepted, and then no collection with a group can be gathered. -/
theorem C80_no_path (env : Env) (srt : List Json → List Json) (kE vE : Expr) (hv : ∀ op v, vE ≠ .lit op v) :
    (∃ o, gatherOp env srt (.exprs "@list" [kE, vE]) = .ok o) ∧
    ∀ z m, (∃ q ∈ z, (∃ key, Yields env kE q.1 key) ∧ ∃ v, Yields env vE q.1 v) → ¬ GatherSpec (gatherOf env srt kE vE) z m := by
  refine ⟨⟨_, rfl⟩, ?_⟩
  rintro z m ⟨q, hq, ⟨key, hk⟩, v, hvv⟩ ⟨_, grs, outs, _, h2, _, h4, _⟩
  have hm := (h2 (.val key)).mpr ⟨q, hq, inGroup_iff.mpr ⟨key, rfl, hk, v, hvv⟩⟩
  obtain ⟨gr, hgr, _⟩ := List.mem_map.mp hm
  have hout : (gatherOf env srt kE vE).agg gr.doc gr.key ((gatherOf env srt kE vE).sort gr.vals) ∈ outs.map Except.ok := by
    rw [← h4]; exact List.mem_map.mpr ⟨gr, hgr, rfl⟩
  obtain ⟨c, _, hc⟩ := List.mem_map.mp hout
  have : ∀ d vals, docRes (gatherTransform env vE d vals) = .error (opErr .err) := by
    intro d vals
    cases vE with
    | lit op v => exact absurd rfl (hv op v)
    | _ => rfl
  have h' : (gatherOf env srt kE vE).agg gr.doc gr.key ((gatherOf env srt kE vE).sort gr.vals) = .error (opErr .err) := this _ _
  rw [h'] at hc
  cases hc

/-- Gather the specs of all documents. -/
def exGatherJ : Gather CDoc AnyVal := gatherOf plainEnv (insertionSort (cmpVal (fun _ => ['0']))) (strE "all") (strE "$.spec")

/-- A document of the examples with a list. -/
def exOut (n : String) (l : List Int) : CDoc :=
  ⟨[("metadata", .map [("name", .str n)]), ("spec", .list (l.map .int))], by
    simp only [Json.canon_map]
    refine ⟨by simp [SMap.Sorted], ?_⟩
    intro q hq
    simp only [List.mem_cons, List.not_mem_nil, or_false] at hq
    rcases hq with rfl | rfl
    · simp [SMap.Sorted, Json.Canon, Json.CanonM]
    · exact Json.canon_list.mpr (by simp [Json.Canon])⟩

/-- **C80** (representative): which document of a group carries the list is decided by the order in which the documents are visited: for the same
collection in two orders the results differ. -/
theorem C80_representative : ∃ z z' m m', z'.Perm z ∧ gatherProc exGatherJ z = .ok m ∧ gatherProc exGatherJ z' = .ok m' ∧
    ¬ ∀ c, get m c = get m' c := by
  have ok : ∀ {z m : ZSet CDoc}, (gatherProc exGatherJ z).toOption = some m → gatherProc exGatherJ z = .ok m := by
    intro z m h
    cases hg : gatherProc exGatherJ z with
    | error x => rw [hg] at h; cases h
    | ok y => rw [hg] at h; cases h; rfl
  refine ⟨[(exDoc "a" 2, 1), (exDoc "b" 1, 1)], [(exDoc "b" 1, 1), (exDoc "a" 2, 1)], [(exOut "a" [1, 2], 1)], [(exOut "b" [1, 2], 1)], List.Perm.swap _ _ _,
    ok (by decide +kernel), ok (by decide +kernel), ?_⟩
  intro h
  exact absurd (h (exOut "a" [1, 2])) (by decide +kernel)

-- the hypotheses of C80 hold for this gather
example : Words ["spec"] ∧ plainEnv.Canon ∧ (∀ l : List Json, (∀ x ∈ l, x.Canon) → ∀ x ∈ insertionSort (cmpVal (fun _ => ['0'])) l, x.Canon) :=
  ⟨by intro x hx; rw [List.mem_singleton.mp hx]; decide, plainEnv_canon, fun l h x hx => h x ((insertionSort_perm _ l).mem_iff.mp hx)⟩

/-! ## C81 -/

/-- **C81** (order of gathered values, the part that holds): if no integers and floats are mixed, the sorted list of values does not depend on the order in which they were collected,
up to values with the same JSON text. Missing: mixed numbers, see `C81_mixed`. -/
theorem C81_sorted_partial {E : Rat → Prop} {ft : Rat → List Char} (F : FloatText E ft) (srt : List Json → List Json) (hs : SortFunc (cmpVal ft) srt) (l1 l2 : List Json)
    (hd : ∀ a ∈ l1, a.Doc E) (hm : NoMix l1) (hp : l1.Perm l2) :
    (srt l1).map (Json.text ft) = (srt l2).map (Json.text ft) ∧ (srt l1).Perm l1 ∧ (srt l1).Pairwise (fun a b => cmpVal ft a b ≠ .gt) := by
  have o1 := orders_of_noMix F hd hm
  have hd2 : ∀ a ∈ l2, a.Doc E := fun a ha => hd a (hp.mem_iff.mpr ha)
  have hm2 : NoMix l2 := fun a ha b hb => hm a (hp.mem_iff.mpr ha) b (hp.mem_iff.mpr hb)
  have o2 := orders_of_noMix F hd2 hm2
  refine ⟨?_, hs.perm l1, hs.sorts l1 o1⟩
  refine sorted_texts F hd hm _ _ (fun a ha => (hs.perm l1).mem_iff.mp ha) (fun a ha => hp.mem_iff.mpr ((hs.perm l2).mem_iff.mp ha)) ?_ (hs.sorts l1 o1) (hs.sorts l2 o2)
  exact (((hs.perm l1).trans hp).trans (hs.perm l2).symm).map _

/-- **C81** (mixed numbers): with integers and floats together the comparison is no order, and the sorted list depends on the order in which the values were
collected, as long as 10.5 is printed as 10.5. -/
theorem C81_mixed (ft : Rat → List Char) (hft : ft (21 / 2) = ['1', '0', '.', '5']) (srt : List Json → List Json) (hs : SortFunc (cmpVal ft) srt) :
    ∃ l1 l2 : List Json, l1.Perm l2 ∧ (srt l1).map (Json.text ft) ≠ (srt l2).map (Json.text ft) := by
  refine ⟨[.int 9, .int 10, .float (21 / 2)], [.float (21 / 2), .int 9, .int 10], by
    exact (List.Perm.cons _ (List.Perm.swap _ _ _)).trans (List.Perm.swap _ _ _), ?_⟩
  have h1 : cmpVal ft (.int 10) (.int 9) = .gt := rfl
  have tf : (Json.float (21 / 2)).text ft = ['1', '0', '.', '5'] := by simp only [Json.text]; exact hft
  have t9 : (Json.int 9).text ft = ['9'] := by simp only [Json.text]; decide
  have t10 : (Json.int 10).text ft = ['1', '0'] := by simp only [Json.text]; decide
  have h2 : cmpVal ft (.float (21 / 2)) (.int 10) = .gt := by
    rw [(cls_cases ft _ _).resolve_left (by simp) |>.resolve_left (by simp) |>.resolve_left (by simp) |>.1, cmpText, tf, t10]; decide
  have h3 : cmpVal ft (.int 9) (.float (21 / 2)) = .gt := by
    rw [(cls_cases ft _ _).resolve_left (by simp) |>.resolve_left (by simp) |>.resolve_left (by simp) |>.1, cmpText, tf, t9]; decide
  rw [hs.short _ (by simp), hs.short _ (by simp)]
  simp [insertionSort, insertRev, h1, h2, h3, tf, t9, t10]

-- the hypotheses of C81: strings, integers and a list
example : NoMix [.str "b", .int 10, .int 9, .list [.int 1]] ∧ (∀ a ∈ [Json.str "b", .int 10, .int 9, .list [.int 1]], a.Doc (fun q => ∃ i : Int, q = (i : Rat))) ∧
    SortFunc (cmpVal (fun q => q.num.repr.toList)) (insertionSort (cmpVal (fun q => q.num.repr.toList))) :=
  ⟨by simp [NoMix, NoMixPair], by simp [Json.Doc, Json.DocL], insertionSort_sortFunc _⟩

end Dctl
