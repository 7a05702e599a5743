import Verif.Dbsp.PropLemmas
import Verif.Dbsp.Declared
/-!
# C04–C07, C09: operators

The specifications (`MapSpec`, `JoinSpec`, `StageSpec`, `SumOf`, `ColumnSums`) are in
`Verif/Spec/Pipeline.lean` and `Verif/Spec/Sum.lean`; they speak about multiplicities only.
`runs step s hist` feeds the operator a history of inputs and collects its outputs.
-/
set_option autoImplicit false
namespace Dctl
variable {D J : Type} [DecidableEq D] [DecidableEq J]
open ZSet

/-- Select, project and unwind stages. -/
def LinearStage : PipeOp D J → Prop
  | .select _ => True
  | .project _ => True
  | .unwind _ _ => True
  | _ => False

theorem linearStage_ev {p : PipeOp D J} {o : Op D J} (hl : LinearStage p) (hp : p.toOp = .ok o) :
    ∃ f, o.linEv = some f ∧ ∀ z m, MapSpec f z m ↔ StageSpec p z m := by
  cases p <;> simp only [PipeOp.toOp, Except.ok.injEq, reduceCtorEq] at hp <;>
    simp only [LinearStage] at hl <;> subst hp
  · exact ⟨_, rfl, fun z m => Iff.rfl⟩
  · exact ⟨_, rfl, fun z m => Iff.rfl⟩
  · exact ⟨_, rfl, fun z m => by rw [unwindDocs_eq]; exact Iff.rfl⟩

/-! ### C04 -/

/-- C04: what a select, project or unwind stage does to one input: no state change, and on success every
document gets the total multiplicity with which it is produced. -/
theorem C04_image {p : PipeOp D J} {o o' : Op D J} (hl : LinearStage p) (hp : p.toOp = .ok o) {z m : ZSet D}
    (h : o.proc z = (o', .ok m)) : o' = o ∧ StageSpec p z m := by
  obtain ⟨f, hf, hs⟩ := linearStage_ev hl hp
  rw [Op.proc_linEv hf] at h
  simp only [Prod.mk.injEq] at h
  exact ⟨h.1.symm, (hs z m).mp (mapSpec_of_linProc h.2)⟩

/-- C04: the stage of a sum is the sum of the stages. -/
theorem C04_additive {p : PipeOp D J} {o o1 o2 : Op D J} (hl : LinearStage p) (hp : p.toOp = .ok o)
    {z w r s : ZSet D} (h1 : o.proc z = (o1, .ok r)) (h2 : o.proc w = (o2, .ok s)) :
    ∃ o3 t, o.proc (z.add w) = (o3, .ok t) ∧ t.Perm (r.add s) := by
  obtain ⟨f, hf, _⟩ := linearStage_ev hl hp
  rw [Op.proc_linEv hf] at h1 h2 ⊢
  simp only [Prod.mk.injEq] at h1 h2
  obtain ⟨t, h3, h4⟩ := linProc_add h1.2 h2.2
  refine ⟨o, t, by rw [h3], perm_of_eqv (linProc_wf h3) ((linProc_wf h1.2).add s) ?_⟩
  intro d
  rw [h4, get_add (linProc_wf h1.2) (linProc_wf h2.2)]

/-- C04: processing only the changes keeps the result correct: for any history of changes the sum of the
outputs is the stage's image of the sum of the inputs. -/
theorem C04_incremental {p : PipeOp D J} {o : Op D J} (hl : LinearStage p) (hp : p.toOp = .ok o)
    {hist outs : List (ZSet D)} {z out : ZSet D} (hw : ∀ z ∈ hist, WF z)
    (h : (runs Op.proc o hist).2 = outs.map Except.ok) (hz : SumOf hist z) (hout : SumOf outs out) :
    StageSpec p z out := by
  obtain ⟨f, hf, hs⟩ := linearStage_ev hl hp
  exact (hs z out).mp (lin_runs_spec hf hw h hz hout)

/-- C04: a linear stage fails only if an evaluator fails on one of the input documents. -/
theorem C04_total {p : PipeOp D J} {o : Op D J} (hp : p.toOp = .ok o) {z : ZSet D}
    (h : match p with
      | .select ev => ∀ q ∈ z, ∃ ds, ev q.1 = .ok ds
      | .project ev => ∀ q ∈ z, ∃ ds, ev q.1 = .ok ds
      | .unwind ex tr => ∀ q ∈ z, ∃ ds, unwindDocs ex tr q.1 = .ok ds
      | _ => False) : ∃ m, o.proc z = (o, .ok m) := by
  cases p <;> simp only [PipeOp.toOp, Except.ok.injEq, reduceCtorEq] at hp <;> simp only at h <;> subst hp
  · obtain ⟨m, hm⟩ := linProc_of_ok h; exact ⟨m, by simp [Op.proc, hm]⟩
  · obtain ⟨m, hm⟩ := linProc_of_ok h; exact ⟨m, by simp [Op.proc, hm]⟩
  · rename_i ex tr
    rw [← unwindDocs_eq] at h
    obtain ⟨m, hm⟩ := linProc_of_ok h; exact ⟨m, by simp [Op.proc, unwindProc_eq, hm]⟩

/-- A change that retracts one document and adds another, through an unwind of numbers into `2n` and `2n+1`. -/
example : (runs Op.proc (Op.unwind (fun n => .ok (some [2 * n, 2 * n + 1])) (fun _ m => .ok m) : Op Nat Nat)
    [[(1, 2)], [(1, -1), (5, 1)]]).2 =
    [[(2, (2 : Int)), (3, 2)], [(2, -1), (3, -1), (10, 1), (11, 1)]].map Except.ok := by rfl

/-! ### C05 -/

/-- C05: after any history of changes, the outputs of the incremental n-ary join sum up to the join of
the complete inputs; the full join of the complete inputs succeeds as well and agrees. -/
theorem C05_incremental_join {ev : JEv D} {n : Nat} (hn : 0 < n) {hist : List (List (ZSet D))} {outs : List (ZSet D)}
    (hw : ∀ row ∈ hist, ∀ z ∈ row, WF z)
    (h : (runs JoinOp.proc (JoinOp.newIncremental ev n) hist).2 = outs.map Except.ok)
    {ins : List (ZSet D)} (hins : ColumnSums n hist ins) {o : ZSet D} (ho : SumOf outs o) :
    JoinSpec ev ins o ∧ ∃ m, (JoinOp.snap ev n).proc ins = (.snap ev n, .ok m) ∧ m.Perm o := by
  have h' : (runs (incJoin ev n) (List.replicate n []) hist).2 = outs.map Except.ok := by
    rw [← h]
    clear h hins ho hw
    have gen : ∀ ps : List (ZSet D), (runs (incJoin ev n) ps hist).2 = (runs JoinOp.proc (.incr ev n ps) hist).2 := by
      induction hist with
      | nil => intro ps; rfl
      | cons r t ih => intro ps; simp only [runs, JoinOp.proc, ih]
    exact gen _
  obtain ⟨k1, k2, k3, k4⟩ := incJoin_runs (by simp) (joinOk_empty ev hn) h'
  have hE := columnSums_eqvL k1 hw hins
  have hok := joinOk_eqv hE k3
  obtain ⟨m, hm⟩ := cart_ok 1 hok
  obtain ⟨m1, m2, m3⟩ := cart_spec hm
  have hom : Eqv m o := by
    intro d
    rw [← wsum_ind m1, m2, ← joinSum_eqv _ hE, k4, joinSum_empty _ hn, ho.2]
    have : outs.map (wsum (fun x => if x = d then 1 else 0)) = outs.map (fun y => get y d) :=
      List.map_congr_left (fun z hz => wsum_ind (k2 z hz) d)
    rw [this]; omega
  have hj := joinSpec_of_cart hm
  refine ⟨⟨ho.1, hj.2.1, fun d => by rw [← hom d]; exact hj.2.2 d⟩, m, ?_, perm_of_eqv m1 ho.1 hom⟩
  have hlen : ¬ ins.length ≠ n := by rw [hins.1]; simp
  simp only [JoinOp.proc, snapJoin, if_neg hlen, hm]

/-- The join of a two-step history over three inputs, with a retraction. -/
example :
    (runs JoinOp.proc (JoinOp.newIncremental (fun ds => .ok [ds.sum]) 3)
      [[[(1, 1), (2, 1)], [(10, 1)], [(100, 2)]], [[(1, -1)], [], [(200, 1)]]]).2 =
    [[(111, (2 : Int)), (112, 2)], [(111, -2), (212, 1)]].map Except.ok := by rfl

/-- C05: a join that fails, because the condition is not defined on some tuple or because the number of inputs is wrong, keeps its state. -/
theorem C05_failed_step (j : JoinOp D) (ins : List (ZSet D)) (e : Err) (h : (j.proc ins).2 = .error e) : (j.proc ins).1 = j := by
  cases j with
  | snap ev n => rfl
  | incr ev n ps =>
    simp only [JoinOp.proc] at h ⊢
    rw [incJoin_err (prevs' := (incJoin ev n ps ins).1) (e := e) (by rw [← h])]
  | snapBin ev =>
    match ins with
    | [l, r] => rfl
    | [] => rfl
    | [_] => rfl
    | _ :: _ :: _ :: _ => rfl
  | incrBin ev ps =>
    match ins with
    | [l, r] =>
      simp only [JoinOp.proc] at h ⊢
      rw [incBinJoin_err (prev' := (incBinJoin ev ps l r).1) (e := e) (by rw [← h])]
    | [] => rfl
    | [_] => rfl
    | _ :: _ :: _ :: _ => rfl

/-- C05: whatever steps fail in a history, the outputs of the other steps sum up to the join of the inputs of those steps: a failed
change is as if it had never been offered. -/
theorem C05_failures {ev : JEv D} {n : Nat} (hn : 0 < n) {hist : List (List (ZSet D))} (hw : ∀ row ∈ hist, ∀ z ∈ row, WF z)
    {res : List (Except Err (ZSet D))} (h : (runs JoinOp.proc (JoinOp.newIncremental ev n) hist).2 = res)
    {ins : List (ZSet D)} (hins : ColumnSums n (okInputs hist res) ins) {o : ZSet D} (ho : SumOf (okOutputs res) o) :
    JoinSpec ev ins o := by
  subst h
  have hk := (runs_skip (fun j i e he => C05_failed_step j i e he) (JoinOp.newIncremental ev n) hist).2
  refine (C05_incremental_join hn (fun row hr => hw row ?_) hk hins ho).1
  clear hk ho hins
  generalize (runs JoinOp.proc (JoinOp.newIncremental ev n) hist).2 = res at hr
  induction hist generalizing res with
  | nil => cases res <;> simp [okInputs] at hr
  | cons a t ih =>
    cases res with
    | nil => simp [okInputs] at hr
    | cons r rs =>
      cases r with
      | ok x =>
        simp only [okInputs, List.mem_cons] at hr
        rcases hr with rfl | hr
        · simp
        · exact List.mem_cons_of_mem _ (ih (fun r h => hw r (List.mem_cons_of_mem _ h)) _ hr)
      | error e =>
        simp only [okInputs] at hr
        exact List.mem_cons_of_mem _ (ih (fun r h => hw r (List.mem_cons_of_mem _ h)) _ hr)

/-- C05: a join never accepts another number of inputs than it was declared with. -/
theorem C05_arity (j : JoinOp D) (ins : List (ZSet D)) (h : ins.length ≠ j.arity) : ∃ e, j.proc ins = (j, .error e) := by
  have : ∃ e, (j.proc ins).2 = .error e := by
    cases j with
    | snap ev n => exact ⟨_, by simp only [JoinOp.proc, snapJoin]; exact if_pos h⟩
    | incr ev n ps => exact ⟨_, by simp only [JoinOp.proc, incJoin]; rw [if_pos (show ins.length ≠ n from h)]⟩
    | snapBin ev =>
      match ins, h with
      | [], _ => exact ⟨_, rfl⟩
      | [_], _ => exact ⟨_, rfl⟩
      | [_, _], h => exact absurd rfl h
      | _ :: _ :: _ :: _, _ => exact ⟨_, rfl⟩
    | incrBin ev ps =>
      match ins, h with
      | [], _ => exact ⟨_, rfl⟩
      | [_], _ => exact ⟨_, rfl⟩
      | [_, _], h => exact absurd rfl h
      | _ :: _ :: _ :: _, _ => exact ⟨_, rfl⟩
  obtain ⟨e, he⟩ := this
  exact ⟨e, Prod.ext (C05_failed_step j ins e he) he⟩

/-- A history with a failing step in the middle (the condition fails on 7), and a step with too few inputs. -/
example :
    (runs JoinOp.proc (JoinOp.newIncremental (fun ds => if 7 ∈ ds then .error "seven" else .ok [ds.sum]) 2)
      [[[(1, 1)], [(10, 1)]], [[(7, 1), (2, 1)], []], [[(2, 1)]], [[(2, 1)], []]]).2.map Except.toOption =
    [some [(11, (1 : Int))], none, none, some [(12, 1)]] := by decide

/-! ### C06 -/

/-- C06: after any history of left/right changes the outputs of the incremental binary join sum up to the
snapshot join of the accumulated inputs. -/
theorem C06_incremental_binary_join {ev : D → D → Except Err (List D)} {hist : List (ZSet D × ZSet D)}
    {outs : List (ZSet D)} (hw : ∀ p ∈ hist, WF p.1 ∧ WF p.2)
    (h : (runs JoinOp.proc (JoinOp.newIncrementalBinary ev) (hist.map (fun p => [p.1, p.2]))).2 = outs.map Except.ok)
    {l r o : ZSet D} (hl : SumOf (hist.map Prod.fst) l) (hr : SumOf (hist.map Prod.snd) r) (ho : SumOf outs o) :
    JoinSpec (fun t => match t with | [a, b] => ev a b | _ => .error "not a pair") [l, r] o ∧
    ∃ m, (JoinOp.snapBin ev).proc [l, r] = (.snapBin ev, .ok m) ∧ m.Perm o := by
  have h' : (runs (fun s (p : ZSet D × ZSet D) => incBinJoin ev s p.1 p.2) ([], []) hist).2 = outs.map Except.ok := by
    rw [← h]
    clear h hl hr ho hw
    have gen : ∀ s : ZSet D × ZSet D, (runs (fun s (p : ZSet D × ZSet D) => incBinJoin ev s p.1 p.2) s hist).2 =
        (runs JoinOp.proc (.incrBin ev s) (hist.map (fun p => [p.1, p.2]))).2 := by
      induction hist with
      | nil => intro s; rfl
      | cons p t ih => intro s; simp only [runs, List.map_cons, JoinOp.proc, ih]
    exact gen _
  obtain ⟨k1, k2, k3⟩ := incBinJoin_runs (prev := ([], [])) (pairOk_iff.mpr (by simp)) h'
  obtain ⟨wl, el⟩ := sumOf_foldl (by
    intro z hz; obtain ⟨p, hp, rfl⟩ := List.mem_map.mp hz; exact (hw p hp).1) hl
  obtain ⟨wr, er⟩ := sumOf_foldl (by
    intro z hz; obtain ⟨p, hp, rfl⟩ := List.mem_map.mp hz; exact (hw p hp).2) hr
  have hE := EqvL.cons wl hl.1 el (.cons wr hr.1 er .nil)
  obtain ⟨m, hm⟩ := binJoin_ok (joinOk_eqv hE k2)
  obtain ⟨m1, m2, m3⟩ := binJoin_spec hm
  have hom : Eqv m o := by
    intro d
    rw [← wsum_ind m1, m2, ← joinSum_eqv _ hE, k3, ho.2]
    have : outs.map (wsum (fun x => if x = d then 1 else 0)) = outs.map (fun y => get y d) :=
      List.map_congr_left (fun z hz => wsum_ind (k1 z hz) d)
    rw [this]; simp [joinSum, wsum]
  have hj := joinSpec_of_binJoin hm
  have hpair : (pairEv ev) = (fun t => match t with | [a, b] => ev a b | _ => .error "not a pair") := by
    funext t
    match t with
    | [] => rfl
    | [_] => rfl
    | [_, _] => rfl
    | _ :: _ :: _ :: _ => rfl
  rw [hpair] at hj
  exact ⟨⟨ho.1, hj.2.1, fun d => by rw [← hom d]; exact hj.2.2 d⟩, m, by simp only [JoinOp.proc, hm],
    perm_of_eqv m1 ho.1 hom⟩

example :
    (runs JoinOp.proc (JoinOp.newIncrementalBinary (fun a b => .ok (if a < b then [a + b] else [])))
      ([([(1, 1), (7, 1)], [(5, 1)]), ([(1, -1)], [(9, 2)])].map (fun p => [p.1, p.2]))).2 =
    [[(6, (1 : Int))], [(16, 2), (6, -1)]].map Except.ok := by rfl

/-! ### C07 -/

/-- C07: an integrator emits, at every step, the sum of all inputs so far. -/
theorem C07_integrate {hist : List (ZSet D)} (hw : ∀ z ∈ hist, WF z) :
    ∃ outs : List (ZSet D), (runs Op.proc (Op.newIntegrator : Op D J) hist).2 = outs.map Except.ok ∧
      outs.length = hist.length ∧ ∀ i, i < hist.length → SumOf (hist.take (i + 1)) (outs.getD i []) := by
  obtain ⟨outs, h1, h2, h3, h4⟩ := integ_runs (J := J) [] WF.nil hist hw
  refine ⟨outs, h1, h2, fun i hi => ⟨?_, fun d => by rw [h4 i hi]; simp⟩⟩
  rw [getD_of_lt (by omega)]
  exact h3 _ (List.getElem_mem _)

/-- C07: differentiating the outputs of an integrator returns the original changes, step by step. -/
theorem C07_diff_integ {hist outs outs' : List (ZSet D)} (hw : ∀ z ∈ hist, WF z)
    (hI : (runs Op.proc (Op.newIntegrator : Op D J) hist).2 = outs.map Except.ok)
    (hD : (runs Op.proc (Op.newDifferentiator : Op D J) outs).2 = outs'.map Except.ok) :
    outs'.length = hist.length ∧ ∀ i, i < hist.length → (outs'.getD i []).Perm (hist.getD i []) := by
  obtain ⟨outs0, h1, h2, h3, h4⟩ := integ_runs (J := J) [] WF.nil hist hw
  have e1 : outs0 = outs := map_ok_inj (h1.symm.trans hI)
  subst e1
  obtain ⟨outs1, k1, k2, k3, k4⟩ := diff_runs (J := J) [] WF.nil outs0 h3
  have e2 : outs1 = outs' := map_ok_inj (k1.symm.trans hD)
  subst e2
  refine ⟨by omega, fun i hi => perm_of_eqv ?_ ?_ ?_⟩
  · rw [getD_of_lt (by omega)]; exact k3 _ (List.getElem_mem _)
  · rw [getD_of_lt (by omega)]; exact hw _ (List.getElem_mem _)
  · intro d
    rw [k4 i (by omega), h4 i hi]
    cases i with
    | zero =>
      cases hist with
      | nil => simp at hi
      | cons z t => simp
    | succ i =>
      rw [List.getD_cons_succ, h4 i (by omega), List.take_succ_eq_append_getElem hi, List.map_append, List.sum_append,
        getD_of_lt hi]
      simp only [get_nil, List.map_cons, List.map_nil, List.sum_cons, List.sum_nil]
      omega

/-- C07: integrating the outputs of a differentiator returns the original snapshots, step by step. -/
theorem C07_integ_diff {hist outs outs' : List (ZSet D)} (hw : ∀ z ∈ hist, WF z)
    (hD : (runs Op.proc (Op.newDifferentiator : Op D J) hist).2 = outs.map Except.ok)
    (hI : (runs Op.proc (Op.newIntegrator : Op D J) outs).2 = outs'.map Except.ok) :
    outs'.length = hist.length ∧ ∀ i, i < hist.length → (outs'.getD i []).Perm (hist.getD i []) := by
  obtain ⟨outs0, h1, h2, h3, h4⟩ := diff_runs (J := J) [] WF.nil hist hw
  have e1 : outs0 = outs := map_ok_inj (h1.symm.trans hD)
  subst e1
  obtain ⟨outs1, k1, k2, k3, k4⟩ := integ_runs (J := J) [] WF.nil outs0 h3
  have e2 : outs1 = outs' := map_ok_inj (k1.symm.trans hI)
  subst e2
  refine ⟨by omega, fun i hi => perm_of_eqv ?_ ?_ ?_⟩
  · rw [getD_of_lt (by omega)]; exact k3 _ (List.getElem_mem _)
  · rw [getD_of_lt (by omega)]; exact hw _ (List.getElem_mem _)
  · intro d
    have key : ∀ j, j < hist.length →
        ((outs0.take (j + 1)).map (fun y => get y d)).sum = get (hist.getD j []) d := by
      intro j
      induction j with
      | zero =>
        intro hj
        have hl : 0 < outs0.length := by omega
        have := h4 0 hj d
        rw [List.take_succ_eq_append_getElem hl]
        rw [getD_of_lt hl] at this
        simp [this]
      | succ j ih =>
        intro hj
        have hl : j + 1 < outs0.length := by omega
        have := h4 (j + 1) hj d
        rw [List.take_succ_eq_append_getElem hl, List.map_append, List.sum_append, ih (by omega)]
        rw [getD_of_lt hl] at this
        rw [List.getD_cons_succ] at this
        simp only [List.map_cons, List.map_nil, List.sum_cons, List.sum_nil, this]
        omega
    rw [k4 i (by omega), key i hi]; simp

/-- C07: a delay emits the empty Z-set first and then exactly the previous step's input. -/
theorem C07_delay (hist : List (ZSet D)) :
    (runs Op.proc (Op.newDelay : Op D J) hist).2 = (([] :: hist).take hist.length).map Except.ok := by
  have gen : ∀ b : ZSet D, (runs Op.proc (Op.delay b : Op D J) hist).2 = ((b :: hist).take hist.length).map Except.ok := by
    induction hist with
    | nil => intro b; rfl
    | cons z t ih => intro b; simp only [runs, Op.proc, ih]; simp
  exact gen []

example : (runs Op.proc (Op.newIntegrator : Op String Nat) [[("a", 1)], [("b", 2)], [("a", -1)]]).2 =
    [[("a", (1 : Int))], [("a", 1), ("b", 2)], [("b", 2)]].map Except.ok ∧
    (runs Op.proc (Op.newDifferentiator : Op String Nat) [[("a", 1)], [("a", 1), ("b", 2)], [("b", 2)]]).2 =
    [[("a", (1 : Int))], [("b", 2)], [("a", -1)]].map Except.ok := ⟨rfl, rfl⟩

/-! ### C09 -/

/-- The nodes a fused selection/projections operator replaces. -/
def unfusedSelProjs (s : Option (Ev D)) (ps : List (Ev D)) : List (Node D J) :=
  (match s with
    | some s => [⟨.select s, false⟩]
    | none => []) ++ ps.map (fun p => ⟨.project p, false⟩)

/-- C09: whenever a fused `[σ→π…]`/`[π…]` operator succeeds, running the original operators one after the
other (any map iteration order) succeeds with the same result. -/
theorem C09_select_projections {s : Option (Ev D)} {ps : List (Ev D)} {z r : ZSet D} {o : Op D J} (hz : WF z)
    (h : (Op.selProjs s ps : Op D J).proc z = (o, .ok r)) {σ : Order D} (hσ : σ.Valid) (i : Nat) :
    ∃ r', runChain σ i (unfusedSelProjs (J := J) s ps) z = (unfusedSelProjs s ps, .ok r') ∧ r'.Perm r := by
  simp only [Op.proc, Prod.mk.injEq] at h
  have h' := linGo_mono (fun x ds hx => selProjsEv_kl hx) h.2
  obtain ⟨r', h1, h2, h3⟩ := seq_of_klList (J := J) hσ (i := i) (nds := unfusedSelProjs s ps) (by
    unfold unfusedSelProjs
    cases s <;> simp [Op.linEv, Function.comp_def]) hz h'
  exact ⟨r', h1, perm_of_eqv h3 (linProc_wf h.2) h2⟩

/-- C09: the same for a projection followed by a selection. -/
theorem C09_project_select {p s : Ev D} {z r : ZSet D} {o : Op D J} (hz : WF z)
    (h : (Op.projSel p s : Op D J).proc z = (o, .ok r)) {σ : Order D} (hσ : σ.Valid) (i : Nat) :
    ∃ r', runChain σ i [(⟨.project p, false⟩ : Node D J), ⟨.select s, false⟩] z =
      ([⟨.project p, false⟩, ⟨.select s, false⟩], .ok r') ∧ r'.Perm r := by
  simp only [Op.proc, Prod.mk.injEq] at h
  have h' : linProc (klList [p, s]) z = .ok r := by
    refine linGo_mono (fun x ds hx => ?_) h.2
    rw [projSelEv_eq_kl] at hx
    refine kl_mono (fun _ _ h => h) (fun y es hy => ?_) hx
    simp only [klList, kl, hy, bindDocs_single]
  obtain ⟨r', h1, h2, h3⟩ := seq_of_klList (J := J) hσ (i := i)
    (nds := [⟨.project p, false⟩, ⟨.select s, false⟩]) (by simp [Op.linEv]) hz h'
  exact ⟨r', h1, perm_of_eqv h3 (linProc_wf h.2) h2⟩

/-- C09, other direction: if no input multiplicity is negative and projections return single documents
(as pipeline projections do), the fused operator succeeds whenever the original operators do. -/
theorem C09_fused_succeeds {s : Option (Ev D)} {ps : List (Ev D)} {z r : ZSet D} (hz : WF z) (hpos : NonNeg z)
    (hone : ∀ p ∈ ps, ∀ x ds, p x = .ok ds → ∃ y, ds = [y]) {σ : Order D} (hσ : σ.Valid) {i : Nat}
    {nds : List (Node D J)} (h : runChain σ i (unfusedSelProjs (J := J) s ps) z = (nds, .ok r)) :
    ∃ r', (Op.selProjs s ps : Op D J).proc z = (.selProjs s ps, .ok r') ∧ r'.Perm r := by
  have hpos' := nonNeg_pos hz hpos
  have hb : ∀ ds : List D, (∀ d ∈ ds, ∃ y, projChain ps d = .ok y) → ∃ r, bindDocs (fun d => match projChain ps d with
        | .error e => .error e
        | .ok y => .ok [y]) ds = .ok r := by
    intro ds hds
    apply bindDocs_ok_iff.mpr
    intro d hd
    obtain ⟨y, hy⟩ := hds d hd
    exact ⟨[y], by rw [hy]⟩
  have hok : ∀ p ∈ z, ∃ ds, selProjsEv s ps p.1 = .ok ds := by
    intro q hq
    have hq' : q.1 ∈ z.map Prod.fst := List.mem_map_of_mem hq
    unfold selProjsEv
    cases s with
    | none =>
      obtain ⟨y, hy⟩ := projChain_of_seq hσ (ps := ps) (by simp [unfusedSelProjs, Op.linEv, Function.comp_def]) hone hpos' h
        q.1 hq'
      exact hb [q.1] (by simp [hy])
    | some s =>
      simp only [unfusedSelProjs, List.cons_append, List.nil_append] at h
      unfold runChain at h
      simp only [Op.proc] at h
      split at h
      · simp at h
      · rename_i o' m hm
        simp only [Prod.mk.injEq] at hm
        obtain ⟨rfl, hm⟩ := hm
        cases hrest : runChain σ (i + 1) (ps.map (fun p => (⟨.project p, false⟩ : Node D J))) m with
        | mk nds'' res =>
        simp only [hrest, Prod.mk.injEq] at h
        obtain ⟨_, rfl⟩ := h
        have hp' := perm_pos (hσ i z) hpos'
        have hx' : q.1 ∈ (σ i z).map Prod.fst := ((hσ i z).map Prod.fst).mem_iff.mpr hq'
        obtain ⟨ds, hds⟩ := linProc_ok_iff.mp ⟨m, hm⟩ q.1 hx'
        simp only [hds]
        apply hb
        intro d hd
        exact projChain_of_seq hσ (ps := ps) (by simp [Op.linEv, Function.comp_def]) hone (linProc_pos hm hp') hrest d
          (linProc_support hm hp' hx' hds hd)
  obtain ⟨r', hr'⟩ := linProc_of_ok hok
  obtain ⟨r2, h1, h2⟩ := C09_select_projections (J := J) (o := .selProjs s ps) hz (by rw [Op.proc, hr']) hσ i
  rw [h1] at h
  simp only [Prod.mk.injEq, Except.ok.injEq] at h
  exact ⟨r', by rw [Op.proc, hr'], h.2 ▸ h2.symm⟩

/-- C09: a fused operator is stricter than the original operators when a projection does not return exactly
one document: here the second projection returns two. -/
theorem C09_fused_stricter :
    ∃ (ps : List (Ev Nat)) (z : ZSet Nat), WF z ∧
      (∃ e, ((Op.selProjs none ps : Op Nat Nat).proc z).2 = .error e) ∧
      (runChain (fun _ z => z) 0 (unfusedSelProjs (J := Nat) none ps) z).2 = .ok [(1, 1), (2, 1)] :=
  ⟨[fun x => .ok [x], fun x => .ok [x, x + 1]], [(1, 1)], by decide, ⟨_, rfl⟩, rfl⟩

theorem fusedProc_chain (nds : List (Node D J)) (z : ZSet D) (i : Nat) :
    fusedProc (nds.map Node.op) z = ((runChain (fun _ z => z) i nds z).1.map Node.op, (runChain (fun _ z => z) i nds z).2) := by
  induction nds generalizing z i with
  | nil => rfl
  | cons nd nds ih =>
    simp only [List.map_cons, fusedProc, runChain]
    cases h : nd.op.proc z with
    | mk o' r =>
      cases r with
      | error e => rfl
      | ok r => simp only [ih r (i + 1), List.map_cons]

/-- C09: the plain fused operator of any operators, stateful ones included, gives over any sequence of inputs the results and errors of running the operators one after
the other, and leaves them in the same states. -/
theorem C09_fused_runs (nds : List (Node D J)) (zs : List (ZSet D)) :
    (runs fusedProc (nds.map Node.op) zs).2 = (runs (fun c z => runChain (fun _ z => z) 0 c z) nds zs).2 ∧
    (runs fusedProc (nds.map Node.op) zs).1 = (runs (fun c z => runChain (fun _ z => z) 0 c z) nds zs).1.map Node.op := by
  induction zs generalizing nds with
  | nil => exact ⟨rfl, rfl⟩
  | cons z zs ih =>
    simp only [runs, fusedProc_chain nds z 0]
    obtain ⟨h1, h2⟩ := ih (runChain (fun _ z => z) 0 nds z).1
    exact ⟨by rw [h1], h2⟩

example : (runs fusedProc [Op.newDifferentiator, (Op.newIntegrator : Op String Nat)] [[("a", 1)], [("a", 1), ("b", 2)], [("b", 2)]]).2 =
    [[("a", (1 : Int))], [("a", 1), ("b", 2)], [("b", 2)]].map Except.ok := rfl

example : ((Op.selProjs (some (fun x => .ok (if x < 5 then [x] else []))) [fun x => .ok [x + 1], fun x => .ok [x % 2]] :
    Op Nat Nat).proc [(1, 1), (3, 2), (7, 1), (2, -1)]).2 = .ok [(0, 3), (1, -1)] := by rfl

end Dctl
