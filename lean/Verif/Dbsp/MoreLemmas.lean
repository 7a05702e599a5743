import Verif.Dbsp.PipeLemmas
/-! Binary join, one-shot runs, totality, reset, snapshot conversion (helper lemmas). -/
set_option autoImplicit false
set_option linter.unusedSectionVars false
namespace Dctl
variable {D J : Type} [DecidableEq D] [DecidableEq J]
open ZSet Rewrite

/-! ### binary join -/

/-- A two-argument join condition as a condition on tuples. -/
def pairEv (ev : D → D → Except Err (List D)) : JEv D
  | [l, r] => ev l r
  | _ => .error "not a pair"

theorem binInner_spec {ev : D → D → Except Err (List D)} {l : D} {lm : Int} {acc r res : ZSet D}
    (h : binInner ev l lm acc r = .ok res) :
    (WF acc → WF res) ∧ (∀ g, wsum g res = wsum g acc + lm * wsum (fun y => evSumJ (pairEv ev) g [l, y]) r) ∧
    ∀ y ∈ r.map Prod.fst, ∃ ds, ev l y = .ok ds := by
  induction r generalizing acc with
  | nil => simp only [binInner, Except.ok.injEq] at h; subst h; simp [wsum]
  | cons p t ih =>
    obtain ⟨y, rm⟩ := p
    unfold binInner at h
    split at h
    · exact absurd h (by simp)
    · rename_i ds hds
      obtain ⟨h1, h2, h3⟩ := ih h
      refine ⟨fun hw => h1 (hw.emit _ _), fun g => ?_, ?_⟩
      · have : evSumJ (pairEv ev) g [l, y] = dsum g ds := by simp [evSumJ, pairEv, hds]
        rw [h2, wsum_emit, wsum, this, Int.mul_add, Int.mul_assoc, Int.add_assoc]
      · intro y' hy'
        simp only [List.map_cons, List.mem_cons] at hy'
        rcases hy' with rfl | hy'
        · exact ⟨ds, hds⟩
        · exact h3 y' hy'

theorem binInner_ok {ev : D → D → Except Err (List D)} {l : D} {lm : Int} (acc : ZSet D) {r : ZSet D}
    (h : ∀ y ∈ r.map Prod.fst, ∃ ds, ev l y = .ok ds) : ∃ res, binInner ev l lm acc r = .ok res := by
  induction r generalizing acc with
  | nil => exact ⟨acc, rfl⟩
  | cons p t ih =>
    obtain ⟨y, rm⟩ := p
    obtain ⟨ds, hds⟩ := h y (by simp)
    unfold binInner
    rw [hds]
    exact ih _ (fun y hy => h y (by simp only [List.map_cons, List.mem_cons]; exact Or.inr hy))

theorem binOuter_spec {ev : D → D → Except Err (List D)} {acc l r res : ZSet D}
    (h : binOuter ev r acc l = .ok res) :
    (WF acc → WF res) ∧
    (∀ g, wsum g res = wsum g acc + wsum (fun x => wsum (fun y => evSumJ (pairEv ev) g [x, y]) r) l) ∧
    ∀ x ∈ l.map Prod.fst, ∀ y ∈ r.map Prod.fst, ∃ ds, ev x y = .ok ds := by
  induction l generalizing acc with
  | nil => simp only [binOuter, Except.ok.injEq] at h; subst h; simp [wsum]
  | cons p t ih =>
    obtain ⟨x, lm⟩ := p
    unfold binOuter at h
    split at h
    · exact absurd h (by simp)
    · rename_i acc' ha
      obtain ⟨h1, h2, h3⟩ := ih h
      obtain ⟨k1, k2, k3⟩ := binInner_spec ha
      refine ⟨fun hw => h1 (k1 hw), fun g => ?_, ?_⟩
      · rw [h2, k2, wsum]; omega
      · intro x' hx'
        simp only [List.map_cons, List.mem_cons] at hx'
        rcases hx' with rfl | hx'
        · exact k3
        · exact h3 x' hx'

theorem binOuter_ok {ev : D → D → Except Err (List D)} (acc : ZSet D) {l r : ZSet D}
    (h : ∀ x ∈ l.map Prod.fst, ∀ y ∈ r.map Prod.fst, ∃ ds, ev x y = .ok ds) :
    ∃ res, binOuter ev r acc l = .ok res := by
  induction l generalizing acc with
  | nil => exact ⟨acc, rfl⟩
  | cons p t ih =>
    obtain ⟨x, lm⟩ := p
    obtain ⟨a, ha⟩ := binInner_ok (lm := lm) acc (h x (by simp))
    unfold binOuter
    rw [ha]
    exact ih _ (fun y hy => h y (by simp only [List.map_cons, List.mem_cons]; exact Or.inr hy))

theorem pairOk_iff {ev : D → D → Except Err (List D)} {l r : ZSet D} :
    JoinOk (pairEv ev) [l, r] [] ↔ ∀ x ∈ l.map Prod.fst, ∀ y ∈ r.map Prod.fst, ∃ ds, ev x y = .ok ds := by
  simp only [JoinOk, pairEv]
  rfl

theorem binJoin_spec {ev : D → D → Except Err (List D)} {l r res : ZSet D} (h : binJoin ev l r = .ok res) :
    WF res ∧ (∀ g, wsum g res = joinSum (evSumJ (pairEv ev) g) [l, r] []) ∧ JoinOk (pairEv ev) [l, r] [] := by
  obtain ⟨h1, h2, h3⟩ := binOuter_spec h
  refine ⟨h1 WF.nil, fun g => ?_, pairOk_iff.mpr h3⟩
  rw [h2]; simp [joinSum, wsum]

theorem binJoin_ok {ev : D → D → Except Err (List D)} {l r : ZSet D} (h : JoinOk (pairEv ev) [l, r] []) :
    ∃ res, binJoin ev l r = .ok res := binOuter_ok [] (pairOk_iff.mp h)

theorem joinSpec_of_binJoin {ev : D → D → Except Err (List D)} {l r res : ZSet D} (h : binJoin ev l r = .ok res) :
    JoinSpec (pairEv ev) [l, r] res := by
  obtain ⟨h1, h2, h3⟩ := binJoin_spec h
  rw [joinOk_tuples] at h3
  refine ⟨h1, by simpa using h3, fun d => ?_⟩
  rw [← wsum_ind h1, h2, joinSum_tuples]
  simp [evSumJ_copies]

theorem incBinJoin_step {ev : D → D → Except Err (List D)} {prev prev' : ZSet D × ZSet D} {a b r : ZSet D}
    (hok : JoinOk (pairEv ev) [prev.1, prev.2] [])
    (h : incBinJoin ev prev a b = (prev', .ok r)) :
    prev' = (prev.1.add a, prev.2.add b) ∧ WF r ∧ JoinOk (pairEv ev) [prev'.1, prev'.2] [] ∧
    ∀ g, joinSum (evSumJ (pairEv ev) g) [prev'.1, prev'.2] [] =
      joinSum (evSumJ (pairEv ev) g) [prev.1, prev.2] [] + wsum g r := by
  unfold incBinJoin at h
  split at h
  · simp at h
  · rename_i t1 h1
    split at h
    · simp at h
    · rename_i t2 h2
      split at h
      · simp at h
      · rename_i t3 h3
        simp only [Prod.mk.injEq, Except.ok.injEq] at h
        obtain ⟨rfl, rfl⟩ := h
        obtain ⟨a1, a2, a3⟩ := binJoin_spec h1
        obtain ⟨b1, b2, b3⟩ := binJoin_spec h2
        obtain ⟨c1, c2, c3⟩ := binJoin_spec h3
        rw [pairOk_iff] at hok a3 b3 c3
        refine ⟨rfl, (a1.add _).add _, ?_, fun g => ?_⟩
        · rw [pairOk_iff]
          intro x hx y hy
          rcases mem_fst_add hx with hx | hx <;> rcases mem_fst_add hy with hy | hy
          · exact hok x hx y hy
          · exact b3 x hx y hy
          · exact c3 x hx y hy
          · exact a3 x hx y hy
        · rw [wsum_add, wsum_add, a2, b2, c2]
          simp only [joinSum, wsum_add, wsum_fun_add]
          omega

theorem incBinJoin_runs {ev : D → D → Except Err (List D)} {prev : ZSet D × ZSet D}
    {hist : List (ZSet D × ZSet D)} {outs : List (ZSet D)} (hok : JoinOk (pairEv ev) [prev.1, prev.2] [])
    (h : (runs (fun s (p : ZSet D × ZSet D) => incBinJoin ev s p.1 p.2) prev hist).2 = outs.map Except.ok) :
    (∀ o ∈ outs, WF o) ∧
    JoinOk (pairEv ev) [(hist.map Prod.fst).foldl ZSet.add prev.1, (hist.map Prod.snd).foldl ZSet.add prev.2] [] ∧
    ∀ g, joinSum (evSumJ (pairEv ev) g)
        [(hist.map Prod.fst).foldl ZSet.add prev.1, (hist.map Prod.snd).foldl ZSet.add prev.2] [] =
      joinSum (evSumJ (pairEv ev) g) [prev.1, prev.2] [] + (outs.map (wsum g)).sum := by
  induction hist generalizing prev outs with
  | nil =>
    simp only [runs] at h
    have : outs = [] := by simpa using h.symm
    subst this
    exact ⟨by simp, hok, by simp⟩
  | cons e t ih =>
    simp only [runs] at h
    cases outs with
    | nil => simp at h
    | cons out outs =>
      simp only [List.map_cons, List.cons.injEq] at h
      cases hp : incBinJoin ev prev e.1 e.2 with
      | mk prev' res =>
      rw [hp] at h
      obtain ⟨rfl, h2, h3, h4⟩ := incBinJoin_step hok (r := out) (prev' := prev') (by rw [hp, ← h.1])
      obtain ⟨k1, k2, k3⟩ := ih h3 h.2
      refine ⟨?_, k2, fun g => ?_⟩
      · intro z hz
        rcases List.mem_cons.mp hz with rfl | hz
        · exact h2
        · exact k1 z hz
      · have := k3 g
        simp only [List.map_cons, List.foldl_cons, List.sum_cons] at this ⊢
        rw [this, h4 g]; omega

/-! ### one-shot runs -/

theorem Refines.oneShot {nds : List (Node D J)} {st : List (PipeOp D J)} (h : Refines nds st)
    {σ : Order D} (hσ : σ.Valid) {i : Nat} {z o : ZSet D} {nds' : List (Node D J)} (hz : WF z)
    (hr : runChain σ i nds z = (nds', .ok o)) : WF o ∧ StagesMean st z o := by
  induction h generalizing i z nds' with
  | nil =>
    simp only [runChain, Prod.mk.injEq, Except.ok.injEq] at hr
    obtain ⟨_, rfl⟩ := hr
    exact ⟨hz, .nil (Eqv.refl _)⟩
  | @lin nd f ss nds st hnd hf hu _ ih =>
    unfold runChain at hr
    rw [Op.proc_linEv hnd] at hr
    split at hr
    · simp at hr
    · rename_i o' r hp
      simp only [Prod.mk.injEq] at hp
      obtain ⟨rfl, hp⟩ := hp
      cases hrest : runChain σ (i + 1) nds r with
      | mk nds'' res =>
      simp only [hrest, Prod.mk.injEq] at hr
      obtain ⟨rfl, rfl⟩ := hr
      obtain ⟨h1, h2⟩ := ih (linProc_wf hp) hrest
      obtain ⟨fs, hss, hfs⟩ := hf
      obtain ⟨hw, he⟩ := order_eqv hσ i hz
      exact ⟨h1, (StagesMean.lin hss hw (linGo_mono hfs hp) h2).eqv hw hz he⟩
  | @triple g b1 b3 nds st _ ih =>
    obtain ⟨hw, he⟩ := order_eqv hσ i hz
    have hs1 : WF (ZSet.add [] (σ i z)) := WF.nil.add _
    have hse : Eqv (ZSet.add [] (σ i z)) z := by
      intro d; rw [get_add WF.nil hw, he d]; simp
    obtain ⟨hw2, he2⟩ := order_eqv hσ (i + 1) hs1
    cases hg : gatherProc g (σ (i + 1) (ZSet.add [] (σ i z))) with
    | error e => simp [runChain, Op.proc, hg] at hr
    | ok mm =>
      have hmm := gatherProc_wf hg
      obtain ⟨hw3, he3⟩ := order_eqv hσ (i + 1 + 1) hmm
      cases hrest : runChain σ (i + 1 + 1 + 1) nds ((σ (i + 1 + 1) mm).sub []) with
      | mk nds'' res =>
      simp only [runChain, Op.proc, hg, hrest, Prod.mk.injEq] at hr
      obtain ⟨rfl, rfl⟩ := hr
      have hsub : (σ (i + 1 + 1) mm).sub [] = σ (i + 1 + 1) mm := rfl
      rw [hsub] at hrest
      obtain ⟨h1, h2⟩ := ih hw3 hrest
      refine ⟨h1, .cons (perm_of_eqv hw2 hz (he2.trans hse)) hg (h2.eqv hw3 hmm he3)⟩
  | @raw g nds st _ ih =>
    cases hg : gatherProc g (σ i z) with
    | error e => simp [runChain, Op.proc, hg] at hr
    | ok mm =>
      cases hrest : runChain σ (i + 1) nds mm with
      | mk nds'' res =>
      simp only [runChain, Op.proc, hg, hrest, Prod.mk.injEq] at hr
      obtain ⟨rfl, rfl⟩ := hr
      obtain ⟨h1, h2⟩ := ih (gatherProc_wf hg) hrest
      exact ⟨h1, .cons (hσ i z) hg h2⟩

/-- The first step of a graph in its initial state, from the complete inputs. -/
theorem oneShot_means {cfg : List (PipeOp D J)} {g g' : Graph D J} {σ : Order D} (hσ : σ.Valid)
    {i : List (String × ZSet D)} (hi : ∀ p ∈ i, WF p.2) {o : ZSet D}
    (hc : Refines g.chain (tailStages cfg))
    (hj : match leadJoin cfg with
      | some ev => (∃ n, 0 < n ∧ (g.join = some (JoinOp.newIncremental ev n) ∨ g.join = some (.snap ev n)))
      | none => g.join = none ∧ g.inputs.length = 1)
    (hp : g.process σ i = (g', .ok o)) : WF o ∧ PipelineMeans cfg (inputRow g.inputs i) o := by
  rw [pipelineMeans_iff]
  unfold Graph.process at hp
  split at hp
  · simp at hp
  · rename_i zs hzs
    obtain ⟨rfl, _⟩ := collectInputs_ok hzs
    have hrw := inputRow_wf (names := g.inputs) hi
    have hrl : (inputRow g.inputs i).length = g.inputs.length := by simp [inputRow]
    cases hlj : leadJoin cfg with
    | none =>
      simp only [hlj] at hj ⊢
      simp only [hj.1] at hp
      split at hp
      · simp at hp
      · rename_i w ws hw
        cases hrun : runChain σ 1 g.chain w with
        | mk c' res =>
        simp only [hrun, Prod.mk.injEq] at hp
        obtain ⟨rfl, rfl⟩ := hp
        rw [hw] at hrw hrl
        obtain ⟨k1, k2⟩ := hc.oneShot hσ (hrw w (by simp)) hrun
        refine ⟨k1, w, ?_, k2⟩
        have : ws = [] := by
          apply List.eq_nil_of_length_eq_zero; simp [hj.2] at hrl; simp [hrl]
        rw [hw, this]
    | some ev =>
      simp only [hlj] at hj ⊢
      obtain ⟨n, hn, hj⟩ := hj
      have key : ∃ j' r, cartesianJoin ev ((inputRow g.inputs i).map (σ 0)) [] 1 = .ok r ∧
          ∃ r', Eqv r' r ∧ WF r' ∧ ∃ c', runChain σ 1 g.chain r' = (c', .ok o) ∧ j' = g'.join := by
        rcases hj with hj | hj
        · simp only [hj, JoinOp.newIncremental, JoinOp.proc] at hp
          cases hinc : incJoin ev n (List.replicate n []) ((inputRow g.inputs i).map (σ 0)) with
          | mk st' res =>
          simp only [hinc] at hp
          split at hp
          · simp at hp
          · rename_i j' r hx
            simp only [Prod.mk.injEq] at hx
            obtain ⟨rfl, rfl⟩ := hx
            cases hrun : runChain σ 1 g.chain r with
            | mk c' res =>
            simp only [hrun, Prod.mk.injEq] at hp
            obtain ⟨rfl, rfl⟩ := hp
            obtain ⟨a1, a2, a3, a4, a5⟩ := incJoin_step (by simp) (joinOk_empty ev hn) hinc
            have hE : EqvL st' ((inputRow g.inputs i).map (σ 0)) := by
              have hwf : ∀ z ∈ (inputRow g.inputs i).map (σ 0), WF z := (EqvL.perm hσ 0 hrw).wf
              subst a2
              refine EqvL.of_getD (by simp at a1 ⊢; omega) ?_ hwf ?_
              · intro z hz
                obtain ⟨k, hk, rfl⟩ := List.mem_iff_getElem.mp hz
                simp only [List.getElem_zipWith, List.getElem_replicate]
                exact WF.nil.add _
              · intro k hk d
                rw [getD_zipAdd (by simp at a1 ⊢; omega)]
                have hkl : k < ((inputRow g.inputs i).map (σ 0)).length := by
                  simp only [List.length_zipWith] at hk; omega
                have hw' : WF (((inputRow g.inputs i).map (σ 0)).getD k []) := by
                  apply hwf
                  rw [getD_of_lt hkl]
                  exact List.getElem_mem hkl
                have h0 : (List.replicate n ([] : ZSet D)).getD k [] = [] := by
                  rw [List.getD_eq_getElem?_getD, List.getElem?_replicate]
                  split <;> rfl
                rw [h0, get_add WF.nil hw']; simp
            obtain ⟨m, hm⟩ := cart_ok 1 (joinOk_eqv hE a4)
            obtain ⟨m1, m2, m3⟩ := cart_spec hm
            refine ⟨_, m, hm, r, ?_, a3, c', hrun, rfl⟩
            intro d
            rw [← wsum_ind a3, ← wsum_ind m1, m2, ← joinSum_eqv _ hE, a5, joinSum_empty _ hn]
            omega
        · simp only [hj, JoinOp.proc, snapJoin] at hp
          split at hp
          · simp at hp
          · rename_i j' r hx
            simp only [Prod.mk.injEq] at hx
            obtain ⟨rfl, hx⟩ := hx
            split at hx
            · simp at hx
            · cases hrun : runChain σ 1 g.chain r with
              | mk c' res =>
              simp only [hrun, Prod.mk.injEq] at hp
              obtain ⟨rfl, rfl⟩ := hp
              exact ⟨_, r, hx, r, Eqv.refl _, (cart_spec hx).1, c', hrun, rfl⟩
      obtain ⟨_, r, hr, r', hre, hrw', c', hrun, _⟩ := key
      obtain ⟨k1, k2⟩ := hc.oneShot hσ hrw' hrun
      obtain ⟨r2, hr2, hre2⟩ := cart_eqv (EqvL.perm hσ 0 hrw) hr
      exact ⟨k1, r2, hr2, k2.eqv hrw' (cart_spec hr2).1 (hre.trans hre2.symm)⟩

/-! ### determinism without gather -/

theorem copies_map_eqv {f : Ev D} {z z' m m' : ZSet D} (hz : WF z) (hz' : WF z') (he : Eqv z z')
    (h : MapSpec f z m) (h' : MapSpec f z' m') : Eqv m m' := by
  intro d
  rw [h.2.2, h'.2.2, ← wsum_eq_sum, ← wsum_eq_sum]
  exact wsum_eqv _ hz hz' he

/-- A gather whose result does not depend on map iteration order: the sort only depends on the multiset of
values, and the aggregate does not depend on which member of the group represents it. -/
def Gather.Det (g : Gather D J) : Prop :=
  (∀ l l' : List J, l.Perm l' → g.sort l = g.sort l') ∧
  ∀ x y k vs, InGroup g k x → InGroup g k y → g.agg x k vs = g.agg y k vs

theorem gatherSpec_unique {g : Gather D J} (hd : g.Det) {z z' m m' : ZSet D} (hz : WF z) (hz' : WF z') (he : Eqv z z')
    (h : GatherSpec g z m) (h' : GatherSpec g z' m') : Eqv m m' := by
  obtain ⟨_, grs, outs, n1, k1, v1, a1, c1⟩ := h
  obtain ⟨_, grs', outs', n2, k2, v2, a2, c2⟩ := h'
  have hzp := perm_of_eqv hz hz' he
  have hkeys : (grs.map Group.key).Perm (grs'.map Group.key) := by
    rw [List.perm_ext_iff_of_nodup n1 n2]
    intro k
    rw [k1, k2]
    exact ⟨fun ⟨p, hp, hg⟩ => ⟨p, hzp.mem_iff.mp hp, hg⟩, fun ⟨p, hp, hg⟩ => ⟨p, hzp.mem_iff.mpr hp, hg⟩⟩
  let F : J → Except Err D := fun k => match findG grs k with
    | some gr => g.agg gr.doc gr.key (g.sort gr.vals)
    | none => .error ""
  have hF : ∀ gr ∈ grs, F gr.key = g.agg gr.doc gr.key (g.sort gr.vals) := by
    intro gr hgr
    simp only [F, (findG_some_iff n1 gr).mpr hgr]
  have e1 : grs.map (fun gr => g.agg gr.doc gr.key (g.sort gr.vals)) = (grs.map Group.key).map F := by
    rw [List.map_map]
    exact List.map_congr_left (fun gr hgr => (hF gr hgr).symm)
  have e2 : grs'.map (fun gr => g.agg gr.doc gr.key (g.sort gr.vals)) = (grs'.map Group.key).map F := by
    rw [List.map_map]
    apply List.map_congr_left
    intro gr' hgr'
    have hk : gr'.key ∈ grs.map Group.key := hkeys.mem_iff.mpr (List.mem_map_of_mem hgr')
    obtain ⟨gr, hgr, hkk⟩ := List.mem_map.mp hk
    have := hF gr hgr
    simp only [Function.comp_apply]
    rw [← hkk, this]
    obtain ⟨p1, i1, _⟩ := v1 gr hgr
    obtain ⟨p2, i2, _⟩ := v2 gr' hgr'
    rw [hkk] at p1 i1 ⊢
    have hs : g.sort gr.vals = g.sort gr'.vals :=
      hd.1 _ _ (p1.trans ((hzp.flatMap_right _).trans p2.symm))
    rw [hs]
    exact hd.2 _ _ _ _ i2 i1
  have hp : (outs.map (Except.ok (ε := Err))).Perm (outs'.map Except.ok) := by
    rw [← a1, ← a2, e1, e2]
    exact hkeys.map F
  have hfm : ∀ l : List D, (l.map (Except.ok (ε := Err))).filterMap Except.toOption = l := by
    intro l; induction l with
    | nil => rfl
    | cons a t ih => simp [Except.toOption] at ih ⊢; exact ih
  have hpo : outs.Perm outs' := by
    have := hp.filterMap Except.toOption
    rwa [hfm, hfm] at this
  intro d
  rw [c1, c2, hpo.count_eq]

/-- All gather stages are deterministic (in particular: there are none). -/
def GatherDet (cfg : List (PipeOp D J)) : Prop := ∀ g, PipeOp.gather g ∈ cfg → g.Det

theorem gatherDet_of_none {cfg : List (PipeOp D J)} (h : hasGather cfg = false) : GatherDet cfg := by
  intro g hg
  simp only [hasGather, List.any_eq_false] at h
  have := h _ hg
  simp at this

theorem stagesSpec_unique {ss : List (PipeOp D J)} {z z' o o' : ZSet D} (hg : GatherDet ss)
    (hz : WF z) (hz' : WF z') (he : Eqv z z') (h : StagesSpec ss z o) (h' : StagesSpec ss z' o') : Eqv o o' := by
  induction h generalizing z' with
  | nil _ h1 =>
    cases h' with
    | nil _ h2 => exact (h1.symm.trans he).trans h2
  | @cons s ss z m o hs _ ih =>
    cases h' with
    | @cons _ _ _ m' _ hs' ht' =>
      have hg' : GatherDet ss := fun g hm => hg g (List.mem_cons_of_mem _ hm)
      cases s with
      | join ev => exact absurd hs (by simp [StageSpec])
      | gather g => exact ih hg' hs.1 hs'.1 (gatherSpec_unique (hg g (by simp)) hz hz' he hs hs') ht'
      | select ev => exact ih hg' hs.1 hs'.1 (copies_map_eqv hz hz' he hs hs') ht'
      | project ev => exact ih hg' hs.1 hs'.1 (copies_map_eqv hz hz' he hs hs') ht'
      | unwind ex tr => exact ih hg' hs.1 hs'.1 (copies_map_eqv hz hz' he hs hs') ht'

theorem joinSpec_eqv {ev : JEv D} {ins ins' : List (ZSet D)} {m m' : ZSet D} (he : EqvL ins ins')
    (h : JoinSpec ev ins m) (h' : JoinSpec ev ins' m') : Eqv m m' := by
  intro d
  rw [h.2.2, h'.2.2]
  have := joinSum_eqv (copies ev d) he []
  rw [joinSum_tuples, joinSum_tuples] at this
  simpa using this

theorem pipelineSpec_unique {cfg : List (PipeOp D J)} {ins ins' : List (ZSet D)} {o o' : ZSet D}
    (hg : GatherDet cfg) (he : EqvL ins ins') (h : PipelineSpec cfg ins o)
    (h' : PipelineSpec cfg ins' o') : Eqv o o' := by
  unfold PipelineSpec at h h'
  split at h
  · obtain ⟨m, h1, h2⟩ := h
    obtain ⟨m', h1', h2'⟩ := h'
    exact stagesSpec_unique (fun g hm => hg g (List.mem_cons_of_mem _ hm)) h1.1 h1'.1 (joinSpec_eqv he h1 h1') h2 h2'
  · rename_i hne
    split at h'
    · exact absurd rfl (hne _ _)
    · obtain ⟨z, rfl, h2⟩ := h
      obtain ⟨z', rfl, h2'⟩ := h'
      cases he with
      | cons a b c d => exact stagesSpec_unique hg a b c h2 h2'

/-! ### totality -/

/-- Operators that never fail. -/
def Op.Total : Op D J → Prop
  | .project ev => ∀ x, ∃ y, ev x = .ok [y]
  | .select ev => ∀ x, ∃ ds, ev x = .ok ds
  | .unwind ex tr => (∀ x, ∃ r, ex x = .ok r) ∧ ∀ x e, ∃ d, tr x e = .ok d
  | .gather g => (∀ x, ∃ r, g.key x = .ok r) ∧ (∀ x, ∃ r, g.val x = .ok r) ∧ ∀ x k vs, ∃ d, g.agg x k vs = .ok d
  | .projSel p s => (∀ x, ∃ y, p x = .ok [y]) ∧ ∀ x, ∃ ds, s x = .ok ds
  | .selProjs s ps => (∀ s', s = some s' → ∀ x, ∃ ds, s' x = .ok ds) ∧ ∀ p ∈ ps, ∀ x, ∃ y, p x = .ok [y]
  | _ => True

theorem projChain_total {ps : List (Ev D)} (h : ∀ p ∈ ps, ∀ x, ∃ y, p x = .ok [y]) (x : D) :
    ∃ y, projChain ps x = .ok y := by
  induction ps generalizing x with
  | nil => exact ⟨x, rfl⟩
  | cons p t ih =>
    obtain ⟨y, hy⟩ := h p (by simp) x
    simp only [projChain, hy]
    exact ih (fun q hq => h q (List.mem_cons_of_mem _ hq)) y

theorem gatherGroups_total {g : Gather D J} (h1 : ∀ x, ∃ r, g.key x = .ok r) (h2 : ∀ x, ∃ r, g.val x = .ok r)
    (acc : List (Group D J)) (z : ZSet D) : ∃ r, gatherGroups g acc z = .ok r := by
  induction z generalizing acc with
  | nil => exact ⟨acc, rfl⟩
  | cons p t ih =>
    obtain ⟨x, m⟩ := p
    obtain ⟨k, hk⟩ := h1 x
    obtain ⟨v, hv⟩ := h2 x
    unfold gatherGroups
    rw [hk]
    cases k with
    | none => exact ih acc
    | some k =>
      simp only [hv]
      cases v with
      | none => exact ih acc
      | some v => exact ih _

theorem gatherAgg_total {g : Gather D J} (h : ∀ x k vs, ∃ d, g.agg x k vs = .ok d)
    (acc : ZSet D) (gs : List (Group D J)) : ∃ r, gatherAgg g acc gs = .ok r := by
  induction gs generalizing acc with
  | nil => exact ⟨acc, rfl⟩
  | cons gr t ih =>
    obtain ⟨d, hd⟩ := h gr.doc gr.key (g.sort gr.vals)
    unfold gatherAgg
    rw [hd]
    exact ih _

theorem Op.Total.proc {o : Op D J} (h : o.Total) (z : ZSet D) :
    (o.proc z).1.Total ∧ ∃ r, (o.proc z).2 = .ok r := by
  have lin : ∀ {f : Ev D}, (∀ x, ∃ ds, f x = .ok ds) → ∃ r, linProc f z = .ok r :=
    fun hf => linProc_ok_iff.mpr (fun x _ => hf x)
  cases o with
  | project ev => exact ⟨h, lin (fun x => let ⟨y, hy⟩ := h x; ⟨[y], hy⟩)⟩
  | select ev => exact ⟨h, lin h⟩
  | unwind ex tr =>
    refine ⟨h, ?_⟩
    simp only [Op.proc, unwindProc_eq]
    apply lin
    intro x
    unfold unwindEv
    obtain ⟨r, hr⟩ := h.1 x
    rw [hr]
    cases r with
    | none => exact ⟨[], rfl⟩
    | some es =>
      apply bindDocs_ok_iff.mpr
      intro e _
      obtain ⟨d, hd⟩ := h.2 x e
      exact ⟨[d], by rw [hd]⟩
  | gather g =>
    refine ⟨h, ?_⟩
    obtain ⟨gs, hgs⟩ := gatherGroups_total h.1 h.2.1 [] z
    obtain ⟨r, hr⟩ := gatherAgg_total h.2.2 [] gs
    exact ⟨r, by simp only [Op.proc, gatherProc, hgs, hr]⟩
  | distinct => exact ⟨h, _, rfl⟩
  | integ s => exact ⟨trivial, _, rfl⟩
  | diff s => exact ⟨trivial, _, rfl⟩
  | delay s => exact ⟨trivial, _, rfl⟩
  | negate => exact ⟨h, _, rfl⟩
  | projSel p s =>
    refine ⟨h, lin fun x => ?_⟩
    unfold projSelEv
    obtain ⟨y, hy⟩ := h.1 x
    rw [hy]
    exact bindDocs_ok_iff.mpr (fun y _ => h.2 y)
  | selProjs s ps =>
    refine ⟨h, lin fun x => ?_⟩
    unfold selProjsEv
    have hb : ∀ ds : List D, ∃ r, bindDocs (fun d => match projChain ps d with
        | .error e => .error e
        | .ok y => .ok [y]) ds = .ok r := by
      intro ds
      apply bindDocs_ok_iff.mpr
      intro d _
      obtain ⟨y, hy⟩ := projChain_total h.2 d
      exact ⟨[y], by rw [hy]⟩
    cases s with
    | none => exact hb _
    | some s =>
      obtain ⟨ds, hds⟩ := h.1 s rfl x
      simp only [hds]
      exact hb ds

/-- All chain operators never fail. -/
def ChainTotal (c : List (Node D J)) : Prop := ∀ nd ∈ c, nd.op.Total

theorem runChain_total {σ : Order D} {i : Nat} {c : List (Node D J)} (h : ChainTotal c) (z : ZSet D) :
    ChainTotal (runChain σ i c z).1 ∧ ∃ r, (runChain σ i c z).2 = .ok r := by
  induction c generalizing i z with
  | nil => exact ⟨h, z, rfl⟩
  | cons nd t ih =>
    obtain ⟨h1, r, h2⟩ := (h nd (by simp)).proc (σ i z)
    cases hp : nd.op.proc (σ i z) with
    | mk o' res =>
    rw [hp] at h1 h2
    simp only at h1 h2
    subst h2
    obtain ⟨k1, k2⟩ := ih (i := i + 1) (fun n hn => h n (List.mem_cons_of_mem _ hn)) r
    simp only [runChain, hp]
    refine ⟨?_, k2⟩
    intro n hn
    rcases List.mem_cons.mp hn with rfl | hn
    · exact h1
    · exact k1 n hn

theorem loop_pres {P : Graph D J → Prop} {rs : List (Rule D J)} (hP : ∀ r ∈ rs, ∀ g, P g → P (r.apply g))
    {n : Nat} {g g' : Graph D J} (h : loop rs n g = .ok g') (hg : P g) : P g' := by
  have hstep : ∀ (rs' : List (Rule D J)), (∀ r ∈ rs', ∀ g, P g → P (r.apply g)) → ∀ g g1, P g →
      Rewrite.step rs' g = some g1 → P g1 := by
    intro rs'
    induction rs' with
    | nil => intro _ g g1 _ hs; simp [Rewrite.step] at hs
    | cons r t ih =>
      intro hr g g1 hg hs
      unfold Rewrite.step at hs
      split at hs
      · simp only [Option.some.injEq] at hs; subst hs; exact hr r (by simp) g hg
      · exact ih (fun r hr' => hr r (List.mem_cons_of_mem _ hr')) g g1 hg hs
  induction n generalizing g with
  | zero => simp [loop] at h
  | succ n ih =>
    unfold loop at h
    split at h
    · rename_i g1 hs; exact ih h (hstep rs hP g g1 hg hs)
    · split at h
      · simp at h
      · simp only [Except.ok.injEq] at h; exact h ▸ hg

theorem optimize_pres {P : Graph D J → Prop} (hP : ∀ r ∈ (rules : List (Rule D J)), ∀ g, P g → P (r.apply g))
    {g g' : Graph D J} (h : optimize g = .ok g') (hg : P g) : P g' := by
  unfold optimize at h
  split at h
  · simp at h
  · exact loop_pres hP h hg

theorem mem_elimID {c : List (Node D J)} {nd : Node D J} (h : nd ∈ elimID c) : nd ∈ c := by
  fun_induction elimID c with
  | case1 _ _ _ _ t ih => simp [ih h]
  | case2 n t _ ih =>
    rcases List.mem_cons.mp h with rfl | h
    · simp
    · simp [ih h]
  | case3 => exact h

theorem mem_elimDD {c : List (Node D J)} {nd : Node D J} (h : nd ∈ elimDD c) : nd ∈ c := by
  fun_induction elimDD c with
  | case1 _ _ t ih =>
    rcases List.mem_cons.mp h with rfl | h
    · simp
    · simp [ih h]
  | case2 n t _ ih =>
    rcases List.mem_cons.mp h with rfl | h
    · simp
    · simp [ih h]
  | case3 => exact h

theorem spanProj_mem {c : List (Node D J)} :
    (∀ p ∈ (spanProj c).1, ∃ l, (⟨.project p, l⟩ : Node D J) ∈ c) ∧ ∀ nd ∈ (spanProj c).2, nd ∈ c := by
  induction c with
  | nil => simp [spanProj]
  | cons nd t ih =>
    obtain ⟨o, l⟩ := nd
    by_cases hp : ∃ p, o = .project p
    · obtain ⟨p, rfl⟩ := hp
      simp only [spanProj]
      refine ⟨?_, fun nd hnd => List.mem_cons_of_mem _ (ih.2 nd hnd)⟩
      intro q hq
      rcases List.mem_cons.mp hq with rfl | hq
      · exact ⟨l, by simp⟩
      · obtain ⟨l', hl'⟩ := ih.1 q hq; exact ⟨l', List.mem_cons_of_mem _ hl'⟩
    · have : spanProj (⟨o, l⟩ :: t) = ([], ⟨o, l⟩ :: t) := by
        cases o <;> simp_all [spanProj]
      rw [this]
      simp

theorem chainTotal_fuseSP {c : List (Node D J)} (h : ChainTotal c) : ChainTotal (fuseSP c) := by
  generalize hn : c.length = n
  induction n using Nat.strongRecOn generalizing c with
  | ind n ih =>
  cases c with
  | nil => exact h
  | cons nd t =>
    have ht : ChainTotal t := fun n hn => h n (List.mem_cons_of_mem _ hn)
    have hlen := spanProj_length t
    have iht := ih t.length (by simp at hn; omega) ht rfl
    have hsm := spanProj_mem (c := t)
    have ihs := ih (spanProj t).2.length (by simp at hn; omega) (fun n hn => ht n (hsm.2 n hn)) rfl
    have hcons : ∀ {a : Node D J} {l : List (Node D J)}, a.op.Total → ChainTotal l → ChainTotal (a :: l) := by
      intro a l ha hl n hn
      rcases List.mem_cons.mp hn with rfl | hn
      · exact ha
      · exact hl n hn
    obtain ⟨o, l⟩ := nd
    have ho := h ⟨o, l⟩ (by simp)
    have hps : ∀ p ∈ (spanProj t).1, ∀ x, ∃ y, p x = .ok [y] := by
      intro p hp; obtain ⟨l', hl'⟩ := hsm.1 p hp; exact ht _ hl'
    by_cases hs : ∃ s, o = .select s
    · obtain ⟨s, rfl⟩ := hs
      rw [fuseSP_select]
      split
      · exact hcons ho iht
      · rename_i p ps r hr
        rw [hr] at ihs hps
        refine hcons ⟨?_, hps⟩ ihs
        intro s' hs'; simp only [Option.some.injEq] at hs'; subst hs'; exact ho
    · by_cases hp : ∃ p, o = .project p
      · obtain ⟨p, rfl⟩ := hp
        rw [fuseSP_project]
        split
        · exact hcons ho iht
        · rename_i q ps r hr
          rw [hr] at ihs hps
          refine hcons ⟨by simp, ?_⟩ ihs
          intro p' hp'
          rcases List.mem_cons.mp hp' with rfl | hp'
          · exact ho
          · exact hps p' hp'
      · rw [fuseSP_cons_other (fun s e => hs ⟨s, e⟩) (fun p e => hp ⟨p, e⟩)]
        exact hcons ho iht

theorem chainTotal_fusePS {c : List (Node D J)} (h : ChainTotal c) : ChainTotal (fusePS c) := by
  fun_induction fusePS c with
  | case1 p l s l' t ih =>
    intro n hn
    rcases List.mem_cons.mp hn with rfl | hn
    · exact ⟨h ⟨.project p, l⟩ (by simp), h ⟨.select s, l'⟩ (by simp)⟩
    · exact ih (fun n hn => h n (by simp [hn])) n hn
  | case2 nd t _ ih =>
    intro n hn
    rcases List.mem_cons.mp hn with rfl | hn
    · exact h n (by simp)
    · exact ih (fun n hn => h n (by simp [hn])) n hn
  | case3 => exact h

theorem chainTotal_lift {c : List (Node D J)} (h : ChainTotal c) : ChainTotal (lift c) := by
  intro n hn
  simp only [lift, List.mem_flatMap] at hn
  obtain ⟨nd, hnd, hn⟩ := hn
  split at hn
  · simp only [List.mem_cons, List.not_mem_nil, or_false] at hn
    rcases hn with rfl | rfl | rfl
    · trivial
    · exact h nd hnd
    · trivial
  · simp only [List.mem_singleton] at hn; subst hn; exact h n hnd

theorem chainTotal_rules : ∀ r ∈ (rules : List (Rule D J)), ∀ g, ChainTotal g.chain → ChainTotal (r.apply g).chain := by
  intro r hr g hg
  simp only [rules, List.mem_cons, List.not_mem_nil, or_false] at hr
  rcases hr with rfl | rfl | rfl | rfl | rfl | rfl
  · simp only [joinRule]
    split
    · split <;> exact hg
    · exact hg
  · exact chainTotal_lift hg
  · exact hg
  · exact fun n hn => hg n (mem_elimID hn)
  · exact fun n hn => hg n (mem_elimDD hn)
  · simp only [fuseRule]
    split
    · exact chainTotal_fuseSP hg
    · split
      · exact chainTotal_fusePS hg
      · exact hg

/-! ### inputs -/

theorem addInput_nodup {g : Graph D J} (k : String) (h : g.inputs.Nodup) : (g.addInput k).inputs.Nodup := by
  unfold Graph.addInput
  split
  · exact h
  · rename_i hk
    rw [List.nodup_append]
    refine ⟨h, by simp, ?_⟩
    intro a ha b hb
    simp only [List.mem_singleton] at hb
    subst hb
    exact fun e => hk (e ▸ ha)

theorem foldl_addInput_nodup {sources : List String} {g : Graph D J} (h : g.inputs.Nodup) :
    (sources.foldl (fun g k => g.addInput k) g).inputs.Nodup := by
  induction sources generalizing g with
  | nil => exact h
  | cons k t ih => exact ih (addInput_nodup k h)

theorem foldl_addInput_eq {sources : List String} {g : Graph D J} (h : (g.inputs ++ sources).Nodup) :
    (sources.foldl (fun g k => g.addInput k) g).inputs = g.inputs ++ sources := by
  induction sources generalizing g with
  | nil => simp
  | cons k t ih =>
    have hk : k ∉ g.inputs := by
      rw [List.nodup_append] at h
      intro hm; exact h.2.2 k hm k (by simp) rfl
    have : g.addInput k = { g with inputs := g.inputs ++ [k] } := by
      unfold Graph.addInput; simp [hk]
    rw [List.foldl_cons, this, ih (by simpa using h)]
    simp

theorem buildChain_inputs {g g' : Graph D J} {ps : List (PipeOp D J)} (h : buildChain g ps = .ok g') :
    g'.inputs = g.inputs ∧ g'.join = g.join := by
  induction ps generalizing g with
  | nil => simp only [buildChain, Except.ok.injEq] at h; subst h; exact ⟨rfl, rfl⟩
  | cons p ps ih =>
    unfold buildChain at h
    split at h
    · simp at h
    · obtain ⟨h1, h2⟩ := ih h; exact ⟨h1, h2⟩

theorem rules_inputs : ∀ r ∈ (rules : List (Rule D J)), ∀ g, (r.apply g).inputs = g.inputs := by
  intro r hr g
  simp only [rules, List.mem_cons, List.not_mem_nil, or_false] at hr
  rcases hr with rfl | rfl | rfl | rfl | rfl | rfl
  · simp only [joinRule]
    split
    · split <;> rfl
    · rfl
  · rfl
  · rfl
  · rfl
  · rfl
  · simp only [fuseRule]
    split
    · rfl
    · split <;> rfl

theorem newPipeline_parts {sources : List String} {cfg : List (PipeOp D J)} {g : Graph D J}
    (h : newPipeline sources cfg = .ok g) : ∃ g0, buildGraph sources cfg = .ok g0 ∧ optimize g0 = .ok g := by
  unfold newPipeline at h
  split at h
  · simp at h
  · split at h
    · simp at h
    · rename_i g0 hg0
      split at h
      · simp at h
      · rename_i g1 hg1
        split at h
        · simp at h
        · simp only [Except.ok.injEq] at h; subst h; exact ⟨g0, hg0, hg1⟩

theorem buildGraph_inputs {sources : List String} {cfg : List (PipeOp D J)} {g : Graph D J}
    (h : buildGraph sources cfg = .ok g) :
    g.inputs = (sources.foldl (fun g k => g.addInput k) ({} : Graph D J)).inputs := by
  unfold buildGraph at h
  split at h
  · exact (buildChain_inputs h).1
  · exact (buildChain_inputs h).1

theorem newPipeline_inputs {sources : List String} {cfg : List (PipeOp D J)} {g : Graph D J}
    (h : newPipeline sources cfg = .ok g) : g.inputs.Nodup ∧ (sources.Nodup → g.inputs = sources) := by
  obtain ⟨g0, h1, h2⟩ := newPipeline_parts h
  have h3 := buildGraph_inputs h1
  have h4 : g.inputs = g0.inputs :=
    optimize_pres (P := fun g => g.inputs = g0.inputs) (fun r hr g hg => (rules_inputs r hr g).trans hg) h2 rfl
  rw [h4, h3]
  exact ⟨foldl_addInput_nodup (by simp), fun hs => by rw [foldl_addInput_eq (by simpa using hs)]; simp⟩

theorem collectInputs_total {names : List String} {ins : List (String × ZSet D)} (hl : ins.length = names.length)
    (h : ∀ n ∈ names, ∃ z, ins.lookup n = some z) : ∃ zs, collectInputs names ins = .ok zs := by
  unfold collectInputs
  rw [if_neg (by omega)]
  clear hl
  induction names with
  | nil => exact ⟨[], rfl⟩
  | cons n t ih =>
    obtain ⟨z, hz⟩ := h n (by simp)
    obtain ⟨zs, hzs⟩ := ih (fun m hm => h m (List.mem_cons_of_mem _ hm))
    refine ⟨z :: zs, ?_⟩
    rw [List.mapM_cons, hzs]
    simp only [lookupInput, hz]
    rfl

theorem collectInputs_err {names : List String} {ins : List (String × ZSet D)}
    (h : ins.length ≠ names.length ∨ ∃ n ∈ names, ins.lookup n = none) :
    ∃ e, collectInputs names ins = .error e := by
  unfold collectInputs
  by_cases hl : ins.length ≠ names.length
  · rw [if_pos hl]; exact ⟨_, rfl⟩
  · rw [if_neg hl]
    obtain ⟨n, hn, hno⟩ := h.resolve_left hl
    clear hl h
    induction names with
    | nil => simp at hn
    | cons m t ih =>
      rw [List.mapM_cons]
      cases hm : lookupInput ins m with
      | none => exact ⟨_, rfl⟩
      | some z =>
        rcases List.mem_cons.mp hn with rfl | hn
        · rw [lookupInput, hno] at hm; simp at hm
        · obtain ⟨e, he⟩ := ih hn
          rw [he]; exact ⟨e, rfl⟩

theorem sumMasks_total {ev : JEv D} (h : ∀ ds, ∃ r, ev ds = .ok r) (deltas prevs : List (ZSet D)) (acc : ZSet D)
    (ks : List Nat) : ∃ r, sumMasks ev deltas prevs acc ks = .ok r := by
  have hj : ∀ (zs : List (ZSet D)) (docs : List D), JoinOk ev zs docs := by
    intro zs
    induction zs with
    | nil => intro docs; exact h _
    | cons z zs ih => intro docs x _; exact ih _
  induction ks generalizing acc with
  | nil => exact ⟨acc, rfl⟩
  | cons k ks ih =>
    obtain ⟨t, ht⟩ := cart_ok 1 (hj (termInputs deltas prevs k) [])
    unfold sumMasks
    rw [ht]
    exact ih _

/-- Stages whose evaluators never fail (projections produce exactly one document). -/
def PipeOp.Total : PipeOp D J → Prop
  | .join ev => ∀ ds, ∃ r, ev ds = .ok r
  | .project ev => ∀ x, ∃ y, ev x = .ok [y]
  | .select ev => ∀ x, ∃ ds, ev x = .ok ds
  | .unwind ex tr => (∀ x, ∃ r, ex x = .ok r) ∧ ∀ x e, ∃ d, tr x e = .ok d
  | .gather g => (∀ x, ∃ r, g.key x = .ok r) ∧ (∀ x, ∃ r, g.val x = .ok r) ∧ ∀ x k vs, ∃ d, g.agg x k vs = .ok d

theorem buildChain_total {g g' : Graph D J} {ps : List (PipeOp D J)} (hg : ChainTotal g.chain)
    (hp : ∀ p ∈ ps, p.Total) (h : buildChain g ps = .ok g') : ChainTotal g'.chain := by
  induction ps generalizing g with
  | nil => simp only [buildChain, Except.ok.injEq] at h; subst h; exact hg
  | cons p ps ih =>
    unfold buildChain at h
    split at h
    · simp at h
    · rename_i o ho
      refine ih ?_ (fun q hq => hp q (List.mem_cons_of_mem _ hq)) h
      intro n hn
      simp only [Graph.addToChain, List.mem_append, List.mem_singleton] at hn
      rcases hn with hn | rfl
      · exact hg n hn
      · have := hp p (by simp)
        cases p <;> simp only [PipeOp.toOp, Except.ok.injEq, reduceCtorEq] at ho <;> subst ho <;> exact this

theorem newPipeline_total {sources : List String} {cfg : List (PipeOp D J)} {g : Graph D J}
    (h : newPipeline sources cfg = .ok g) (ht : ∀ p ∈ cfg, p.Total) : ChainTotal g.chain := by
  obtain ⟨g0, h1, h2⟩ := newPipeline_parts h
  refine optimize_pres (P := fun g => ChainTotal g.chain) chainTotal_rules h2 ?_
  have h0 : (sources.foldl (fun g k => g.addInput k) ({} : Graph D J)).chain = [] := by
    obtain ⟨l, hl, _⟩ := foldl_addInput (D := D) (J := J) sources {}
    rw [hl]
  unfold buildGraph at h1
  split at h1
  · refine buildChain_total ?_ (fun p hp => ht p (by simp [hp])) h1
    intro n hn
    simp only [Graph.setJoin] at hn
    rw [h0] at hn; simp at hn
  · refine buildChain_total ?_ ht h1
    intro n hn
    rw [h0] at hn; simp at hn

/-- Exactly the declared inputs are given. -/
def ExactInputs (names : List String) (ins : List (String × ZSet D)) : Prop :=
  ins.length = names.length ∧ ∀ n ∈ names, ∃ z, ins.lookup n = some z

theorem process_total {g : Graph D J} {σ : Order D} {i : List (String × ZSet D)} (hc : ChainTotal g.chain)
    (hi : ExactInputs g.inputs i)
    (hj : (∃ ev ps, g.join = some (.incr ev g.inputs.length ps) ∧ ∀ ds, ∃ r, ev ds = .ok r) ∨
      (g.join = none ∧ g.inputs ≠ [])) :
    ∃ g' r, g.process σ i = (g', .ok r) ∧ ChainTotal g'.chain ∧ g'.inputs = g.inputs ∧
      ((∃ ev ps, g'.join = some (.incr ev g.inputs.length ps) ∧ ∀ ds, ∃ r, ev ds = .ok r) ∨
      (g'.join = none ∧ g.inputs ≠ [])) := by
  obtain ⟨zs, hzs⟩ := collectInputs_total hi.1 hi.2
  obtain ⟨hz, _⟩ := collectInputs_ok hzs
  have hlen : zs.length = g.inputs.length := by rw [hz]; simp [inputRow]
  unfold Graph.process
  rw [hzs]
  rcases hj with ⟨ev, ps, hj, hev⟩ | ⟨hj, hne⟩
  · simp only [hj, JoinOp.proc, incJoin]
    obtain ⟨r, hr⟩ := sumMasks_total hev (zs.map (σ 0)) ps [] (List.range' 1 (2 ^ g.inputs.length - 1))
    simp only [List.length_map, hlen, hr]
    obtain ⟨k1, r', k2⟩ := runChain_total (σ := σ) (i := 1) hc r
    rw [if_neg (by simp)]
    simp only
    cases hrun : runChain σ 1 g.chain r with
    | mk c' res =>
    rw [hrun] at k1 k2
    simp only at k2
    subst k2
    exact ⟨{ g with join := some (.incr ev g.inputs.length (List.zipWith ZSet.add ps (zs.map (σ 0)))), chain := c' }, r', by simp [hlen], k1, rfl, Or.inl ⟨ev, _, rfl, hev⟩⟩
  · simp only [hj]
    cases zs with
    | nil =>
      have : g.inputs = [] := List.eq_nil_of_length_eq_zero (by simpa using hlen.symm)
      exact absurd this hne
    | cons z zs =>
      simp only
      obtain ⟨k1, r', k2⟩ := runChain_total (σ := σ) (i := 1) hc z
      cases hrun : runChain σ 1 g.chain z with
      | mk c' res =>
      rw [hrun] at k1 k2
      simp only at k2
      subst k2
      exact ⟨{ g with chain := c' }, r', by simp [hj], k1, rfl, Or.inr ⟨hj, hne⟩⟩

theorem runs_total {g : Graph D J} (hc : ChainTotal g.chain)
    (hj : (∃ ev ps, g.join = some (.incr ev g.inputs.length ps) ∧ ∀ ds, ∃ r, ev ds = .ok r) ∨
      (g.join = none ∧ g.inputs ≠ [])) {hist : List (Order D × List (String × ZSet D))}
    (hi : ∀ e ∈ hist, ExactInputs g.inputs e.2) :
    ∃ outs : List (ZSet D), (runs (fun g e => Graph.process e.1 g e.2) g hist).2 = outs.map Except.ok := by
  induction hist generalizing g with
  | nil => exact ⟨[], rfl⟩
  | cons e t ih =>
    obtain ⟨g', r, h1, h2, h3, h4⟩ := process_total (σ := e.1) hc (hi e (by simp)) hj
    obtain ⟨outs, ho⟩ := ih (g := g') h2 (by rw [h3]; exact h4)
      (fun x hx => by rw [h3]; exact hi x (List.mem_cons_of_mem _ hx))
    refine ⟨r :: outs, ?_⟩
    simp only [runs, h1, ho, List.map_cons]

/-! ### reset -/

theorem Op.reset_proc (o : Op D J) (z : ZSet D) : (o.proc z).1.reset = o.reset := by
  cases o <;> rfl

theorem runChain_reset (σ : Order D) (i : Nat) (c : List (Node D J)) (z : ZSet D) :
    (runChain σ i c z).1.map (fun nd => { nd with op := nd.op.reset }) =
      c.map (fun nd => { nd with op := nd.op.reset }) := by
  induction c generalizing i z with
  | nil => rfl
  | cons nd t ih =>
    have h := Op.reset_proc nd.op (σ i z)
    cases hp : nd.op.proc (σ i z) with
    | mk o' res =>
    rw [hp] at h
    simp only at h
    cases res with
    | error e => simp [runChain, hp, h]
    | ok r => simp [runChain, hp, h, ih]

/-- The join, if any, is not the n-ary incremental one. -/
def NoIncr (g : Graph D J) : Prop := ∀ ev n ps, g.join ≠ some (.incr ev n ps)

theorem JoinOp.reset_proc (j : JoinOp D) (hj : ∀ ev n ps, j ≠ .incr ev n ps) (zs : List (ZSet D)) :
    (j.proc zs).1.reset = j.reset ∧ ∀ ev n ps, (j.proc zs).1 ≠ .incr ev n ps := by
  cases j with
  | incr ev n ps => exact absurd rfl (hj ev n ps)
  | snap ev n => exact ⟨rfl, by simp [JoinOp.proc]⟩
  | snapBin ev => unfold JoinOp.proc; split <;> simp_all
  | incrBin ev ps => unfold JoinOp.proc; split <;> simp_all [JoinOp.reset]

theorem process_reset {g : Graph D J} (hj : NoIncr g) (σ : Order D) (i : List (String × ZSet D)) :
    (g.process σ i).1.reset = g.reset ∧ NoIncr (g.process σ i).1 := by
  unfold Graph.process
  split
  · exact ⟨rfl, hj⟩
  · rename_i zs _
    split
    · rename_i j hjj
      have hj' : ∀ ev n ps, j ≠ .incr ev n ps := by intro ev n ps e; exact hj ev n ps (by rw [hjj, e])
      obtain ⟨h1, h2⟩ := JoinOp.reset_proc j hj' (zs.map (σ 0))
      cases hp : j.proc (zs.map (σ 0)) with
      | mk j' res =>
      rw [hp] at h1 h2
      simp only at h1 h2
      cases res with
      | error e =>
        refine ⟨by simp [Graph.reset, hjj, h1], ?_⟩
        intro ev n ps e; simp only [Option.some.injEq] at e; exact h2 _ _ _ e
      | ok r =>
        refine ⟨by simp [Graph.reset, hjj, h1, runChain_reset], ?_⟩
        intro ev n ps e; simp only [Option.some.injEq] at e; exact h2 _ _ _ e
    · rename_i hjj
      split
      · exact ⟨rfl, hj⟩
      · rename_i z _
        refine ⟨by simp [Graph.reset, hjj, runChain_reset], ?_⟩
        intro ev n ps e; exact hj ev n ps (by simpa using e)

theorem runs_reset {g : Graph D J} (hj : NoIncr g) (hist : List (Order D × List (String × ZSet D))) :
    (runs (fun g e => Graph.process e.1 g e.2) g hist).1.reset = g.reset := by
  induction hist generalizing g with
  | nil => rfl
  | cons e t ih =>
    obtain ⟨h1, h2⟩ := process_reset hj e.1 e.2
    simp only [runs]
    rw [ih h2, h1]

/-! ### snapshot conversion -/

/-- Selections and projections. -/
def PipeOp.isSelProj : PipeOp D J → Bool
  | .select _ => true
  | .project _ => true
  | _ => false

theorem Op.toSnapshot_lin {o : Op D J} {f : Ev D} (h : o.linEv = some f) :
    (o.isUnwind = false → o.toSnapshot = .ok o) ∧ (o.isUnwind = true → ∃ e, o.toSnapshot = .error e) := by
  cases o <;> simp_all [Op.linEv, Op.isUnwind, Op.toSnapshot]

theorem fuses_selProj {f : Ev D} {ss : List (PipeOp D J)} (h : Fuses f ss) :
    ss.all PipeOp.isSelProj = !ss.any PipeOp.isUnwind := by
  obtain ⟨fs, h, hx⟩ := h
  clear hx
  induction ss generalizing fs with
  | nil => rfl
  | cons s t ih =>
    cases fs with
    | nil => simp at h
    | cons f fs =>
      simp only [List.map_cons, List.cons.injEq] at h
      have := ih fs h.2
      cases s <;> simp_all [PipeOp.linEv, PipeOp.isSelProj, PipeOp.isUnwind]

theorem convertChain_refines {c : List (Node D J)} {st : List (PipeOp D J)} (h : Refines c st)
    (hl : liftCan c = false) :
    (st.all PipeOp.isSelProj = true → ∃ c', convertChain Op.toSnapshot c = .ok c' ∧ Refines c' st) ∧
    (st.all PipeOp.isSelProj = false → ∃ e, convertChain Op.toSnapshot c = .error e) := by
  induction h with
  | nil => exact ⟨fun _ => ⟨[], rfl, .nil⟩, by simp⟩
  | @lin nd f ss nds st hnd hf hu _ ih =>
    rw [liftCan_cons, Bool.or_eq_false_iff] at hl
    obtain ⟨i1, i2⟩ := ih hl.2
    obtain ⟨t1, t2⟩ := Op.toSnapshot_lin hnd
    have hsp := fuses_selProj hf
    rw [hu] at hsp
    rw [List.all_append, hsp]
    cases hun : nd.op.isUnwind with
    | true =>
      obtain ⟨e, he⟩ := t2 hun
      refine ⟨by simp, fun _ => ⟨e, ?_⟩⟩
      unfold convertChain; rw [he]
    | false =>
      simp only [Bool.not_false, Bool.true_and]
      refine ⟨fun h => ?_, fun h => ?_⟩
      · obtain ⟨c', hc1, hc2⟩ := i1 h
        refine ⟨⟨nd.op, false⟩ :: c', ?_, .lin hnd hf hu hc2⟩
        unfold convertChain; rw [t1 hun]; simp only [hc1]
      · obtain ⟨e, he⟩ := i2 h
        refine ⟨e, ?_⟩
        unfold convertChain; rw [t1 hun]; simp only [he]
  | triple _ ih =>
    refine ⟨by simp [PipeOp.isSelProj], fun _ => ⟨_, rfl⟩⟩
  | raw _ ih => simp [liftCan_cons, Op.isNonLinear] at hl

theorem dedup_nodup {l acc : List String} (h : (acc ++ l).Nodup) :
    l.foldl (fun acc n => if n ∈ acc then acc else acc ++ [n]) acc = acc ++ l := by
  induction l generalizing acc with
  | nil => simp
  | cons n t ih =>
    have hk : n ∉ acc := by
      rw [List.nodup_append] at h
      intro hm; exact h.2.2 n hm n (by simp) rfl
    rw [List.foldl_cons, if_neg hk, ih (by simpa using h)]
    simp

theorem runChain_stateless {σ : Order D} {i : Nat} {c : List (Node D J)} {z : ZSet D}
    (h : ∀ nd ∈ c, ∃ f, nd.op.linEv = some f) : (runChain σ i c z).1 = c := by
  induction c generalizing i z with
  | nil => rfl
  | cons nd t ih =>
    obtain ⟨f, hf⟩ := h nd (by simp)
    have iht := fun i z => ih (i := i) (z := z) (fun n hn => h n (List.mem_cons_of_mem _ hn))
    simp only [runChain, Op.proc_linEv hf]
    cases linProc f (σ i z) with
    | error e => rfl
    | ok r => simp [iht]

theorem Refines.lin_of_selProj {c : List (Node D J)} {st : List (PipeOp D J)} (h : Refines c st)
    (hs : st.all PipeOp.isSelProj = true) : ∀ nd ∈ c, ∃ f, nd.op.linEv = some f := by
  induction h with
  | nil => simp
  | @lin nd f ss nds st hnd _ _ _ ih =>
    rw [List.all_append, Bool.and_eq_true] at hs
    intro n hn
    rcases List.mem_cons.mp hn with rfl | hn
    · exact ⟨f, hnd⟩
    · exact ih hs.2 n hn
  | triple _ ih => simp [PipeOp.isSelProj] at hs
  | raw _ ih => simp [PipeOp.isSelProj] at hs

/-! ### the graph as written -/

theorem buildGraph_refines {sources : List String} {cfg : List (PipeOp D J)} {g : Graph D J}
    (h : buildGraph sources cfg = .ok g) :
    Refines g.chain (tailStages cfg) ∧
      g.join = (leadJoin cfg).map (fun ev => JoinOp.newIncremental ev sources.length) := by
  obtain ⟨l, hl, _⟩ := foldl_addInput (D := D) (J := J) sources {}
  by_cases hj : ∃ ev rest, cfg = .join ev :: rest
  · obtain ⟨ev, rest, rfl⟩ := hj
    simp only [buildGraph, hl] at h
    have hn : noJoin rest = true := by
      cases hn : noJoin rest with
      | true => rfl
      | false =>
        obtain ⟨e, he⟩ := buildChain_err (g := Graph.setJoin { inputs := l } (JoinOp.newIncremental ev sources.length)) hn
        simp only [h] at he; simp at he
    obtain ⟨c, hc, hr⟩ := buildChain_ok (g := Graph.setJoin { inputs := l } (JoinOp.newIncremental ev sources.length))
      (st := []) .nil hn
    rw [hc] at h
    simp only [Except.ok.injEq] at h
    subst h
    exact ⟨hr, rfl⟩
  · have hne : ∀ ev rest, cfg ≠ .join ev :: rest := fun ev rest e => hj ⟨ev, rest, e⟩
    rw [buildGraph_ne hne, hl] at h
    have hts : tailStages cfg = cfg := by
      unfold tailStages; split
      · exact absurd rfl (hne _ _)
      · rfl
    have hlj : leadJoin cfg = none := by
      unfold leadJoin; split
      · exact absurd rfl (hne _ _)
      · rfl
    have hn : noJoin cfg = true := by
      cases hn : noJoin cfg with
      | true => rfl
      | false =>
        obtain ⟨e, he⟩ := buildChain_err (g := ({ inputs := l } : Graph D J)) hn
        simp only [h] at he; simp at he
    obtain ⟨c, hc, hr⟩ := buildChain_ok (g := ({ inputs := l } : Graph D J)) (st := []) .nil hn
    rw [hc] at h
    simp only [Except.ok.injEq] at h
    subst h
    rw [hts, hlj]
    exact ⟨hr, rfl⟩

theorem newPipeline_accepted {sources : List String} {cfg : List (PipeOp D J)} {g : Graph D J}
    (h : newPipeline sources cfg = .ok g) : Accepted sources cfg := newPipeline_ok_iff.mp ⟨g, h⟩

theorem newPipeline_facts {sources : List String} {cfg : List (PipeOp D J)} {g : Graph D J}
    (h : newPipeline sources cfg = .ok g) :
    Refines g.chain (tailStages cfg) ∧ liftCan g.chain = false ∧
      g.join = (leadJoin cfg).map (fun ev => JoinOp.newIncremental ev sources.length) ∧
      g.inputs ≠ [] ∧ ((leadJoin cfg).isNone → g.inputs.length = 1) ∧ 0 < sources.length := by
  have ha := newPipeline_accepted h
  obtain ⟨g1, h1, h2, h3, h4, h5, h6, h7⟩ := newPipeline_spec ha
  rw [h] at h1
  simp only [Except.ok.injEq] at h1
  subst h1
  exact ⟨h2, h3, h4, h5, h6, List.length_pos_iff.mpr ha.1⟩

end Dctl
