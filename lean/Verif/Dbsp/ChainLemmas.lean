import Verif.Dbsp.JoinLemmas
import Verif.Dbsp.StagesMean
/-! Correctness of incremental execution of operator chains (helper lemmas). -/
set_option autoImplicit false
set_option linter.unusedSectionVars false
namespace Dctl
variable {D J : Type} [DecidableEq D] [DecidableEq J]
open ZSet

/-- The per-document function of a linear stage. -/
def PipeOp.linEv : PipeOp D J → Option (Ev D)
  | .select ev => some ev
  | .project ev => some ev
  | .unwind ex tr => some (unwindEv ex tr)
  | _ => none

theorem PipeOp.snap_linEv {s : PipeOp D J} {f : Ev D} (h : s.linEv = some f) (z : ZSet D) :
    s.snap z = linProc f z := by
  cases s <;> simp_all [PipeOp.linEv, PipeOp.snap, unwindProc_eq]

theorem linGo_mono {f f' : Ev D} (hff : ∀ x ds, f x = .ok ds → f' x = .ok ds) {acc z r : ZSet D}
    (h : linGo f acc z = .ok r) : linGo f' acc z = .ok r := by
  induction z generalizing acc with
  | nil => exact h
  | cons p t ih =>
    obtain ⟨x, m⟩ := p
    unfold linGo at h ⊢
    split at h
    · exact absurd h (by simp)
    · rename_i ds hx
      rw [hff _ _ hx]; exact ih h

/-- `f` refines the composition of the linear stages `ss`. -/
def Fuses (f : Ev D) (ss : List (PipeOp D J)) : Prop :=
  ∃ fs : List (Ev D), ss.map PipeOp.linEv = fs.map some ∧ ∀ x ds, f x = .ok ds → klList fs x = .ok ds

theorem StagesMean.eqv {ss : List (PipeOp D J)} {z z' o : ZSet D} (h : StagesMean ss z o) (hz : WF z)
    (hz' : WF z') (he : Eqv z z') : StagesMean ss z' o := by
  cases h with
  | nil h => exact .nil (he.symm.trans h)
  | cons hp hs ht => exact .cons (hp.trans (perm_of_eqv hz hz' he)) hs ht

theorem linProc_id {z m : ZSet D} (hz : WF z) (h : linProc (fun x => .ok [x]) z = .ok m) : Eqv m z := by
  intro d
  rw [linProc_get h, ← wsum_ind hz]
  apply wsum_congr
  intro x _
  simp [evSum, dsum]

theorem StagesMean.lin {fs : List (Ev D)} {ss rest : List (PipeOp D J)} {z m o : ZSet D}
    (hss : ss.map PipeOp.linEv = fs.map some) (hz : WF z) (h : linProc (klList fs) z = .ok m)
    (hr : StagesMean rest m o) : StagesMean (ss ++ rest) z o := by
  induction fs generalizing ss z m with
  | nil =>
    have : ss = [] := by simpa using hss
    subst this
    exact hr.eqv (linProc_wf h) hz (linProc_id hz h)
  | cons f fs ih =>
    cases ss with
    | nil => simp at hss
    | cons s ss =>
      simp only [List.map_cons, List.cons.injEq] at hss
      obtain ⟨m1, r', h1, h2, h3⟩ := linProc_kl h
      refine .cons (List.Perm.refl z) (by rw [PipeOp.snap_linEv hss.1]; exact h1) ?_
      exact ih hss.2 (linProc_wf h1) h2 (hr.eqv (linProc_wf h) (linProc_wf h2) h3.symm)

/-- Invariant of a running chain: `z` is the accumulated input, `o` the accumulated output. -/
inductive ChainInv : List (Node D J) → List (PipeOp D J) → ZSet D → ZSet D → Prop
  | nil {z o : ZSet D} : WF z → WF o → Eqv z o → ChainInv [] [] z o
  | lin {nd : Node D J} {f : Ev D} {ss : List (PipeOp D J)} {nds : List (Node D J)}
      {st : List (PipeOp D J)} {z m' m o : ZSet D} :
      nd.op.linEv = some f → Fuses f ss → WF z → WF m → linProc f z = .ok m' → Eqv m' m →
      ChainInv nds st m o → ChainInv (nd :: nds) (ss ++ st) z o
  | lifted {g : Gather D J} {b1 b2 b3 : Bool} {nds : List (Node D J)} {st : List (PipeOp D J)}
      {s p z z' m' m o : ZSet D} :
      WF z → WF m → WF s → WF p → Eqv s z → z'.Perm z → gatherProc g z' = .ok m' → Eqv p m' → Eqv m' m →
      ChainInv nds st m o →
      ChainInv (⟨.integ s, b1⟩ :: ⟨.gather g, b2⟩ :: ⟨.diff p, b3⟩ :: nds) (.gather g :: st) z o

theorem ChainInv.wf_in {nds : List (Node D J)} {st : List (PipeOp D J)} {z o : ZSet D}
    (h : ChainInv nds st z o) : WF z := by cases h <;> assumption

theorem ChainInv.wf_out {nds : List (Node D J)} {st : List (PipeOp D J)} {z o : ZSet D}
    (h : ChainInv nds st z o) : WF o := by
  induction h with
  | nil _ h _ => exact h
  | lin _ _ _ _ _ _ _ ih => exact ih
  | lifted _ _ _ _ _ _ _ _ _ _ ih => exact ih

theorem ChainInv.means {nds : List (Node D J)} {st : List (PipeOp D J)} {z o : ZSet D}
    (h : ChainInv nds st z o) : StagesMean st z o := by
  induction h with
  | nil _ _ h => exact .nil h
  | lin hnd hf hz hm h1 he _ ih =>
    obtain ⟨fs, hss, hfs⟩ := hf
    exact StagesMean.lin hss hz (linGo_mono hfs h1) (ih.eqv hm (linProc_wf h1) he.symm)
  | lifted hz hm hs hp h1 h2 h3 h4 h5 _ ih =>
    exact .cons h2 h3 (ih.eqv hm (gatherProc_wf h3) h5.symm)

theorem order_eqv {σ : Order D} (hσ : σ.Valid) (i : Nat) {z : ZSet D} (hz : WF z) :
    WF (σ i z) ∧ Eqv (σ i z) z := by
  have hp := (hσ i z)
  have hw : WF (σ i z) := hz.perm hp.symm
  exact ⟨hw, get_perm hw hp⟩

theorem ChainInv.step {nds : List (Node D J)} {st : List (PipeOp D J)} {z o : ZSet D}
    (h : ChainInv nds st z o) {σ : Order D} (hσ : σ.Valid) {i : Nat} {δ out : ZSet D} {nds' : List (Node D J)}
    (hδ : WF δ) (hrun : runChain σ i nds δ = (nds', .ok out)) :
    WF out ∧ ChainInv nds' st (z.add δ) (o.add out) := by
  induction h generalizing i δ nds' with
  | nil hz ho he =>
    simp only [runChain, Prod.mk.injEq, Except.ok.injEq] at hrun
    obtain ⟨rfl, rfl⟩ := hrun
    exact ⟨hδ, .nil (hz.add _) (ho.add _) (add_eqv hz ho hδ hδ he (Eqv.refl _))⟩
  | @lin nd f ss nds st z m' m o hnd hf hz hm h1 he _ ih =>
    unfold runChain at hrun
    rw [Op.proc_linEv hnd] at hrun
    split at hrun
    · simp at hrun
    · rename_i o' r hp
      simp only [Prod.mk.injEq] at hp
      obtain ⟨rfl, hr⟩ := hp
      cases hrest : runChain σ (i + 1) nds r with
      | mk nds'' res =>
      simp only [hrest, Prod.mk.injEq] at hrun
      obtain ⟨rfl, rfl⟩ := hrun
      obtain ⟨hwo, hci⟩ := ih (linProc_wf hr) hrest
      refine ⟨hwo, ?_⟩
      obtain ⟨hσw, hσe⟩ := order_eqv hσ i hδ
      obtain ⟨t, ht, hte⟩ := linProc_add h1 hr
      obtain ⟨t', ht', hte'⟩ := linProc_eqv (hz.add (σ i δ)) (hz.add δ)
        (add_eqv hz hz hσw hδ (Eqv.refl _) hσe) ht
      refine ChainInv.lin (m := m.add r) hnd hf (hz.add _) (hm.add _) ht' ?_ hci
      intro d
      rw [hte' d, hte d, get_add hm (linProc_wf hr), he d]
  | @lifted g b1 b2 b3 nds st s p z z' m' m o hz hm hs hp h1 h2 h3 h4 h5 _ ih =>
    obtain ⟨hσw, hσe⟩ := order_eqv hσ i hδ
    have hs1 : WF (s.add (σ i δ)) := hs.add _
    obtain ⟨hτw, hτe⟩ := order_eqv hσ (i + 1) hs1
    cases hg : gatherProc g (σ (i + 1) (s.add (σ i δ))) with
    | error e => simp [runChain, Op.proc, hg] at hrun
    | ok mm =>
      have hmm := gatherProc_wf hg
      obtain ⟨hρw, hρe⟩ := order_eqv hσ (i + 1 + 1) hmm
      cases hrest : runChain σ (i + 1 + 1 + 1) nds ((σ (i + 1 + 1) mm).sub p) with
      | mk nds'' res =>
      simp only [runChain, Op.proc, hg, hrest, Prod.mk.injEq] at hrun
      obtain ⟨rfl, rfl⟩ := hrun
      have hwd : WF ((σ (i + 1 + 1) mm).sub p) := hρw.sub _
      obtain ⟨hwo, hci⟩ := ih hwd hrest
      refine ⟨hwo, ?_⟩
      have hse : Eqv (s.add (σ i δ)) (z.add δ) := add_eqv hs hz hσw hδ h1 hσe
      refine ChainInv.lifted (m := m.add ((σ (i + 1 + 1) mm).sub p)) (hz.add _) (hm.add _) hs1 hρw hse
        ((hσ (i + 1) _).trans (perm_of_eqv hs1 (hz.add _) hse)) hg hρe ?_ hci
      intro d
      rw [get_add hm hwd, get_sub hρw hp, hρe d, h4 d, h5 d]; omega

/-! ### static refinement between chains and stage lists -/

/-- Unwind operators and stages. -/
def Op.isUnwind : Op D J → Bool
  | .unwind _ _ => true
  | _ => false
def PipeOp.isUnwind : PipeOp D J → Bool
  | .unwind _ _ => true
  | _ => false

/-- A chain in its initial state implements the stages. -/
inductive Refines : List (Node D J) → List (PipeOp D J) → Prop
  | nil : Refines [] []
  | lin {nd : Node D J} {f : Ev D} {ss : List (PipeOp D J)} {nds : List (Node D J)} {st : List (PipeOp D J)} :
      nd.op.linEv = some f → Fuses f ss → ss.any PipeOp.isUnwind = nd.op.isUnwind →
      Refines nds st → Refines (nd :: nds) (ss ++ st)
  | triple {g : Gather D J} {b1 b3 : Bool} {nds : List (Node D J)} {st : List (PipeOp D J)} :
      Refines nds st →
      Refines (⟨.integ [], b1⟩ :: ⟨.gather g, true⟩ :: ⟨.diff [], b3⟩ :: nds) (.gather g :: st)
  | raw {g : Gather D J} {nds : List (Node D J)} {st : List (PipeOp D J)} :
      Refines nds st → Refines (⟨.gather g, false⟩ :: nds) (.gather g :: st)

theorem isNonLinear_of_linEv {o : Op D J} {f : Ev D} (h : o.linEv = some f) : o.isNonLinear = false := by
  cases o <;> simp_all [Op.linEv, Op.isNonLinear]

theorem Refines.inv {nds : List (Node D J)} {st : List (PipeOp D J)} (h : Refines nds st)
    (hl : Rewrite.liftCan nds = false) : ChainInv nds st [] [] := by
  induction h with
  | nil => exact .nil WF.nil WF.nil (Eqv.refl _)
  | lin hnd hf _ _ ih =>
    refine .lin (m := []) hnd hf WF.nil WF.nil (m' := []) rfl (Eqv.refl _) (ih ?_)
    simp only [Rewrite.liftCan, List.any_cons, Bool.or_eq_false_iff] at hl ⊢
    exact hl.2
  | triple _ ih =>
    refine .lifted (m := []) (z' := []) WF.nil WF.nil WF.nil WF.nil (Eqv.refl _) (List.Perm.refl _) (m' := [])
      rfl (Eqv.refl _) (Eqv.refl _) (ih ?_)
    simp only [Rewrite.liftCan, List.any_cons, Bool.or_eq_false_iff] at hl ⊢
    exact hl.2.2.2
  | raw _ ih => simp [Rewrite.liftCan, Op.isNonLinear] at hl

theorem kl_mono {f f' g g' : Ev D} (hf : ∀ x ds, f x = .ok ds → f' x = .ok ds)
    (hg : ∀ x ds, g x = .ok ds → g' x = .ok ds) {x : D} {ds : List D} (h : kl f g x = .ok ds) :
    kl f' g' x = .ok ds := by
  unfold kl at h ⊢
  split at h
  · exact absurd h (by simp)
  · rename_i ys hys
    rw [hf _ _ hys]; exact bindDocs_mono hg h

theorem bindDocs_append {A B : Type} {f : A → Except Err (List B)} {xs ys : List A} {a b : List B}
    (hx : bindDocs f xs = .ok a) (hy : bindDocs f ys = .ok b) : bindDocs f (xs ++ ys) = .ok (a ++ b) := by
  induction xs generalizing a with
  | nil => simp only [bindDocs, Except.ok.injEq] at hx; subst hx; simpa using hy
  | cons x t ih =>
    unfold bindDocs at hx
    split at hx
    · exact absurd hx (by simp)
    · rename_i u hu
      split at hx
      · exact absurd hx (by simp)
      · rename_i v hv
        simp only [Except.ok.injEq] at hx; subst hx
        simp only [List.cons_append, bindDocs, hu, ih hv, List.append_assoc]

theorem bindDocs_bind {f g : Ev D} {xs ys zs : List D} (h : bindDocs f xs = .ok ys)
    (h' : bindDocs g ys = .ok zs) : bindDocs (kl f g) xs = .ok zs := by
  induction xs generalizing ys zs with
  | nil => simp only [bindDocs, Except.ok.injEq] at h; subst h; exact h'
  | cons x t ih =>
    unfold bindDocs at h
    split at h
    · exact absurd h (by simp)
    · rename_i u hu
      split at h
      · exact absurd h (by simp)
      · rename_i v hv
        simp only [Except.ok.injEq] at h; subst h
        have hu' : ∃ a, bindDocs g u = .ok a := by
          rw [bindDocs_ok_iff]; intro y hy
          exact bindDocs_ok_iff.mp ⟨zs, h'⟩ y (by simp [hy])
        have hv' : ∃ b, bindDocs g v = .ok b := by
          rw [bindDocs_ok_iff]; intro y hy
          exact bindDocs_ok_iff.mp ⟨zs, h'⟩ y (by simp [hy])
        obtain ⟨a, ha⟩ := hu'
        obtain ⟨b, hb⟩ := hv'
        have := bindDocs_append ha hb
        rw [h'] at this
        simp only [Except.ok.injEq] at this
        subst this
        have hkx : kl f g x = .ok a := by unfold kl; rw [hu]; exact ha
        simp only [bindDocs, hkx, ih hv hb]

theorem bindDocs_bind' {f g : Ev D} {xs zs : List D} (h : bindDocs (kl f g) xs = .ok zs) :
    ∃ ys, bindDocs f xs = .ok ys ∧ bindDocs g ys = .ok zs := by
  induction xs generalizing zs with
  | nil => exact ⟨[], rfl, h⟩
  | cons x t ih =>
    unfold bindDocs at h
    split at h
    · exact absurd h (by simp)
    · rename_i u hu
      split at h
      · exact absurd h (by simp)
      · rename_i v hv
        simp only [Except.ok.injEq] at h; subst h
        obtain ⟨ys, h1, h2⟩ := ih hv
        unfold kl at hu
        split at hu
        · exact absurd hu (by simp)
        · rename_i w hw
          exact ⟨w ++ ys, by simp [bindDocs, hw, h1], bindDocs_append hu h2⟩

theorem bindDocs_single (ds : List D) : bindDocs (fun x => Except.ok [x]) ds = .ok ds := by
  induction ds with
  | nil => rfl
  | cons d t ih => simp [bindDocs, ih]

theorem klList_append {fs gs : List (Ev D)} {x : D} {ds : List D}
    (h : kl (klList fs) (klList gs) x = .ok ds) : klList (fs ++ gs) x = .ok ds := by
  induction fs generalizing x ds with
  | nil =>
    simp only [klList, kl, bindDocs] at h
    split at h
    · simp at h
    · rename_i ys hys
      simp only [List.append_nil, Except.ok.injEq] at h
      simpa [h] using hys
  | cons f fs ih =>
    simp only [List.cons_append, klList]
    unfold kl at h
    split at h
    · exact absurd h (by simp)
    · rename_i ys hys
      simp only [klList] at hys
      unfold kl at hys ⊢
      split at hys
      · exact absurd hys (by simp)
      · rename_i ws hws
        exact bindDocs_mono (fun x ds hx => ih hx) (bindDocs_bind hys h)

theorem Fuses.seq {F f f' : Ev D} {ss ss' : List (PipeOp D J)} (h : Fuses f ss) (h' : Fuses f' ss')
    (hF : ∀ x ds, F x = .ok ds → kl f f' x = .ok ds) : Fuses F (ss ++ ss') := by
  obtain ⟨fs, h1, h2⟩ := h
  obtain ⟨fs', h1', h2'⟩ := h'
  refine ⟨fs ++ fs', by simp [h1, h1'], fun x ds hx => ?_⟩
  exact klList_append (kl_mono h2 h2' (hF x ds hx))

theorem Fuses.self {s : PipeOp D J} {f : Ev D} (h : s.linEv = some f) : Fuses f [s] := by
  refine ⟨[f], by simp [h], fun x ds hx => ?_⟩
  simp only [klList, kl, hx]
  exact bindDocs_single ds

theorem Fuses.id : Fuses (klList ([] : List (Ev D))) ([] : List (PipeOp D J)) := ⟨[], rfl, fun _ _ h => h⟩

open Rewrite

theorem Refines.spanProj {nds : List (Node D J)} {st : List (PipeOp D J)} (h : Refines nds st) :
    ∃ ss st', st = ss ++ st' ∧ Refines (spanProj nds).2 st' ∧ Fuses (klList (spanProj nds).1) ss ∧
      ss.any PipeOp.isUnwind = false := by
  induction h with
  | nil => exact ⟨[], [], rfl, .nil, Fuses.id, rfl⟩
  | @lin nd f ss nds st hnd hf hu hr ih =>
    obtain ⟨o, l⟩ := nd
    by_cases hp : ∃ p, o = .project p
    · obtain ⟨p, rfl⟩ := hp
      obtain ⟨ss', st', h1, h2, h3, h4⟩ := ih
      simp only [Op.linEv, Option.some.injEq] at hnd
      subst hnd
      refine ⟨ss ++ ss', st', by rw [h1, List.append_assoc], h2, ?_, ?_⟩
      · exact hf.seq h3 (fun x ds hx => hx)
      · rw [List.any_append, hu, h4]; rfl
    · have : Rewrite.spanProj (⟨o, l⟩ :: nds) = ([], ⟨o, l⟩ :: nds) := by
        cases o <;> simp_all [Rewrite.spanProj]
      rw [this]
      exact ⟨[], ss ++ st, rfl, .lin hnd hf hu hr, Fuses.id, rfl⟩
  | triple hr _ => exact ⟨[], _, rfl, .triple hr, Fuses.id, rfl⟩
  | raw hr _ => exact ⟨[], _, rfl, .raw hr, Fuses.id, rfl⟩

theorem Refines.of_eq {nds : List (Node D J)} {st st' : List (PipeOp D J)} (h : Refines nds st) (e : st = st') :
    Refines nds st' := e ▸ h

theorem fuseSPn_enough (n : Nat) (c : List (Node D J)) (h : c.length ≤ n) : fuseSPn n c = fuseSPn c.length c := by
  generalize hn : c.length = m at h
  induction m using Nat.strongRecOn generalizing n c with
  | _ m ih =>
  match c, n with
  | [], 0 => subst hn; rfl
  | [], n + 1 => subst hn; rfl
  | nd :: t, 0 => simp at hn; omega
  | nd :: t, n + 1 =>
    subst hn
    have h' : t.length ≤ n := by simpa using h
    have e1 := ih t.length (by simp) n t rfl h'
    have hl := spanProj_length t
    obtain ⟨o, l⟩ := nd
    have key : ∀ r, r = (spanProj t).2 → fuseSPn n r = fuseSPn t.length r := by
      intro r hr
      subst hr
      rw [ih (spanProj t).2.length (by simp; omega) n _ rfl (by omega),
        ih (spanProj t).2.length (by simp; omega) t.length _ rfl hl]
    cases o <;> simp only [List.length_cons, fuseSPn, e1] <;>
      (split
       · rfl
       · rename_i hs; rw [key _ (by rw [hs])])

theorem fuseSP_cons_other {nd : Node D J} {t : List (Node D J)} (h1 : ∀ s, nd.op ≠ .select s)
    (h2 : ∀ p, nd.op ≠ .project p) : fuseSP (nd :: t) = nd :: fuseSP t := by
  obtain ⟨o, l⟩ := nd
  cases o <;> first | (exact absurd rfl (h1 _)) | (exact absurd rfl (h2 _)) | rfl

theorem fuseSP_select {s : Ev D} {l : Bool} {t : List (Node D J)} :
    fuseSP (⟨.select s, l⟩ :: t) = match Rewrite.spanProj t with
      | ([], _) => ⟨.select s, l⟩ :: fuseSP t
      | (p :: ps, r) => ⟨.selProjs (some s) (p :: ps), l⟩ :: fuseSP r := by
  have hl := spanProj_length t
  simp only [fuseSP, List.length_cons, fuseSPn]
  rcases hs : spanProj t with ⟨_ | ⟨q, qs⟩, r⟩
  · rfl
  · rw [hs] at hl; simp only [fuseSPn_enough _ _ hl]

theorem fuseSP_project {p : Ev D} {l : Bool} {t : List (Node D J)} :
    fuseSP (⟨.project p, l⟩ :: t) = match Rewrite.spanProj t with
      | ([], _) => ⟨.project p, l⟩ :: fuseSP t
      | (q :: ps, r) => ⟨.selProjs none (p :: q :: ps), l⟩ :: fuseSP r := by
  have hl := spanProj_length t
  simp only [fuseSP, List.length_cons, fuseSPn]
  rcases hs : spanProj t with ⟨_ | ⟨q, qs⟩, r⟩
  · rfl
  · rw [hs] at hl; simp only [fuseSPn_enough _ _ hl]

theorem Refines.fuseSP {nds : List (Node D J)} {st : List (PipeOp D J)} (h : Refines nds st) :
    Refines (fuseSP nds) st := by
  generalize hn : nds.length = n
  induction n using Nat.strongRecOn generalizing nds st with
  | ind n ih =>
  cases h with
  | nil => exact .nil
  | @lin nd f ss nds st hnd hf hu hr =>
    obtain ⟨o, l⟩ := nd
    have ihr := ih nds.length (by simp at hn; omega) hr rfl
    obtain ⟨ss', st', h1, h2, h3, h4⟩ := hr.spanProj
    have hlen := spanProj_length nds
    by_cases hs : ∃ s, o = .select s
    · obtain ⟨s, rfl⟩ := hs
      rw [fuseSP_select]
      simp only [Op.linEv, Option.some.injEq] at hnd
      subst hnd
      split
      · exact .lin rfl hf hu ihr
      · rename_i p ps r hsp
        rw [hsp] at h2 h3 hlen
        refine (Refines.lin (f := selProjsEv (some s) (p :: ps)) (ss := ss ++ ss') (st := st') rfl ?_
          (by rw [List.any_append, hu, h4]; rfl) (ih r.length (by simp at hn hlen ⊢; omega) h2 rfl)).of_eq (by rw [h1, List.append_assoc])
        exact hf.seq h3 (fun x ds hx => selProjsEv_kl hx)
    · by_cases hp : ∃ p, o = .project p
      · obtain ⟨p, rfl⟩ := hp
        rw [fuseSP_project]
        simp only [Op.linEv, Option.some.injEq] at hnd
        subst hnd
        split
        · exact .lin rfl hf hu ihr
        · rename_i q ps r hsp
          rw [hsp] at h2 h3 hlen
          refine (Refines.lin (f := selProjsEv none (p :: q :: ps)) (ss := ss ++ ss') (st := st') rfl ?_
            (by rw [List.any_append, hu, h4]; rfl) (ih r.length (by simp at hn hlen ⊢; omega) h2 rfl)).of_eq (by rw [h1, List.append_assoc])
          exact hf.seq h3 (fun x ds hx => selProjsEv_kl hx)
      · rw [fuseSP_cons_other (fun s e => hs ⟨s, e⟩) (fun p e => hp ⟨p, e⟩)]
        exact .lin hnd hf hu ihr
  | @triple g b1 b3 nds st hr =>
    rw [fuseSP_cons_other (by simp) (by simp), fuseSP_cons_other (by simp) (by simp),
      fuseSP_cons_other (by simp) (by simp)]
    exact .triple (ih nds.length (by simp at hn; omega) hr rfl)
  | @raw g nds st hr =>
    rw [fuseSP_cons_other (by simp) (by simp)]
    exact .raw (ih nds.length (by simp at hn; omega) hr rfl)

theorem fusePS_cons_other {nd : Node D J} {t : List (Node D J)} (h : ∀ p, nd.op ≠ .project p) :
    fusePS (nd :: t) = nd :: fusePS t := by
  obtain ⟨o, l⟩ := nd
  cases o <;> first | (exact absurd rfl (h _)) | (rw [fusePS]; simp)

theorem fusePS_project_other {p : Ev D} {l : Bool} {t : List (Node D J)}
    (h : ∀ s l' t', t ≠ ⟨.select s, l'⟩ :: t') :
    fusePS (⟨.project p, l⟩ :: t) = ⟨.project p, l⟩ :: fusePS t := by
  rw [fusePS]; intro p' l' s l'' t' h1 h2; exact absurd h2 (h _ _ _)

theorem Refines.fusePS {nds : List (Node D J)} {st : List (PipeOp D J)} (h : Refines nds st) :
    Refines (fusePS nds) st := by
  generalize hn : nds.length = n
  induction n using Nat.strongRecOn generalizing nds st with
  | ind n ih =>
  cases h with
  | nil => rw [Rewrite.fusePS]; exact .nil
  | @lin nd f ss nds st hnd hf hu hr =>
    obtain ⟨o, l⟩ := nd
    have ihr := ih nds.length (by simp at hn; omega) hr rfl
    by_cases hp : ∃ p, o = .project p
    · obtain ⟨p, rfl⟩ := hp
      simp only [Op.linEv, Option.some.injEq] at hnd
      subst hnd
      by_cases hs : ∃ s l' t', nds = ⟨.select s, l'⟩ :: t'
      · obtain ⟨s, l', t', rfl⟩ := hs
        rw [Rewrite.fusePS]
        cases hr with
        | @lin _ f' ss' _ st' hnd' hf' hu' hr' =>
          simp only [Op.linEv, Option.some.injEq] at hnd'
          subst hnd'
          refine (Refines.lin (f := projSelEv p s) (ss := ss ++ ss') (st := st') rfl ?_
            (by rw [List.any_append, hu, hu']; rfl) (ih t'.length (by simp at hn; omega) hr' rfl)).of_eq (List.append_assoc ..)
          exact hf.seq hf' (fun x ds hx => hx)
      · rw [fusePS_project_other (fun s l' t' e => hs ⟨s, l', t', e⟩)]
        exact .lin rfl hf hu ihr
    · rw [fusePS_cons_other (fun p e => hp ⟨p, e⟩)]
      exact .lin hnd hf hu ihr
  | @triple g b1 b3 nds st hr =>
    rw [fusePS_cons_other (by simp), fusePS_cons_other (by simp), fusePS_cons_other (by simp)]
    exact .triple (ih nds.length (by simp at hn; omega) hr rfl)
  | @raw g nds st hr =>
    rw [fusePS_cons_other (by simp)]
    exact .raw (ih nds.length (by simp at hn; omega) hr rfl)

theorem Refines.lift {nds : List (Node D J)} {st : List (PipeOp D J)} (h : Refines nds st) :
    Refines (lift nds) st := by
  induction h with
  | nil => exact .nil
  | lin hnd hf hu _ ih =>
    simp only [Rewrite.lift, List.flatMap_cons, isNonLinear_of_linEv hnd] at ih ⊢
    exact .lin hnd hf hu ih
  | triple _ ih =>
    simp only [Rewrite.lift, List.flatMap_cons, Op.isNonLinear] at ih ⊢
    exact .triple ih
  | raw _ ih =>
    simp only [Rewrite.lift, List.flatMap_cons, Op.isNonLinear] at ih ⊢
    exact .triple ih

theorem liftCan_lift (c : List (Node D J)) : liftCan (lift c) = false := by
  induction c with
  | nil => rfl
  | cons nd t ih =>
    simp only [lift, liftCan, List.flatMap_cons, List.any_append, Bool.or_eq_false_iff] at ih ⊢
    refine ⟨?_, ih⟩
    split
    · simp [Op.newIntegrator, Op.newDifferentiator, Op.isNonLinear]
    · rename_i h; simpa using h

theorem liftCan_cons (nd : Node D J) (t : List (Node D J)) :
    liftCan (nd :: t) = ((nd.op.isNonLinear && !nd.lifted) || liftCan t) := by simp [liftCan]

theorem liftCan_spanProj {c : List (Node D J)} (h : liftCan c = false) : liftCan (spanProj c).2 = false := by
  induction c with
  | nil => exact h
  | cons nd t ih =>
    obtain ⟨o, l⟩ := nd
    rw [liftCan_cons, Bool.or_eq_false_iff] at h
    cases o <;> simp only [Rewrite.spanProj] <;>
      first | exact ih h.2 | (rw [liftCan_cons, Bool.or_eq_false_iff]; exact h)

theorem liftCan_fuseSP {c : List (Node D J)} (h : liftCan c = false) : liftCan (fuseSP c) = false := by
  generalize hn : c.length = n
  induction n using Nat.strongRecOn generalizing c with
  | ind n ih =>
  cases c with
  | nil => rfl
  | cons nd t =>
    have hlen := spanProj_length t
    have hl' := h
    rw [liftCan_cons, Bool.or_eq_false_iff] at hl'
    have hsp := liftCan_spanProj hl'.2
    have iht := ih t.length (by simp at hn; omega) hl'.2 rfl
    have ihs := ih (Rewrite.spanProj t).2.length (by simp at hn; omega) hsp rfl
    obtain ⟨o, l⟩ := nd
    by_cases hs : ∃ s, o = .select s
    · obtain ⟨s, rfl⟩ := hs
      rw [fuseSP_select]
      split
      · simp [liftCan_cons, iht, Op.isNonLinear]
      · rename_i r hr
        rw [hr] at ihs
        simp only at ihs
        rw [liftCan_cons, ihs]; simp [Op.isNonLinear]
    · by_cases hp : ∃ p, o = .project p
      · obtain ⟨p, rfl⟩ := hp
        rw [fuseSP_project]
        split
        · simp [liftCan_cons, iht, Op.isNonLinear]
        · rename_i r hr
          rw [hr] at ihs
          simp only at ihs
          rw [liftCan_cons, ihs]; simp [Op.isNonLinear]
      · rw [fuseSP_cons_other (fun s e => hs ⟨s, e⟩) (fun p e => hp ⟨p, e⟩), liftCan_cons, iht]
        simpa using hl'.1

theorem liftCan_fusePS {c : List (Node D J)} (h : liftCan c = false) : liftCan (fusePS c) = false := by
  fun_induction fusePS c with
  | case1 p l s l' t ih =>
    simp only [liftCan_cons, Bool.or_eq_false_iff] at h ⊢
    exact ⟨by simp [Op.isNonLinear], ih h.2.2⟩
  | case2 nd t _ ih =>
    rw [liftCan_cons, Bool.or_eq_false_iff] at h ⊢
    exact ⟨h.1, ih h.2⟩
  | case3 => rfl

/-- Is the head a projection / selection? -/
def headProj : List (Node D J) → Bool
  | ⟨.project _, _⟩ :: _ => true
  | _ => false
def headSel : List (Node D J) → Bool
  | ⟨.select _, _⟩ :: _ => true
  | _ => false

theorem hasSP_cons (nd : Node D J) (t : List (Node D J)) :
    hasSP (nd :: t) = ((headSel [nd] && headProj t) || hasSP t) := by
  obtain ⟨o, l⟩ := nd
  cases o <;> (cases t with
    | nil => simp [hasSP, headSel, headProj]
    | cons nd' t' =>
      obtain ⟨o', l'⟩ := nd'
      cases o' <;> simp [hasSP, headSel, headProj])

theorem hasPP_cons (nd : Node D J) (t : List (Node D J)) :
    hasPP (nd :: t) = ((headProj [nd] && headProj t) || hasPP t) := by
  obtain ⟨o, l⟩ := nd
  cases o <;> (cases t with
    | nil => simp [hasPP, headProj]
    | cons nd' t' =>
      obtain ⟨o', l'⟩ := nd'
      cases o' <;> simp [hasPP, headProj])

theorem hasPS_cons (nd : Node D J) (t : List (Node D J)) :
    hasPS (nd :: t) = ((headProj [nd] && headSel t) || hasPS t) := by
  obtain ⟨o, l⟩ := nd
  cases o <;> (cases t with
    | nil => simp [hasPS, headSel, headProj]
    | cons nd' t' =>
      obtain ⟨o', l'⟩ := nd'
      cases o' <;> simp [hasPS, headSel, headProj])

theorem headProj_spanProj_nil {t : List (Node D J)} (h : (Rewrite.spanProj t).1 = []) : headProj t = false := by
  cases t with
  | nil => rfl
  | cons nd t => obtain ⟨o, l⟩ := nd; cases o <;> simp_all [Rewrite.spanProj, headProj]

theorem headProj_fuseSP {t : List (Node D J)} (h : headProj t = false) : headProj (fuseSP t) = false := by
  cases t with
  | nil => rfl
  | cons nd t =>
    obtain ⟨o, l⟩ := nd
    by_cases hs : ∃ s, o = .select s
    · obtain ⟨s, rfl⟩ := hs
      rw [fuseSP_select]; split <;> rfl
    · by_cases hp : ∃ p, o = .project p
      · obtain ⟨p, rfl⟩ := hp; simp [headProj] at h
      · rw [fuseSP_cons_other (fun s e => hs ⟨s, e⟩) (fun p e => hp ⟨p, e⟩)]
        cases o <;> first | rfl | exact absurd ⟨_, rfl⟩ hp

/-- After one pass nothing is left for the σ→π / π→π fusion. -/
theorem fuseSP_done (c : List (Node D J)) : hasSP (fuseSP c) = false ∧ hasPP (fuseSP c) = false := by
  generalize hn : c.length = n
  induction n using Nat.strongRecOn generalizing c with
  | ind n ih =>
  cases c with
  | nil => exact ⟨rfl, rfl⟩
  | cons nd t =>
    have hlen := spanProj_length t
    have iht := ih t.length (by simp at hn; omega) t rfl
    have ihs := ih (Rewrite.spanProj t).2.length (by simp at hn; omega) _ rfl
    obtain ⟨o, l⟩ := nd
    by_cases hs : ∃ s, o = .select s
    · obtain ⟨s, rfl⟩ := hs
      rw [fuseSP_select]
      split
      · rename_i hsp
        have hh := headProj_fuseSP (headProj_spanProj_nil (t := t) (by rw [hsp]))
        have e : headProj [(⟨.select s, l⟩ : Node D J)] = false := rfl
        simp [hasSP_cons, hasPP_cons, iht, hh, e]
      · rename_i hsp
        rw [hsp] at ihs
        simp only at ihs
        simp [hasSP_cons, hasPP_cons, ihs, headProj, headSel]
    · by_cases hp : ∃ p, o = .project p
      · obtain ⟨p, rfl⟩ := hp
        rw [fuseSP_project]
        split
        · rename_i hsp
          have hh := headProj_fuseSP (headProj_spanProj_nil (t := t) (by rw [hsp]))
          simp [hasSP_cons, hasPP_cons, iht, hh, headSel]
        · rename_i hsp
          rw [hsp] at ihs
          simp only at ihs
          simp [hasSP_cons, hasPP_cons, ihs, headProj, headSel]
      · rw [fuseSP_cons_other (fun s e => hs ⟨s, e⟩) (fun p e => hp ⟨p, e⟩)]
        have h1 : headSel [(⟨o, l⟩ : Node D J)] = false := by
          cases o <;> first | rfl | exact absurd ⟨_, rfl⟩ hs
        have h2 : headProj [(⟨o, l⟩ : Node D J)] = false := by
          cases o <;> first | rfl | exact absurd ⟨_, rfl⟩ hp
        simp [hasSP_cons, hasPP_cons, iht, h1, h2]

theorem headProj_fusePS {t : List (Node D J)} (h : headProj t = false) : headProj (fusePS t) = false := by
  cases t with
  | nil => rfl
  | cons nd t =>
    obtain ⟨o, l⟩ := nd
    by_cases hp : ∃ p, o = .project p
    · obtain ⟨p, rfl⟩ := hp; simp [headProj] at h
    · rw [fusePS_cons_other (fun p e => hp ⟨p, e⟩)]
      cases o <;> first | rfl | exact absurd ⟨_, rfl⟩ hp

theorem headSel_fusePS {t : List (Node D J)} (h : headSel t = false) : headSel (fusePS t) = false := by
  fun_cases fusePS t
  · rfl
  · rename_i nd t' _
    obtain ⟨o, l⟩ := nd
    cases o <;> first | rfl | (simp [headSel] at h)
  · rfl

theorem fusePS_done {c : List (Node D J)} (h1 : hasSP c = false) (h2 : hasPP c = false) :
    hasSP (fusePS c) = false ∧ hasPP (fusePS c) = false ∧ hasPS (fusePS c) = false := by
  fun_induction fusePS c with
  | case1 p l s l' t ih =>
    simp only [hasSP_cons, hasPP_cons, Bool.or_eq_false_iff] at h1 h2
    obtain ⟨a, b, c⟩ := ih h1.2.2 h2.2.2
    simp [hasSP_cons, hasPP_cons, hasPS_cons, a, b, c, headProj, headSel]
  | case2 nd t hne ih =>
    simp only [hasSP_cons, hasPP_cons, Bool.or_eq_false_iff] at h1 h2
    obtain ⟨a, b, c⟩ := ih h1.2 h2.2
    have e1 : (headSel [nd] && headProj (fusePS t)) = false := by
      cases hx : headSel [nd]
      · rfl
      · have := h1.1; rw [hx, Bool.true_and] at this; simp [headProj_fusePS this]
    have e2 : (headProj [nd] && headProj (fusePS t)) = false := by
      cases hx : headProj [nd]
      · rfl
      · have := h2.1; rw [hx, Bool.true_and] at this; simp [headProj_fusePS this]
    have e3 : (headProj [nd] && headSel (fusePS t)) = false := by
      cases hx : headProj [nd]
      · rfl
      · rw [Bool.true_and]
        apply headSel_fusePS
        obtain ⟨o, l⟩ := nd
        cases o <;> simp [headProj] at hx
        cases t with
        | nil => rfl
        | cons nd' t' =>
          obtain ⟨o', l'⟩ := nd'
          cases o' <;> first | rfl | exact absurd rfl (hne _ _ _ _ _ rfl)
    simp [hasSP_cons, hasPP_cons, hasPS_cons, a, b, c, e1, e2, e3]
  | case3 => exact ⟨rfl, rfl, rfl⟩

theorem Refines.hasID {nds : List (Node D J)} {st : List (PipeOp D J)} (h : Refines nds st) :
    hasID nds = false ∧ hasDD nds = false := by
  induction h with
  | nil => exact ⟨rfl, rfl⟩
  | @lin nd f ss nds st hnd _ _ _ ih =>
    obtain ⟨o, l⟩ := nd
    cases o <;> simp_all [Op.linEv, Rewrite.hasID, hasDD]
  | triple _ ih => simp [Rewrite.hasID, hasDD, ih]
  | raw _ ih => simp [Rewrite.hasID, hasDD, ih]

end Dctl
