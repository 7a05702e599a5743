import Verif.Dbsp.MoreLemmas
import Verif.Spec.Defined
/-! Helper lemmas: chains that are defined on a set of documents do not fail on it. -/
set_option autoImplicit false
set_option linter.unusedSectionVars false
namespace Dctl
variable {D J : Type} [DecidableEq D] [DecidableEq J]
open ZSet Rewrite

/-- All documents of the Z-set are in `P`. -/
def InDom (P : D → Prop) (z : ZSet D) : Prop := ∀ x ∈ z.map Prod.fst, P x

theorem InDom.perm {P : D → Prop} {z w : ZSet D} (h : InDom P z) (hp : w.Perm z) : InDom P w :=
  fun x hx => h x ((hp.map _).mem_iff.mp hx)

theorem InDom.nil (P : D → Prop) : InDom P [] := by simp [InDom]

theorem InDom.add {P : D → Prop} {z w : ZSet D} (h : InDom P z) (h' : InDom P w) : InDom P (z.add w) := by
  intro x hx
  rcases mem_fst_add hx with hx | hx
  · exact h x hx
  · exact h' x hx

/-- The evaluator succeeds on `P`. -/
def EvOk (P : D → Prop) (f : Ev D) : Prop := ∀ x, P x → ∃ ds, f x = .ok ds

/-- What the evaluator makes of `P`. -/
def evImg (P : D → Prop) (f : Ev D) : D → Prop := fun y => ∃ x ds, P x ∧ f x = .ok ds ∧ y ∈ ds

/-- The operator succeeds on inputs in `P`, its state is in `P`. -/
def Op.OkOn (P : D → Prop) : Op D J → Prop
  | .project ev => ∀ x, P x → ∃ y, ev x = .ok [y]
  | .select ev => EvOk P ev
  | .unwind ex tr => EvOk P (unwindEv ex tr)
  | .projSel p s => EvOk P (projSelEv p s)
  | .selProjs s ps => EvOk P (selProjsEv s ps)
  | .gather g => (PipeOp.gather g).DefinedOn P
  | .distinct => True
  | .negate => True
  | .integ s => InDom P s
  | .diff s => InDom P s
  | .delay s => InDom P s

/-- The documents the operator makes of `P`. -/
def Op.img (P : D → Prop) : Op D J → D → Prop
  | .project ev => evImg P ev
  | .select ev => evImg P ev
  | .unwind ex tr => evImg P (unwindEv ex tr)
  | .projSel p s => evImg P (projSelEv p s)
  | .selProjs s ps => evImg P (selProjsEv s ps)
  | .gather g => (PipeOp.gather g).image P
  | _ => P

/-- Every operator is defined on what the ones before it make. -/
def OkChain : (D → Prop) → List (Node D J) → Prop
  | _, [] => True
  | P, nd :: t => nd.op.OkOn P ∧ OkChain (nd.op.img P) t

theorem evImg_mono {P Q : D → Prop} (h : ∀ x, P x → Q x) {f : Ev D} (y : D) (hy : evImg P f y) : evImg Q f y := by
  obtain ⟨x, ds, a, b⟩ := hy
  exact ⟨x, ds, h x a, b⟩

theorem Op.img_mono {P Q : D → Prop} (h : ∀ x, P x → Q x) (o : Op D J) (y : D) (hy : o.img P y) : o.img Q y := by
  cases o with
  | gather g =>
    obtain ⟨x, k, vs, a, b, c, e⟩ := hy
    exact ⟨x, k, vs, h x a, b, fun v hv => let ⟨w, h1, h2⟩ := c v hv; ⟨w, h w h1, h2⟩, e⟩
  | distinct | integ s | diff s | delay s | negate => exact h y hy
  | _ => exact evImg_mono h y hy

/-- Operators without state. -/
def Op.Stateless : Op D J → Prop
  | .integ s => s = []
  | .diff s => s = []
  | .delay s => s = []
  | _ => True

theorem Op.okOn_mono {P Q : D → Prop} (h : ∀ x, P x → Q x) {o : Op D J} (hs : o.Stateless) (ho : o.OkOn Q) : o.OkOn P := by
  cases o with
  | gather g =>
    refine ⟨fun x hx => ho.1 x (h x hx), fun x k vs hx hk hv => ho.2 x k vs (h x hx) hk (fun v hv' => ?_)⟩
    obtain ⟨w, h1, h2⟩ := hv v hv'
    exact ⟨w, h w h1, h2⟩
  | distinct | negate => trivial
  | integ s | diff s | delay s =>
    have : s = [] := hs
    subst this
    exact InDom.nil P
  | _ => exact fun x hx => ho x (h x hx)

/-- The chain has not run yet. -/
def FreshChain (c : List (Node D J)) : Prop := ∀ nd ∈ c, nd.op.Stateless

theorem FreshChain.tail {nd : Node D J} {c : List (Node D J)} (h : FreshChain (nd :: c)) : FreshChain c :=
  fun n hn => h n (List.mem_cons_of_mem _ hn)

theorem FreshChain.cons {nd : Node D J} {c : List (Node D J)} (h1 : nd.op.Stateless) (h : FreshChain c) : FreshChain (nd :: c) := by
  intro n hn
  rcases List.mem_cons.mp hn with rfl | hn
  · exact h1
  · exact h n hn

theorem OkChain.mono {c : List (Node D J)} (hc : FreshChain c) {P Q : D → Prop} (h : ∀ x, P x → Q x) (ho : OkChain Q c) : OkChain P c := by
  induction c generalizing P Q with
  | nil => trivial
  | cons nd t ih => exact ⟨Op.okOn_mono h (hc nd (by simp)) ho.1, ih hc.tail (fun y hy => Op.img_mono h _ y hy) ho.2⟩

/-! ### the rewrite rules -/

theorem fresh_elimID {c : List (Node D J)} (h : FreshChain c) : FreshChain (elimID c) := fun n hn => h n (mem_elimID hn)

theorem ok_elimID {c : List (Node D J)} : ∀ {P : D → Prop}, OkChain P c → OkChain P (elimID c) := by
  fun_induction elimID c with
  | case1 _ _ _ _ t ih => intro P h; exact ih h.2.2
  | case2 n t _ ih => intro P h; exact ⟨h.1, ih h.2⟩
  | case3 => intro P h; exact h

theorem fresh_elimDD {c : List (Node D J)} (h : FreshChain c) : FreshChain (elimDD c) := fun n hn => h n (mem_elimDD hn)

theorem ok_elimDD {c : List (Node D J)} : ∀ {P : D → Prop}, OkChain P c → OkChain P (elimDD c) := by
  fun_induction elimDD c with
  | case1 _ _ t ih => intro P h; exact ⟨trivial, ih h.2.2⟩
  | case2 n t _ ih => intro P h; exact ⟨h.1, ih h.2⟩
  | case3 => intro P h; exact h

theorem fresh_lift {c : List (Node D J)} (h : FreshChain c) : FreshChain (lift c) := by
  intro n hn
  simp only [lift, List.mem_flatMap] at hn
  obtain ⟨nd, hnd, hn⟩ := hn
  split at hn
  · simp only [List.mem_cons, List.not_mem_nil, or_false] at hn
    rcases hn with rfl | rfl | rfl
    · rfl
    · exact h nd hnd
    · rfl
  · simp only [List.mem_singleton] at hn; subst hn; exact h n hnd

theorem ok_lift {c : List (Node D J)} {P : D → Prop} (h : OkChain P c) : OkChain P (lift c) := by
  induction c generalizing P with
  | nil => trivial
  | cons nd t ih =>
    have hh : lift (nd :: t) = (if nd.op.isNonLinear && !nd.lifted then
      [⟨Op.newIntegrator, false⟩, ⟨nd.op, true⟩, ⟨Op.newDifferentiator, false⟩] else [nd]) ++ lift t := by
      simp [lift]
    rw [hh]
    split
    · exact ⟨InDom.nil _, h.1, InDom.nil _, ih h.2⟩
    · exact ⟨h.1, ih h.2⟩

theorem bind_one (s : Ev D) (y : D) {ds : List D} (h : s y = .ok ds) : bindDocs s [y] = .ok ds := by
  simp [bindDocs, h]

theorem fresh_fusePS {c : List (Node D J)} (h : FreshChain c) : FreshChain (fusePS c) := by
  fun_induction fusePS c with
  | case1 p l s l' t ih => exact FreshChain.cons trivial (ih h.tail.tail)
  | case2 nd t _ ih => exact FreshChain.cons (h nd (by simp)) (ih h.tail)
  | case3 => exact h

theorem ok_fusePS {c : List (Node D J)} : ∀ {P : D → Prop}, FreshChain c → OkChain P c → OkChain P (fusePS c) := by
  fun_induction fusePS c with
  | case1 p l s l' t ih =>
    intro P hf h
    obtain ⟨h1, h2, h3⟩ := h
    have key : ∀ x, P x → ∃ y ds, p x = .ok [y] ∧ s y = .ok ds ∧ projSelEv p s x = .ok ds := by
      intro x hx
      obtain ⟨y, hy⟩ := h1 x hx
      obtain ⟨ds, hds⟩ := h2 y ⟨x, [y], hx, hy, by simp⟩
      exact ⟨y, ds, hy, hds, by unfold projSelEv; rw [hy]; exact bind_one s y hds⟩
    refine ⟨fun x hx => let ⟨_, ds, _, _, h⟩ := key x hx; ⟨ds, h⟩, ?_⟩
    refine OkChain.mono (fresh_fusePS hf.tail.tail) (fun y hy => ?_) (ih hf.tail.tail h3)
    obtain ⟨x, ds, hx, he, hm⟩ := hy
    obtain ⟨w, ds', e1, e2, e3⟩ := key x hx
    rw [e3] at he
    cases he
    exact ⟨w, ds, ⟨x, [w], hx, e1, by simp⟩, e2, hm⟩
  | case2 nd t _ ih => intro P hf h; exact ⟨h.1, ih hf.tail h.2⟩
  | case3 => intro P _ h; exact h

theorem ok_span {t : List (Node D J)} : ∀ {P : D → Prop}, FreshChain t → OkChain P t →
    (∀ x, P x → ∃ y, projChain (spanProj t).1 x = .ok y) ∧ FreshChain (spanProj t).2 ∧
      OkChain (fun y => ∃ x, P x ∧ projChain (spanProj t).1 x = .ok y) (spanProj t).2 := by
  induction t with
  | nil => intro P _ _; exact ⟨fun x _ => ⟨x, rfl⟩, by simp [spanProj, FreshChain], trivial⟩
  | cons nd t ih =>
    intro P hf h
    obtain ⟨o, l⟩ := nd
    by_cases hp : ∃ p, o = .project p
    · obtain ⟨p, rfl⟩ := hp
      obtain ⟨h1, h2⟩ := h
      obtain ⟨i1, i2, i3⟩ := ih hf.tail h2
      simp only [spanProj]
      have key : ∀ x, P x → ∃ w, p x = .ok [w] ∧ evImg P p w ∧ projChain (p :: (spanProj t).1) x = projChain (spanProj t).1 w := by
        intro x hx
        obtain ⟨w, hw⟩ := h1 x hx
        exact ⟨w, hw, ⟨x, [w], hx, hw, by simp⟩, by simp [projChain, hw]⟩
      refine ⟨fun x hx => ?_, i2, OkChain.mono i2 (fun y hy => ?_) i3⟩
      · obtain ⟨w, _, e2, e3⟩ := key x hx
        rw [e3]
        exact i1 w e2
      · obtain ⟨x, hx, he⟩ := hy
        obtain ⟨w, _, e2, e3⟩ := key x hx
        rw [e3] at he
        exact ⟨w, e2, he⟩
    · have : spanProj (⟨o, l⟩ :: t) = ([], ⟨o, l⟩ :: t) := by
        cases o <;> simp_all [spanProj]
      rw [this]
      refine ⟨fun x _ => ⟨x, rfl⟩, hf, OkChain.mono hf (fun y hy => ?_) h⟩
      obtain ⟨x, hx, he⟩ := hy
      cases he
      exact hx

/-- The evaluator of a fused selection and projections in terms of its parts. -/
theorem selProjs_on {P : D → Prop} {s : Option (Ev D)} {ps : List (Ev D)} {Q : D → Prop}
    (hs : ∀ x, P x → ∃ ds : List D, ((match s with | some s => s x | none => .ok [x]) : Except Err (List D)) = .ok ds ∧ ∀ d ∈ ds, Q d)
    (hp : ∀ d, Q d → ∃ y, projChain ps d = .ok y) :
    EvOk P (selProjsEv s ps) ∧ ∀ y, evImg P (selProjsEv s ps) y → ∃ d, Q d ∧ projChain ps d = .ok y := by
  have key : ∀ ds : List D, (∀ d ∈ ds, Q d) → ∃ r, bindDocs (fun d => match projChain ps d with
        | .error e => .error e
        | .ok y => .ok [y]) ds = .ok r ∧ ∀ y ∈ r, ∃ d, Q d ∧ projChain ps d = .ok y := by
    intro ds
    induction ds with
    | nil => intro _; exact ⟨[], rfl, by simp⟩
    | cons d ds ih =>
      intro hq
      obtain ⟨y, hy⟩ := hp d (hq d (by simp))
      obtain ⟨r, hr, hm⟩ := ih (fun d hd => hq d (List.mem_cons_of_mem _ hd))
      refine ⟨y :: r, by simp only [bindDocs, hy, hr]; rfl, fun w hw => ?_⟩
      rcases List.mem_cons.mp hw with rfl | hw
      · exact ⟨d, hq d (by simp), hy⟩
      · exact hm w hw
  have main : ∀ x, P x → ∃ r, selProjsEv s ps x = .ok r ∧ ∀ y ∈ r, ∃ d, Q d ∧ projChain ps d = .ok y := by
    intro x hx
    obtain ⟨ds, h1, h2⟩ := hs x hx
    obtain ⟨r, hr, hm⟩ := key ds h2
    refine ⟨r, ?_, hm⟩
    unfold selProjsEv
    cases s with
    | none => simp only at h1 ⊢; cases h1; exact hr
    | some s => simp only at h1 ⊢; rw [h1]; exact hr
  refine ⟨fun x hx => let ⟨r, h, _⟩ := main x hx; ⟨r, h⟩, fun y hy => ?_⟩
  obtain ⟨x, ds, hx, he, hm⟩ := hy
  obtain ⟨r, hr, h2⟩ := main x hx
  rw [hr] at he
  cases he
  exact h2 y hm

theorem fuse_fuseSP {c : List (Node D J)} : FreshChain c → FreshChain (fuseSP c) ∧ ∀ {P : D → Prop}, OkChain P c → OkChain P (fuseSP c) := by
  generalize hn : c.length = n
  induction n using Nat.strongRecOn generalizing c with
  | ind n ih =>
  intro hf
  cases c with
  | nil => exact ⟨hf, fun h => h⟩
  | cons nd t =>
    have hlen := spanProj_length t
    obtain ⟨iht1, iht2⟩ := ih t.length (by simp at hn; omega) rfl hf.tail
    obtain ⟨o, l⟩ := nd
    have hfs : FreshChain (spanProj t).2 := fun n hn => hf.tail n ((spanProj_mem (c := t)).2 n hn)
    obtain ⟨ihs1, ihs2⟩ := ih (spanProj t).2.length (by simp at hn; omega) rfl hfs
    by_cases hs : ∃ s, o = .select s
    · obtain ⟨s, rfl⟩ := hs
      rw [fuseSP_select]
      split
      · exact ⟨FreshChain.cons trivial iht1, fun h => ⟨h.1, iht2 h.2⟩⟩
      · rename_i p ps r hr
        refine ⟨FreshChain.cons trivial (by rw [hr] at ihs1; exact ihs1), fun {P} h => ?_⟩
        obtain ⟨h1, h2⟩ := h
        obtain ⟨k1, k2, k3⟩ := ok_span hf.tail h2
        rw [hr] at k1 k2 k3 ihs1 ihs2
        obtain ⟨e1, e2⟩ := selProjs_on (P := P) (s := some s) (ps := p :: ps) (Q := evImg P s)
          (fun x hx => let ⟨ds, hds⟩ := h1 x hx; ⟨ds, hds, fun d hd => ⟨x, ds, hx, hds, hd⟩⟩) k1
        exact ⟨e1, OkChain.mono ihs1 e2 (ihs2 k3)⟩
    · by_cases hp : ∃ p, o = .project p
      · obtain ⟨p, rfl⟩ := hp
        rw [fuseSP_project]
        split
        · exact ⟨FreshChain.cons trivial iht1, fun h => ⟨h.1, iht2 h.2⟩⟩
        · rename_i q ps r hr
          refine ⟨FreshChain.cons trivial (by rw [hr] at ihs1; exact ihs1), fun {P} h => ?_⟩
          obtain ⟨k1, k2, k3⟩ := ok_span hf h
          have he : spanProj (⟨.project p, l⟩ :: t) = (p :: q :: ps, r) := by simp [spanProj, hr]
          rw [he] at k1 k2 k3
          rw [hr] at ihs1 ihs2
          obtain ⟨e1, e2⟩ := selProjs_on (P := P) (s := none) (ps := p :: q :: ps) (Q := P)
            (fun x hx => ⟨[x], rfl, fun d hd => by simp at hd; subst hd; exact hx⟩) k1
          exact ⟨e1, OkChain.mono ihs1 e2 (ihs2 k3)⟩
      · rw [fuseSP_cons_other (fun s e => hs ⟨s, e⟩) (fun p e => hp ⟨p, e⟩)]
        exact ⟨FreshChain.cons (hf ⟨o, l⟩ (by simp)) iht1, fun h => ⟨h.1, iht2 h.2⟩⟩

theorem ok_rules (P : D → Prop) : ∀ r ∈ (rules : List (Rule D J)), ∀ g, FreshChain g.chain ∧ OkChain P g.chain →
    FreshChain (r.apply g).chain ∧ OkChain P (r.apply g).chain := by
  intro r hr g hg
  simp only [rules, List.mem_cons, List.not_mem_nil, or_false] at hr
  rcases hr with rfl | rfl | rfl | rfl | rfl | rfl
  · simp only [joinRule]
    split
    · split <;> exact hg
    · exact hg
  · exact ⟨fresh_lift hg.1, ok_lift hg.2⟩
  · exact hg
  · exact ⟨fresh_elimID hg.1, ok_elimID hg.2⟩
  · exact ⟨fresh_elimDD hg.1, ok_elimDD hg.2⟩
  · simp only [fuseRule]
    split
    · exact ⟨(fuse_fuseSP hg.1).1, (fuse_fuseSP hg.1).2 hg.2⟩
    · split
      · exact ⟨fresh_fusePS hg.1, ok_fusePS hg.1 hg.2⟩
      · exact hg

/-! ### running a chain -/

theorem InDom.addDoc {P : D → Prop} {z : ZSet D} (h : InDom P z) {d : D} (hd : P d) (c : Int) : InDom P (z.addDoc d c) := by
  intro x hx
  rcases mem_fst_addDoc hx with rfl | hx
  · exact hd
  · exact h x hx

theorem InDom.tail {P : D → Prop} {p : D × Int} {z : ZSet D} (h : InDom P (p :: z)) : InDom P z :=
  fun x hx => h x (by rw [List.map_cons]; exact List.mem_cons_of_mem _ hx)

theorem InDom.head {P : D → Prop} {p : D × Int} {z : ZSet D} (h : InDom P (p :: z)) : P p.1 := h p.1 (by simp)

theorem InDom.sub {P : D → Prop} {z w : ZSet D} (h : InDom P z) (h' : InDom P w) : InDom P (z.sub w) := by
  unfold ZSet.sub
  induction w generalizing z with
  | nil => exact h
  | cons p t ih => exact ih (h.addDoc h'.head _) h'.tail

theorem InDom.distinct {P : D → Prop} {z : ZSet D} (h : InDom P z) : InDom P z.distinct := by
  unfold ZSet.distinct
  have : ∀ (acc : ZSet D), InDom P acc → InDom P (z.foldl (fun acc p => if p.2 > 0 then ZSet.addDoc acc p.1 1 else acc) acc) := by
    induction z with
    | nil => exact fun acc h => h
    | cons p t ih =>
      intro acc ha
      refine ih h.tail _ ?_
      dsimp only
      split
      · exact ha.addDoc h.head _
      · exact ha
  exact this [] (InDom.nil P)

theorem linProc_dom {P : D → Prop} {f : Ev D} (hf : EvOk P f) {z : ZSet D} (hz : InDom P z) :
    ∃ r, linProc f z = .ok r ∧ InDom (evImg P f) r := by
  obtain ⟨r, hr⟩ := linProc_ok_iff.mpr (fun x hx => hf x (hz x hx))
  refine ⟨r, hr, fun y hy => ?_⟩
  obtain ⟨x, hx, ds, h1, h2⟩ := linProc_mem hr hy
  exact ⟨x, ds, hz x hx, h1, h2⟩

/-- A group whose representative and values are from `P`. -/
def GroupIn (g : Gather D J) (P : D → Prop) (gr : Group D J) : Prop :=
  P gr.doc ∧ g.key gr.doc = .ok (some gr.key) ∧ ∀ v ∈ gr.vals, g.ValueOf P v

theorem applyMult_dom {vals : List J} {v w : J} {m : Int} (h : w ∈ applyMult vals v m) : w = v ∨ w ∈ vals := by
  unfold applyMult at h
  split at h
  · rcases List.mem_append.mp h with h | h
    · exact Or.inr h
    · exact Or.inl (List.mem_replicate.mp h).2
  · refine Or.inr ?_
    generalize (List.replicate (-m).toNat v) = l at h
    induction l generalizing vals with
    | nil => exact h
    | cons a t ih => exact List.mem_of_mem_erase (ih h)

theorem updGroup_in {g : Gather D J} {P : D → Prop} {k v : J} {x : D} {m : Int} (hx : P x) (hk : g.key x = .ok (some k))
    (hv : g.val x = .ok (some v)) {gs : List (Group D J)} (h : ∀ gr ∈ gs, GroupIn g P gr) :
    ∀ gr ∈ updGroup k v x m gs, GroupIn g P gr := by
  have hvo : g.ValueOf P v := ⟨x, hx, hv⟩
  induction gs with
  | nil =>
    intro gr hgr
    simp only [updGroup, List.mem_singleton] at hgr
    subst hgr
    refine ⟨hx, hk, fun w hw => ?_⟩
    rcases applyMult_dom hw with rfl | hw
    · exact hvo
    · simp at hw
  | cons g0 t ih =>
    intro gr hgr
    unfold updGroup at hgr
    have h0 := h g0 (by simp)
    split at hgr
    · rcases List.mem_cons.mp hgr with rfl | hgr
      · refine ⟨h0.1, h0.2.1, fun w hw => ?_⟩
        rcases applyMult_dom hw with rfl | hw
        · exact hvo
        · exact h0.2.2 w hw
      · exact h gr (List.mem_cons_of_mem _ hgr)
    · rcases List.mem_cons.mp hgr with rfl | hgr
      · exact h0
      · exact ih (fun gr hgr => h gr (List.mem_cons_of_mem _ hgr)) gr hgr

theorem gatherGroups_dom {g : Gather D J} {P : D → Prop} (ho : (PipeOp.gather g).DefinedOn P) {z : ZSet D} (hz : InDom P z)
    {gs : List (Group D J)} (h : ∀ gr ∈ gs, GroupIn g P gr) :
    ∃ gs', gatherGroups g gs z = .ok gs' ∧ ∀ gr ∈ gs', GroupIn g P gr := by
  induction z generalizing gs with
  | nil => exact ⟨gs, rfl, h⟩
  | cons p t ih =>
    obtain ⟨x, m⟩ := p
    obtain ⟨⟨ko, hk⟩, vo, hv⟩ := ho.1 x hz.head
    unfold gatherGroups
    rw [hk]
    cases ko with
    | none => exact ih hz.tail h
    | some k =>
      simp only [hv]
      cases vo with
      | none => exact ih hz.tail h
      | some v => exact ih hz.tail (updGroup_in hz.head hk hv h)

theorem gatherAgg_dom {g : Gather D J} {P : D → Prop} (ho : (PipeOp.gather g).DefinedOn P) {gs : List (Group D J)}
    (h : ∀ gr ∈ gs, GroupIn g P gr) {acc : ZSet D} (ha : InDom ((PipeOp.gather g).image P) acc) :
    ∃ r, gatherAgg g acc gs = .ok r ∧ InDom ((PipeOp.gather g).image P) r := by
  induction gs generalizing acc with
  | nil => exact ⟨acc, rfl, ha⟩
  | cons gr t ih =>
    obtain ⟨h1, h2, h3⟩ := h gr (by simp)
    obtain ⟨y, hy⟩ := ho.2 gr.doc gr.key gr.vals h1 h2 h3
    unfold gatherAgg
    rw [hy]
    exact ih (fun gr hgr => h gr (List.mem_cons_of_mem _ hgr)) (ha.addDoc ⟨gr.doc, gr.key, gr.vals, h1, h2, h3, hy⟩ _)

theorem Op.OkOn.proc {P : D → Prop} {o : Op D J} (h : o.OkOn P) {z : ZSet D} (hz : InDom P z) :
    (o.proc z).1.OkOn P ∧ (∀ y, (o.proc z).1.img P y ↔ o.img P y) ∧ ∃ r, (o.proc z).2 = .ok r ∧ InDom (o.img P) r := by
  cases o with
  | project ev => exact ⟨h, fun _ => Iff.rfl, linProc_dom (fun x hx => let ⟨y, hy⟩ := h x hx; ⟨[y], hy⟩) hz⟩
  | select ev => exact ⟨h, fun _ => Iff.rfl, linProc_dom h hz⟩
  | unwind ex tr =>
    refine ⟨h, fun _ => Iff.rfl, ?_⟩
    simp only [Op.proc, unwindProc_eq]
    exact linProc_dom h hz
  | projSel p s => exact ⟨h, fun _ => Iff.rfl, linProc_dom h hz⟩
  | selProjs s ps => exact ⟨h, fun _ => Iff.rfl, linProc_dom h hz⟩
  | gather g =>
    refine ⟨h, fun _ => Iff.rfl, ?_⟩
    obtain ⟨gs, hgs, hin⟩ := gatherGroups_dom h hz (gs := []) (by simp)
    obtain ⟨r, hr, hd⟩ := gatherAgg_dom h hin (InDom.nil _)
    exact ⟨r, by simp only [Op.proc, gatherProc, hgs, hr], hd⟩
  | distinct => exact ⟨h, fun _ => Iff.rfl, _, rfl, hz.distinct⟩
  | integ s => exact ⟨InDom.add h hz, fun _ => Iff.rfl, _, rfl, InDom.add h hz⟩
  | diff s => exact ⟨hz, fun _ => Iff.rfl, _, rfl, hz.sub h⟩
  | delay s => exact ⟨hz, fun _ => Iff.rfl, _, rfl, h⟩
  | negate => exact ⟨h, fun _ => Iff.rfl, _, rfl, (InDom.nil P).sub hz⟩

theorem runChain_dom {σ : Order D} (hσ : σ.Valid) {i : Nat} {c : List (Node D J)} {P : D → Prop} (h : OkChain P c) {z : ZSet D}
    (hz : InDom P z) : OkChain P (runChain σ i c z).1 ∧ ∃ r, (runChain σ i c z).2 = .ok r := by
  induction c generalizing i z P with
  | nil => exact ⟨h, z, rfl⟩
  | cons nd t ih =>
    obtain ⟨h1, hi, r, h2, hr⟩ := h.1.proc (hz.perm (hσ i z))
    cases hp : nd.op.proc (σ i z) with
    | mk o' res =>
    rw [hp] at h1 h2 hi
    simp only at h1 h2 hi
    subst h2
    obtain ⟨k1, k2⟩ := ih (i := i + 1) h.2 hr
    simp only [runChain, hp]
    have : o'.img P = nd.op.img P := funext fun y => propext (hi y)
    exact ⟨⟨h1, by rw [this]; exact k1⟩, k2⟩

/-! ### joins -/

/-- One set of documents for each Z-set. -/
def InDoms : List (D → Prop) → List (ZSet D) → Prop
  | [], [] => True
  | P :: Ps, z :: zs => InDom P z ∧ InDoms Ps zs
  | _, _ => False

/-- One document for each set. -/
def DocsIn : List (D → Prop) → List D → Prop
  | [], [] => True
  | P :: Ps, d :: ds => P d ∧ DocsIn Ps ds
  | _, _ => False

theorem tupleIn_iff {Ps : List (D → Prop)} {ds : List D} : TupleIn Ps ds ↔ DocsIn Ps ds := by
  induction Ps generalizing ds with
  | nil => cases ds <;> simp [TupleIn, DocsIn]
  | cons P Ps ih =>
    cases ds with
    | nil => simp [TupleIn, DocsIn]
    | cons d ds =>
      simp only [DocsIn, ← ih, TupleIn]
      constructor
      · rintro ⟨h1, h2⟩
        exact ⟨h2 0 P d rfl rfl, by simpa using h1, fun i Q e h3 h4 => h2 (i + 1) Q e h3 h4⟩
      · rintro ⟨h1, h2, h3⟩
        refine ⟨by simp [h2], fun i Q e h4 h5 => ?_⟩
        cases i with
        | zero => simp at h4 h5; subst h4; subst h5; exact h1
        | succ i => exact h3 i Q e h4 h5

theorem termInputs_in {Ps : List (D → Prop)} {ds ps : List (ZSet D)} (h1 : InDoms Ps ds) (h2 : InDoms Ps ps) (k : Nat) :
    InDoms Ps (termInputs ds ps k) := by
  induction Ps generalizing ds ps k with
  | nil => cases ds <;> cases ps <;> simp_all [InDoms, termInputs]
  | cons P Ps ih =>
    cases ds with
    | nil => exact absurd h1 (by simp [InDoms])
    | cons d ds =>
      cases ps with
      | nil => exact absurd h2 (by simp [InDoms])
      | cons p ps =>
        refine ⟨?_, ih h1.2 h2.2 _⟩
        split
        · exact h1.1
        · exact h2.1

theorem zipAdd_in {Ps : List (D → Prop)} {ds ps : List (ZSet D)} (h1 : InDoms Ps ps) (h2 : InDoms Ps ds) :
    InDoms Ps (List.zipWith ZSet.add ps ds) := by
  induction Ps generalizing ds ps with
  | nil => cases ds <;> cases ps <;> simp_all [InDoms]
  | cons P Ps ih =>
    cases ds with
    | nil => exact absurd h2 (by simp [InDoms])
    | cons d ds =>
      cases ps with
      | nil => exact absurd h1 (by simp [InDoms])
      | cons p ps => exact ⟨h1.1.add h2.1, ih h1.2 h2.2⟩

theorem InDoms.map {Ps : List (D → Prop)} {zs : List (ZSet D)} (h : InDoms Ps zs) {f : ZSet D → ZSet D} (hf : ∀ z, (f z).Perm z) :
    InDoms Ps (zs.map f) := by
  induction Ps generalizing zs with
  | nil => cases zs <;> simp_all [InDoms]
  | cons P Ps ih =>
    cases zs with
    | nil => exact absurd h (by simp [InDoms])
    | cons z zs => exact ⟨h.1.perm (hf z), ih h.2⟩

theorem InDoms.replicate (Ps : List (D → Prop)) : InDoms Ps (List.replicate Ps.length ([] : ZSet D)) := by
  induction Ps with
  | nil => trivial
  | cons P Ps ih => exact ⟨InDom.nil P, ih⟩

theorem InDoms.length {Ps : List (D → Prop)} {zs : List (ZSet D)} (h : InDoms Ps zs) : zs.length = Ps.length := by
  induction Ps generalizing zs with
  | nil => cases zs <;> simp_all [InDoms]
  | cons P Ps ih =>
    cases zs with
    | nil => exact absurd h (by simp [InDoms])
    | cons z zs => simp [ih h.2]

theorem sumTerms_dom {f : D → Int → Except Err (ZSet D)} {P Q : D → Prop} (hf : ∀ x k, P x → ∃ r, f x k = .ok r ∧ InDom Q r)
    {z : ZSet D} (hz : InDom P z) {acc : ZSet D} (ha : InDom Q acc) : ∃ r, sumTerms f acc z = .ok r ∧ InDom Q r := by
  induction z generalizing acc with
  | nil => exact ⟨acc, rfl, ha⟩
  | cons p t ih =>
    obtain ⟨x, m⟩ := p
    obtain ⟨r, h1, h2⟩ := hf x m hz.head
    unfold sumTerms
    rw [h1]
    exact ih hz.tail (ha.add h2)

theorem cart_dom {ev : JEv D} {Q : D → Prop} {Ps : List (D → Prop)} {docs : List D}
    (hev : ∀ ds, DocsIn Ps ds → ∃ r, ev (docs.reverse ++ ds) = .ok r ∧ ∀ y ∈ r, Q y) {zs : List (ZSet D)} (hz : InDoms Ps zs) (m : Int) :
    ∃ r, cartesianJoin ev zs docs m = .ok r ∧ InDom Q r := by
  induction Ps generalizing zs docs m with
  | nil =>
    cases zs with
    | cons z zs => exact absurd hz (by simp [InDoms])
    | nil =>
      obtain ⟨r, h1, h2⟩ := hev [] trivial
      unfold cartesianJoin
      rw [List.append_nil] at h1
      rw [h1]
      refine ⟨_, rfl, fun x hx => ?_⟩
      rcases mem_fst_emit hx with hx | hx
      · exact h2 x hx
      · simp at hx
  | cons P Ps ih =>
    cases zs with
    | nil => exact absurd hz (by simp [InDoms])
    | cons z zs =>
      unfold cartesianJoin
      refine sumTerms_dom (P := P) (fun x k hx => ih (fun ds hds => ?_) hz.2 _) hz.1 (InDom.nil Q)
      have := hev (x :: ds) ⟨hx, hds⟩
      simpa using this

theorem sumMasks_dom {ev : JEv D} {Q : D → Prop} {Ps : List (D → Prop)} (hev : ∀ ds, DocsIn Ps ds → ∃ r, ev ds = .ok r ∧ ∀ y ∈ r, Q y)
    {deltas prevs : List (ZSet D)} (h1 : InDoms Ps deltas) (h2 : InDoms Ps prevs) {acc : ZSet D} (ha : InDom Q acc) (ks : List Nat) :
    ∃ r, sumMasks ev deltas prevs acc ks = .ok r ∧ InDom Q r := by
  induction ks generalizing acc with
  | nil => exact ⟨acc, rfl, ha⟩
  | cons k ks ih =>
    obtain ⟨t, ht, hq⟩ := cart_dom (docs := []) (by simpa using hev) (termInputs_in h1 h2 k) 1
    unfold sumMasks
    rw [ht]
    exact ih (ha.add hq)

/-! ### the graph -/

/-- The documents the join makes. -/
def joinImg (Ps : List (D → Prop)) (ev : JEv D) : D → Prop := fun y => ∃ ds r, TupleIn Ps ds ∧ ev ds = .ok r ∧ y ∈ r

/-- The graph does not fail on inputs in `Ps`. -/
def GraphOk (Ps : List (D → Prop)) (g : Graph D J) : Prop :=
  (∃ ev ps, g.join = some (.incr ev g.inputs.length ps) ∧ g.inputs.length = Ps.length ∧ InDoms Ps ps ∧
    (∀ ds, TupleIn Ps ds → ∃ r, ev ds = .ok r) ∧ OkChain (joinImg Ps ev) g.chain) ∨
  (g.join = none ∧ ∃ P, Ps = [P] ∧ OkChain P g.chain)

theorem process_dom {Ps : List (D → Prop)} {g : Graph D J} (hg : GraphOk Ps g) {σ : Order D} (hσ : σ.Valid) {i : List (String × ZSet D)}
    (hi : ExactInputs g.inputs i) (hd : InDoms Ps (inputRow g.inputs i)) :
    ∃ g' r, g.process σ i = (g', .ok r) ∧ GraphOk Ps g' ∧ g'.inputs = g.inputs := by
  obtain ⟨zs, hzs⟩ := collectInputs_total hi.1 hi.2
  obtain ⟨hz, _⟩ := collectInputs_ok hzs
  have hlen : zs.length = g.inputs.length := by rw [hz]; simp [inputRow]
  rw [← hz] at hd
  unfold Graph.process
  rw [hzs]
  rcases hg with ⟨ev, ps, hj, hl, hps, hev, hc⟩ | ⟨hj, P, hP, hc⟩
  · simp only [hj, JoinOp.proc, incJoin]
    have hd' := hd.map (f := σ 0) (hσ 0)
    obtain ⟨r, hr, hq⟩ := sumMasks_dom (Q := joinImg Ps ev) (fun ds hds => by
      obtain ⟨r, hr⟩ := hev ds (tupleIn_iff.mpr hds)
      exact ⟨r, hr, fun y hy => ⟨ds, r, tupleIn_iff.mpr hds, hr, hy⟩⟩) hd' hps (InDom.nil _) (List.range' 1 (2 ^ g.inputs.length - 1))
    simp only [List.length_map, hlen, hr]
    obtain ⟨k1, r', k2⟩ := runChain_dom hσ (i := 1) hc hq
    rw [if_neg (by simp)]
    simp only
    cases hrun : runChain σ 1 g.chain r with
    | mk c' res =>
    rw [hrun] at k1 k2
    simp only at k2
    subst k2
    exact ⟨{ g with join := some (.incr ev g.inputs.length (List.zipWith ZSet.add ps (zs.map (σ 0)))), chain := c' }, r', by simp,
      Or.inl ⟨ev, _, rfl, hl, zipAdd_in hps hd', hev, k1⟩, rfl⟩
  · subst hP
    simp only [hj]
    cases zs with
    | nil => exact absurd hd (by simp [InDoms])
    | cons z zs =>
      simp only
      obtain ⟨k1, r', k2⟩ := runChain_dom hσ (i := 1) hc hd.1
      cases hrun : runChain σ 1 g.chain z with
      | mk c' res =>
      rw [hrun] at k1 k2
      simp only at k2
      subst k2
      exact ⟨{ g with chain := c' }, r', by simp [hj], Or.inr ⟨hj, P, rfl, k1⟩, rfl⟩

theorem PipeOp.DefinedOn.op {P : D → Prop} {p : PipeOp D J} (h : p.DefinedOn P) {o : Op D J} (ho : p.toOp = .ok o) :
    o.Stateless ∧ o.OkOn P ∧ ∀ y, o.img P y → p.image P y := by
  cases p with
  | join ev => exact absurd h (by simp [PipeOp.DefinedOn])
  | select ev => simp only [PipeOp.toOp, Except.ok.injEq] at ho; subst ho; exact ⟨trivial, h, fun y hy => hy⟩
  | gather g => simp only [PipeOp.toOp, Except.ok.injEq] at ho; subst ho; exact ⟨trivial, h, fun y hy => hy⟩
  | project ev =>
    simp only [PipeOp.toOp, Except.ok.injEq] at ho; subst ho
    refine ⟨trivial, h, fun y hy => ?_⟩
    obtain ⟨x, ds, hx, he, hm⟩ := hy
    obtain ⟨w, hw⟩ := h x hx
    rw [hw] at he
    cases he
    simp only [List.mem_singleton] at hm
    subst hm
    exact ⟨x, hx, hw⟩
  | unwind ex tr =>
    simp only [PipeOp.toOp, Except.ok.injEq] at ho; subst ho
    have key : ∀ x, P x → ∃ ds, unwindEv ex tr x = .ok ds ∧ ∀ y ∈ ds, ∃ es e, ex x = .ok (some es) ∧ e ∈ es ∧ tr x e = .ok y := by
      intro x hx
      obtain ⟨r, hr, hes⟩ := h x hx
      unfold unwindEv
      rw [hr]
      cases r with
      | none => exact ⟨[], rfl, by simp⟩
      | some es =>
        have hb : ∀ l : List _, (∀ e ∈ l, e ∈ es) → ∃ ds, bindDocs (fun e => match tr x e with
            | .error e => .error e
            | .ok d => .ok [d]) l = .ok ds ∧ ∀ y ∈ ds, ∃ e, e ∈ es ∧ tr x e = .ok y := by
          intro l
          induction l with
          | nil => intro _; exact ⟨[], rfl, by simp⟩
          | cons e l ih =>
            intro hl
            obtain ⟨y, hy⟩ := hes es rfl e (hl e (by simp))
            obtain ⟨ds, hds, hm⟩ := ih (fun e he => hl e (List.mem_cons_of_mem _ he))
            refine ⟨y :: ds, by simp only [bindDocs, hy, hds]; rfl, fun w hw => ?_⟩
            rcases List.mem_cons.mp hw with rfl | hw
            · exact ⟨e, hl e (by simp), hy⟩
            · exact hm w hw
        obtain ⟨ds, h1, h2⟩ := hb es (fun _ h => h)
        exact ⟨ds, h1, fun y hy => let ⟨e, a, b⟩ := h2 y hy; ⟨es, e, rfl, a, b⟩⟩
    refine ⟨trivial, fun x hx => let ⟨ds, hds, _⟩ := key x hx; ⟨ds, hds⟩, fun y hy => ?_⟩
    obtain ⟨x, ds, hx, he, hm⟩ := hy
    obtain ⟨ds', h1, h2⟩ := key x hx
    rw [h1] at he
    cases he
    obtain ⟨es, e, a, b, c⟩ := h2 y hm
    exact ⟨x, es, e, hx, a, b, c⟩

theorem okChain_append {c : List (Node D J)} {P : D → Prop} {nd : Node D J} :
    OkChain P (c ++ [nd]) ↔ OkChain P c ∧ nd.op.OkOn (c.foldl (fun Q n => n.op.img Q) P) := by
  induction c generalizing P with
  | nil => simp [OkChain]
  | cons a c ih => simp only [List.cons_append, OkChain, ih, List.foldl_cons, and_assoc]

theorem buildChain_dom {ps : List (PipeOp D J)} {g g' : Graph D J} (h : buildChain g ps = .ok g') {P Q : D → Prop}
    (hf : FreshChain g.chain) (hg : OkChain P g.chain) (hQ : ∀ y, g.chain.foldl (fun Q n => n.op.img Q) P y → Q y)
    (hp : DefinedStages ps Q) : FreshChain g'.chain ∧ OkChain P g'.chain := by
  induction ps generalizing g Q with
  | nil => simp only [buildChain, Except.ok.injEq] at h; subst h; exact ⟨hf, hg⟩
  | cons p ps ih =>
    unfold buildChain at h
    split at h
    · simp at h
    · rename_i o ho
      obtain ⟨h1, h2, h3⟩ := hp.1.op ho
      refine ih h ?_ ?_ ?_ hp.2
      · intro n hn
        simp only [Graph.addToChain, List.mem_append, List.mem_singleton] at hn
        rcases hn with hn | rfl
        · exact hf n hn
        · exact h1
      · simp only [Graph.addToChain]
        exact okChain_append.mpr ⟨hg, Op.okOn_mono hQ h1 h2⟩
      · intro y hy
        simp only [Graph.addToChain, List.foldl_append, List.foldl_cons, List.foldl_nil] at hy
        exact h3 y (Op.img_mono hQ o y hy)

theorem newPipeline_ok {sources : List String} {cfg : List (PipeOp D J)} {g : Graph D J} (hnew : newPipeline sources cfg = .ok g)
    (hs : sources.Nodup) {Ps : List (D → Prop)} (hl : Ps.length = sources.length) (hd : DefinedPipeline cfg Ps) : GraphOk Ps g := by
  obtain ⟨f1, f2, f3, f4, f5, f6⟩ := newPipeline_facts hnew
  have hin := (newPipeline_inputs hnew).2 hs
  obtain ⟨g0, h1, h2⟩ := newPipeline_parts hnew
  have h0 : (sources.foldl (fun g k => g.addInput k) ({} : Graph D J)).chain = [] := by
    obtain ⟨l, hl, _⟩ := foldl_addInput (D := D) (J := J) sources {}
    rw [hl]
  have hopt : ∀ P : D → Prop, FreshChain g0.chain ∧ OkChain P g0.chain → OkChain P g.chain := fun P h =>
    (optimize_pres (P := fun g => FreshChain g.chain ∧ OkChain P g.chain) (ok_rules P) h2 h).2
  cases hlj : leadJoin cfg with
  | none =>
    rw [hlj] at f3 f5
    right
    refine ⟨f3, ?_⟩
    have h1l : Ps.length = 1 := by rw [hl, ← hin]; exact f5 rfl
    obtain ⟨P, rfl⟩ := List.length_eq_one_iff.mp h1l
    refine ⟨P, rfl, hopt P ?_⟩
    have hds : DefinedStages cfg P := by
      unfold DefinedPipeline at hd
      split at hd
      · simp [leadJoin] at hlj
      · exact hd P rfl
    unfold buildGraph at h1
    split at h1
    · simp [leadJoin] at hlj
    · refine buildChain_dom h1 ?_ ?_ ?_ hds
      · intro n hn; rw [h0] at hn; simp at hn
      · rw [h0]; trivial
      · rw [h0]; exact fun y hy => hy
  | some ev =>
    rw [hlj] at f3
    left
    unfold leadJoin at hlj
    split at hlj
    · rename_i ev' rest
      simp only [Option.some.injEq] at hlj
      subst hlj
      refine ⟨ev', _, by rw [f3, hin]; rfl, by rw [hin, hl], by rw [← hl]; exact InDoms.replicate Ps, hd.1, hopt _ ?_⟩
      refine buildChain_dom h1 ?_ ?_ ?_ hd.2
      · intro n hn; simp only [Graph.setJoin] at hn; rw [h0] at hn; simp at hn
      · simp only [Graph.setJoin]; rw [h0]; trivial
      · simp only [Graph.setJoin]; rw [h0]; exact fun y hy => hy
    · simp at hlj

end Dctl
