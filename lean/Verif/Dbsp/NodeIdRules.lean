import Verif.Dbsp.NodeIdRep
/-!
# The rewrite rules on graphs with and without node identifiers correspond
-/
set_option autoImplicit false
set_option linter.unusedSectionVars false
namespace Dctl
variable {D J : Type} [DecidableEq D] [DecidableEq J]
open Rewrite

namespace IdGraph

theorem Rep.inputs_nil {g : IdGraph D J} {a : Graph D J} (h : Rep g a) : g.inputs = [] ↔ a.inputs = [] := by
  have := h.len
  constructor
  · intro e; rw [e] at this; exact List.eq_nil_of_length_eq_zero this.symm
  · intro e; rw [e] at this; exact List.eq_nil_of_length_eq_zero this

theorem Rep.chain_nil {g : IdGraph D J} {a : Graph D J} (h : Rep g a) : g.chain = [] ↔ a.chain = [] := by
  have := h.chain.length
  constructor
  · intro e; rw [e] at this; exact List.eq_nil_of_length_eq_zero this.symm
  · intro e; rw [e] at this; exact List.eq_nil_of_length_eq_zero this

theorem Rep.join_nil {g : IdGraph D J} {a : Graph D J} (h : Rep g a) : g.joinNode = "" ↔ a.join = none := by
  rcases h.join with ⟨e1, e2⟩ | ⟨e1, j, l, e2, _⟩
  · simp [e1, e2]
  · simp [e1, e2]

/-- Another output. -/
theorem Rep.setOutput {g : IdGraph D J} {a : Graph D J} (h : Rep g a) {o : String} (ho : some o = g.lastNode) : Rep { g with output := o } a where
  wf := h.wf
  nodup := h.nodup
  chain := h.chain
  idx := h.idx
  len := h.len
  inNodup := h.inNodup
  names := h.names
  inNodes := h.inNodes
  join := h.join
  fresh := h.fresh
  noEmpty := h.noEmpty
  used := h.used
  output := fun _ => ho

theorem Rep.validate {g : IdGraph D J} {a : Graph D J} (h : Rep g a) : ∃ o, g.validate = ({ g with output := o }, a.validate) ∧ Rep { g with output := o } a := by
  unfold IdGraph.validate Graph.validate
  by_cases h1 : a.inputs = []
  · rw [if_pos (h.inputs_nil.mpr h1), if_pos h1]
    exact ⟨g.output, rfl, h⟩
  · rw [if_neg (fun e => h1 (h.inputs_nil.mp e)), if_neg h1, h.len]
    by_cases h2 : a.inputs.length > 1 ∧ a.join = none
    · rw [if_pos ⟨h2.1, h.join_nil.mpr h2.2⟩, if_pos ⟨h2.1, by simp [h2.2]⟩]
      exact ⟨g.output, rfl, h⟩
    · rw [if_neg (fun e : a.inputs.length > 1 ∧ g.joinNode = "" => h2 ⟨e.1, h.join_nil.mp e.2⟩),
        if_neg (fun e : a.inputs.length > 1 ∧ a.join.isNone = true => h2 ⟨e.1, by simpa using e.2⟩)]
      split
      · cases hc : g.chain.getLast? with
        | some id =>
          refine ⟨id, rfl, h.setOutput ?_⟩
          unfold lastNode
          rw [if_pos (fun e => by rw [e] at hc; simp at hc), hc]
        | none =>
          have hc' : g.chain = [] := by simpa using hc
          dsimp only
          by_cases hj : g.joinNode ≠ ""
          · rw [if_pos hj]
            refine ⟨g.joinNode, rfl, h.setOutput ?_⟩
            simp [lastNode, hc', hj]
          · rw [if_neg hj]
            have hj' : g.joinNode = "" := by simpa using hj
            have hl : g.inputs.length = 1 := by
              rw [h.len]
              have := h.join_nil.mp hj'
              have h3 : a.inputs.length ≠ 0 := fun e => h1 (List.eq_nil_of_length_eq_zero e)
              have h4 : ¬ a.inputs.length > 1 := fun e => h2 ⟨e, this⟩
              omega
            obtain ⟨id, hi⟩ := List.length_eq_one_iff.mp hl
            refine ⟨id, by rw [hi], h.setOutput ?_⟩
            simp [lastNode, hc', hj', hi]
      · exact ⟨g.output, rfl, h⟩

/-! ## Rules -/

theorem map_set_get {V : Type} {l : List String} (hn : l.Nodup) {i : Nat} {id : String} (hi : l[i]? = some id) (nodes : AMap String V) (v : V) :
    l.map (nodes.set id v).get = (l.map nodes.get).set i (some v) := by
  induction l generalizing i with
  | nil => simp at hi
  | cons x l ih =>
    obtain ⟨h1, h2⟩ := nodup_tail hn
    cases i with
    | zero =>
      simp only [List.getElem?_cons_zero, Option.some.injEq] at hi
      subst hi
      simp only [List.map_cons, List.set_cons_zero, AMap.get_set, if_true, List.cons.injEq, true_and]
      refine List.map_congr_left (fun y hy => ?_)
      rw [AMap.get_set, if_neg (fun e : x = y => h1 (e ▸ hy))]
    | succ i =>
      simp only [List.getElem?_cons_succ] at hi
      have : id ∈ l := List.mem_of_getElem? hi
      simp only [List.map_cons, List.set_cons_succ, ih h2 hi, List.cons.injEq, and_true]
      rw [AMap.get_set, if_neg (fun e : id = x => h1 (e ▸ this))]

theorem Rep.setAt {g : IdGraph D J} {a : Graph D J} (h : Rep g a) {i : Nat} {id : String} (hi : g.chain[i]? = some id) (nd : Node D J) :
    Rep { g with nodes := g.nodes.set id (encNode nd) } { a with chain := a.chain.set i nd } := by
  refine h.passSame ⟨h.wf.set _ _, List.Sublist.refl _, ?_, ?_, fun _ h1 h2 => absurd h1 h2⟩
  · show g.chain.map _ = _
    rw [map_set_get h.nodup hi, List.map_set, ← h.chain]
  · intro x hx
    rw [AMap.get_set, if_neg (fun e : id = x => hx (e ▸ List.mem_of_getElem? hi))]

theorem Rep.markLifted {g : IdGraph D J} {a : Graph D J} (h : Rep g a) {i : Nat} {nd : Node D J} (hi : a.chain[i]? = some nd) :
    ∃ g', g.markLifted i = some g' ∧ Rep g' { a with chain := a.chain.set i { nd with lifted := true } } := by
  obtain ⟨id, h1, h2⟩ := h.chain.get hi
  exact ⟨_, by simp only [IdGraph.markLifted, h1, h2]; rfl, h.setAt h1 { nd with lifted := true }⟩

theorem lift_append (c d : List (Node D J)) : lift (c ++ d) = lift c ++ lift d := by simp [lift]

theorem take_set_succ {c : List (Node D J)} {k : Nat} {nd : Node D J} (hk : c[k]? = some nd) : c.take (k + 1) = c.take k ++ [nd] := by
  rw [List.take_add_one, hk]; rfl

theorem Rep.liftFrom (k : Nat) {g : IdGraph D J} {a : Graph D J} (h : Rep g a) (hk : k ≤ a.chain.length) :
    ∃ g', liftFrom k g = some g' ∧ Rep g' { a with chain := lift (a.chain.take k) ++ a.chain.drop k } := by
  induction k generalizing g a with
  | zero => exact ⟨g, rfl, by simpa [lift] using h⟩
  | succ k ih =>
    have hk' : k < a.chain.length := by omega
    have hnd := List.getElem?_eq_getElem hk'
    generalize a.chain[k] = nd at hnd
    obtain ⟨id, h1, h2⟩ := h.chain.get hnd
    have hdrop : a.chain.drop k = nd :: a.chain.drop (k + 1) := by
      rw [List.drop_eq_getElem_cons hk']
      congr 1
      rw [List.getElem?_eq_getElem hk'] at hnd
      simpa using hnd
    rw [take_set_succ hnd, lift_append]
    simp only [IdGraph.liftFrom, h1, h2]
    have hop : (encNode nd).op = .chain nd.op := rfl
    have hli : (encNode nd).lifted = nd.lifted := rfl
    have hnl : (AnyOp.chain nd.op : AnyOp D J).isNonLinear = nd.op.isNonLinear := rfl
    rw [hop, hli, hnl]
    by_cases hc : (nd.op.isNonLinear && !nd.lifted) = true
    · rw [if_pos hc]
      dsimp only
      have hr := h.replaceInChain k Op.newIntegrator [nd.op, Op.newDifferentiator]
      have hchain : (a.replaceInChain k [Op.newIntegrator, nd.op, Op.newDifferentiator]).chain =
          a.chain.take k ++ (⟨Op.newIntegrator, false⟩ :: ⟨nd.op, false⟩ :: ⟨Op.newDifferentiator, false⟩ :: a.chain.drop (k + 1)) := by
        simp [Graph.replaceInChain, hk']
      have hlt : (a.chain.take k).length = k := by rw [List.length_take]; omega
      have hget : (a.replaceInChain k [Op.newIntegrator, nd.op, Op.newDifferentiator]).chain[k + 1]? = some ⟨nd.op, false⟩ := by
        rw [hchain, List.getElem?_append_right (by omega), hlt]
        simp
      obtain ⟨g1, e1, hr1⟩ := hr.markLifted hget
      rw [e1]
      have hset : (a.replaceInChain k [Op.newIntegrator, nd.op, Op.newDifferentiator]).chain.set (k + 1) ⟨nd.op, true⟩ =
          a.chain.take k ++ (⟨Op.newIntegrator, false⟩ :: ⟨nd.op, true⟩ :: ⟨Op.newDifferentiator, false⟩ :: a.chain.drop (k + 1)) := by
        rw [hchain, List.set_append_right _ _ (by omega), hlt]
        simp
      have hsame : { a.replaceInChain k [Op.newIntegrator, nd.op, Op.newDifferentiator] with
          chain := (a.replaceInChain k [Op.newIntegrator, nd.op, Op.newDifferentiator]).chain.set (k + 1) ⟨nd.op, true⟩ } =
          ({ a with chain := a.chain.take k ++ (⟨Op.newIntegrator, false⟩ :: ⟨nd.op, true⟩ :: ⟨Op.newDifferentiator, false⟩ :: a.chain.drop (k + 1)) } : Graph D J) := by
        rw [hset]
        simp [Graph.replaceInChain, hk']
      have hr2 : Rep g1 { a with chain := a.chain.take k ++ (⟨Op.newIntegrator, false⟩ :: ⟨nd.op, true⟩ :: ⟨Op.newDifferentiator, false⟩ :: a.chain.drop (k + 1)) } := by
        rw [← hsame]; exact hr1
      obtain ⟨g2, e2, hr3⟩ := ih hr2 (by simp only [List.length_append, hlt]; omega)
      refine ⟨g2, e2, ?_⟩
      have ht : (a.chain.take k ++ (⟨Op.newIntegrator, false⟩ :: ⟨nd.op, true⟩ :: ⟨Op.newDifferentiator, false⟩ :: a.chain.drop (k + 1))).take k = a.chain.take k := by
        rw [List.take_append_of_le_length (by omega), List.take_of_length_le (by omega)]
      have hd : (a.chain.take k ++ (⟨Op.newIntegrator, false⟩ :: ⟨nd.op, true⟩ :: ⟨Op.newDifferentiator, false⟩ :: a.chain.drop (k + 1))).drop k =
          ⟨Op.newIntegrator, false⟩ :: ⟨nd.op, true⟩ :: ⟨Op.newDifferentiator, false⟩ :: a.chain.drop (k + 1) := by
        rw [List.drop_append_of_le_length (by omega), List.drop_of_length_le (by omega)]; rfl
      dsimp only at hr3
      rw [ht, hd] at hr3
      have hl : lift [nd] = [⟨Op.newIntegrator, false⟩, ⟨nd.op, true⟩, ⟨Op.newDifferentiator, false⟩] := by
        simp only [lift, List.flatMap_cons, List.flatMap_nil, hc, if_true, List.append_nil]
      rw [hl, List.append_assoc]
      exact hr3
    · rw [if_neg hc]
      obtain ⟨g2, e2, hr3⟩ := ih h (by omega)
      refine ⟨g2, e2, ?_⟩
      have hl : lift [nd] = [nd] := by
        simp only [lift, List.flatMap_cons, List.flatMap_nil, if_neg hc, List.append_nil]
      rw [hl, List.append_assoc, List.singleton_append, ← hdrop]
      exact hr3

/-- The node of the join. -/
theorem Rep.setJoinNode {g : IdGraph D J} {a : Graph D J} (h : Rep g a) {j : JoinOp D} {l : Bool} (hne : g.joinNode ≠ "") (hj : g.nodes.get g.joinNode = some ⟨.join j, l⟩) (j' : JoinOp D) :
    Rep { g with nodes := g.nodes.set g.joinNode ⟨.join j', l⟩ } { a with join := some j' } where
  wf := h.wf.set _ _
  nodup := h.nodup
  chain := h.chain.congr (fun id hid => by rw [AMap.get_set, if_neg (fun e : g.joinNode = id => h.join_not_chain hj (e ▸ hid))])
  idx := h.idx
  len := h.len
  inNodup := h.inNodup
  names := h.names
  inNodes := by
    rw [← h.inNodes]
    refine List.map_congr_left (fun id hid => ?_)
    show (g.nodes.set _ _).get id = _
    rw [AMap.get_set, if_neg (fun e : g.joinNode = id => h.join_not_input hj (e ▸ hid))]
  join := Or.inr ⟨hne, j', l, rfl, by show (g.nodes.set _ _).get g.joinNode = _; simp [AMap.get_set]⟩
  fresh := by
    intro pre hp k hk
    have := h.fresh pre hp k hk
    show (g.nodes.set _ _).get _ = none
    rw [AMap.get_set, if_neg (fun e : g.joinNode = _ => by rw [e, this] at hj; simp at hj)]
    exact this
  noEmpty := by
    show (g.nodes.set _ _).get "" = none
    rw [AMap.get_set, if_neg hne]
    exact h.noEmpty
  used := by
    intro id n hn
    by_cases he : g.joinNode = id
    · rw [show (g.nodes.set _ _).get id = some ⟨.join j', l⟩ by rw [AMap.get_set, if_pos he]] at hn
      cases hn
      exact Or.inr (Or.inr ⟨j', rfl⟩)
    · rw [show (g.nodes.set _ _).get id = g.nodes.get id by rw [AMap.get_set, if_neg he]] at hn
      exact h.used id n hn
  output := h.output

/-- A rule with and without identifiers. -/
def RuleOk (r : IdRule D J) (s : Rule D J) : Prop :=
  ∀ g a, Rep g a → a.inputs ≠ [] → r.canApply g = some (s.canApply a) ∧
    (s.canApply a = true → ∃ g', r.apply g = some g' ∧ Rep g' (s.apply a) ∧ (s.apply a).inputs ≠ [])

theorem joinRule_ok : RuleOk (⟨joinCan, joinApply⟩ : IdRule D J) joinRule := by
  intro g a h hi
  rcases h.join with ⟨e1, e2⟩ | ⟨e1, j, l, e2, e3⟩
  · simp [joinCan, joinRule, e1, e2]
  · refine ⟨?_, ?_⟩
    · simp only [joinCan, if_neg e1, e3, joinRule, e2, AnyOp.incrementalize, Option.isSome_map]
    · intro hc
      simp only [joinRule, e2] at hc
      obtain ⟨j', hj'⟩ := Option.isSome_iff_exists.mp hc
      have hr := h.setJoinNode e1 e3 j'
      refine ⟨_, by simp only [joinApply, e3, AnyOp.incrementalize, hj', Option.map_some, Option.getD_some]; rfl, ?_, ?_⟩
      · simp only [joinRule, e2, hj']; exact hr
      · simpa only [joinRule, e2, hj'] using hi

theorem liftRule_ok : RuleOk (⟨liftCan, fun g => liftFrom g.chain.length g⟩ : IdRule D J) liftRule := by
  intro g a h hi
  refine ⟨?_, ?_⟩
  · simp only [liftCan, anyNode_enc h.chain, liftRule, Rewrite.liftCan]
    rfl
  · intro _
    obtain ⟨g', e, hr⟩ := h.liftFrom g.chain.length (by rw [h.chain.length]; exact Nat.le_refl _)
    refine ⟨g', e, ?_, hi⟩
    rw [h.chain.length, List.take_length, List.drop_length, List.append_nil] at hr
    exact hr

theorem chainIncRule_ok : RuleOk (⟨chainIncCan, fun g => (chainIncApply g.nodes g.chain).map (fun ns => { g with nodes := ns })⟩ : IdRule D J) chainIncRule := by
  intro g a h hi
  refine ⟨?_, by simp [chainIncRule]⟩
  simp only [chainIncCan, anyNode_enc h.chain, chainIncRule, encNode, AnyOp.incrementalize]
  simp

theorem lastNode_of {g : IdGraph D J} {c : List String} {id : String} (h : c.getLast? = some id) : lastNode { g with chain := c } = some id := by
  unfold lastNode
  have hc : c ≠ [] := fun e => by rw [e] at h; simp at h
  rw [if_pos hc]
  exact h

theorem elimDD_nil {c : List (Node D J)} (h : elimDD c = []) : c = [] := by
  fun_cases elimDD c <;> simp_all [elimDD]

theorem fusePS_nil {c : List (Node D J)} (h : fusePS c = []) : c = [] := by
  fun_cases fusePS c <;> simp_all [fusePS]

theorem fuseSPn_nil {n : Nat} {c : List (Node D J)} (h : fuseSPn n c = []) : c = [] := by
  fun_cases fuseSPn n c <;> simp_all [fuseSPn]

theorem idRule_ok : RuleOk (⟨idCan, fun g => (idLoop g.chain g.nodes []).map (fun r => { g with nodes := r.1, chain := r.2, output := idOutput { g with chain := r.2 } })⟩ : IdRule D J) idRule := by
  intro g a h hi
  refine ⟨by simp only [idCan, anyPair_enc h.chain, idRule, hasID_pairs], ?_⟩
  intro _
  obtain ⟨ns, ids, e, hp⟩ := idLoop_enc h.wf h.nodup h.chain []
  rw [List.nil_append] at e
  refine ⟨_, by dsimp only; rw [e]; rfl, h.pass hp ?_, hi⟩
  intro _
  unfold idOutput
  cases hl : ids.getLast? with
  | some id => exact (lastNode_of hl).symm
  | none =>
    have hids : ids = [] := by simpa using hl
    simp only
    by_cases hj : g.joinNode ≠ ""
    · simp [lastNode, hids, hj]
    · cases hin : g.inputs with
      | nil => exact absurd (h.inputs_nil.mp hin) hi
      | cons x l =>
        have hj' : g.joinNode = "" := by simpa using hj
        simp [lastNode, hids, hj']

theorem Rep.keepOutput {g : IdGraph D J} {a : Graph D J} (h : Rep g a) {ids : List String} (hids : ids = []) (hc : g.chain = []) :
    g.output ≠ "" → some g.output = lastNode { g with chain := ids } := by
  intro hne
  rw [h.output hne]
  subst hids
  unfold lastNode
  simp [hc]

theorem ddRule_ok : RuleOk (⟨ddCan, fun g => (ddLoop g.chain g.nodes []).map (fun r => { g with nodes := r.1, chain := r.2, output := r.2.getLast?.getD g.output })⟩ : IdRule D J) ddRule := by
  intro g a h hi
  refine ⟨by simp only [ddCan, anyPair_enc h.chain, ddRule, hasDD_pairs], ?_⟩
  intro _
  obtain ⟨ns, ids, e, hp⟩ := ddLoop_enc h.wf h.nodup h.chain []
  rw [List.nil_append] at e
  refine ⟨_, by dsimp only; rw [e]; rfl, h.pass hp ?_, hi⟩
  cases hl : ids.getLast? with
  | some id => intro _; simp only [Option.getD_some]; exact (lastNode_of hl).symm
  | none =>
    have hids : ids = [] := by simpa using hl
    simp only [Option.getD_none]
    refine h.keepOutput hids (h.chain_nil.mpr (elimDD_nil ?_))
    have := hp.enc
    rw [hids] at this
    exact enc_nil.mp this

theorem fuseOutput_ok {g : IdGraph D J} {a : Graph D J} (h : Rep g a) {ids : List String} {ns : AMap String (IdNode D J)} (hc : ids = [] → g.chain = []) :
    fuseOutput { g with nodes := ns, chain := ids } ≠ "" → some (fuseOutput { g with nodes := ns, chain := ids }) = lastNode { g with chain := ids } := by
  unfold fuseOutput
  cases hl : ids.getLast? with
  | some id => intro _; exact (lastNode_of hl).symm
  | none =>
    have hids : ids = [] := by simpa using hl
    by_cases hj : g.joinNode ≠ ""
    · intro _; simp [lastNode, hids, hj]
    · simp only [if_neg hj]
      exact h.keepOutput hids (hc hids)

theorem orElse_some (a b : Bool) : orElse (some a) (some b) = some (a || b) := by cases a <;> rfl

theorem fuseRule_ok : RuleOk (⟨fuseCan, fuseApply⟩ : IdRule D J) fuseRule := by
  intro g a h hi
  have e1 := hasSP_enc h.chain
  have e2 := (hasPP_enc h.chain).1
  have e3 : hasPS g.nodes g.chain = some (Rewrite.hasPS a.chain) := by rw [hasPS, anyPair_enc h.chain, hasPS_pairs]
  refine ⟨by simp only [fuseCan, e1, e2, e3, orElse_some, fuseRule, Bool.or_assoc], ?_⟩
  intro _
  simp only [fuseApply, e1, e2, e3, orElse_some, fuseRule]
  cases hb : (Rewrite.hasSP a.chain || Rewrite.hasPP a.chain) with
  | true =>
    obtain ⟨ns, ids, e, hp⟩ := fuseSPLoop_enc g.chain.length (Nat.le_refl _) h.wf h.nodup h.chain []
    rw [List.nil_append] at e
    simp only [e, if_true]
    rw [h.chain.length] at hp
    refine ⟨_, rfl, h.pass hp (fuseOutput_ok h ?_), hi⟩
    intro hids
    have := hp.enc
    rw [hids] at this
    exact h.chain_nil.mpr (fuseSPn_nil (enc_nil.mp this))
  | false =>
    cases hs : Rewrite.hasPS a.chain with
    | false => exact ⟨g, rfl, h, hi⟩
    | true =>
      obtain ⟨ns, ids, e, hp⟩ := fusePSLoop_enc h.wf h.nodup h.chain []
      rw [List.nil_append] at e
      simp only [e, if_true]
      refine ⟨_, rfl, h.pass hp (fuseOutput_ok h ?_), hi⟩
      intro hids
      have := hp.enc
      rw [hids] at this
      exact h.chain_nil.mpr (fusePS_nil (enc_nil.mp this))

theorem step_ok (rs : List (IdRule D J × Rule D J)) (hrs : ∀ p ∈ rs, RuleOk p.1 p.2) {g : IdGraph D J} {a : Graph D J} (h : Rep g a) (hi : a.inputs ≠ []) :
    ∃ g', step (rs.map Prod.fst) g = some (g', (Rewrite.step (rs.map Prod.snd) a).isSome) ∧ Rep g' ((Rewrite.step (rs.map Prod.snd) a).getD a) ∧
      ((Rewrite.step (rs.map Prod.snd) a).getD a).inputs ≠ [] := by
  induction rs with
  | nil => exact ⟨g, rfl, h, hi⟩
  | cons p rs ih =>
    obtain ⟨h1, h2⟩ := hrs p List.mem_cons_self g a h hi
    simp only [List.map_cons, step, Rewrite.step, h1]
    cases hc : p.2.canApply a with
    | true =>
      obtain ⟨g', e, hr, hi'⟩ := h2 hc
      exact ⟨g', by simp [e], hr, hi'⟩
    | false => exact ih (fun q hq => hrs q (List.mem_cons_of_mem _ hq))

theorem loop_ok (rs : List (IdRule D J × Rule D J)) (hrs : ∀ p ∈ rs, RuleOk p.1 p.2) (n : Nat) {g : IdGraph D J} {a : Graph D J} (h : Rep g a) (hi : a.inputs ≠ []) :
    ∃ g', loop (rs.map Prod.fst) n g = some (g', (loopG (rs.map Prod.snd) n a).2) ∧ Rep g' (loopG (rs.map Prod.snd) n a).1 := by
  induction n generalizing g a with
  | zero => exact ⟨g, rfl, h⟩
  | succ n ih =>
    obtain ⟨g', e, hr, hi'⟩ := step_ok rs hrs h hi
    simp only [loop, e, loopG]
    cases hs : Rewrite.step (rs.map Prod.snd) a with
    | some a' => rw [hs] at hr hi'; exact ih hr hi'
    | none => rw [hs] at hr; exact ⟨g', rfl, hr⟩

theorem Rep.optimize {g : IdGraph D J} {a : Graph D J} (h : Rep g a) : ∃ g', g.optimize = some (g', (optimizeG a).2) ∧ Rep g' (optimizeG a).1 := by
  obtain ⟨o, e, hr⟩ := h.validate
  unfold IdGraph.optimize optimizeG
  rw [e]
  cases hv : a.validate with
  | error er => exact ⟨_, rfl, hr⟩
  | ok u =>
    dsimp only
    have hi : a.inputs ≠ [] := by
      intro e'
      rw [Graph.validate, if_pos e'] at hv
      simp at hv
    refine loop_ok [(⟨joinCan, joinApply⟩, joinRule), (⟨liftCan, fun g => IdGraph.liftFrom g.chain.length g⟩, liftRule),
      (⟨chainIncCan, fun g => (chainIncApply g.nodes g.chain).map (fun ns => { g with nodes := ns })⟩, chainIncRule),
      (⟨idCan, fun g => (idLoop g.chain g.nodes []).map (fun r => { g with nodes := r.1, chain := r.2, output := idOutput { g with chain := r.2 } })⟩, idRule),
      (⟨ddCan, fun g => (ddLoop g.chain g.nodes []).map (fun r => { g with nodes := r.1, chain := r.2, output := r.2.getLast?.getD g.output })⟩, ddRule),
      (⟨fuseCan, fuseApply⟩, fuseRule)] ?_ 20 hr hi
    intro p hp
    simp only [List.mem_cons, List.not_mem_nil, or_false] at hp
    rcases hp with rfl | rfl | rfl | rfl | rfl | rfl
    · exact joinRule_ok
    · exact liftRule_ok
    · exact chainIncRule_ok
    · exact idRule_ok
    · exact ddRule_ok
    · exact fuseRule_ok

end IdGraph
end Dctl
