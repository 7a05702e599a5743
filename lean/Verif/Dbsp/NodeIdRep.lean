import Verif.Dbsp.NodeIdLemmas
/-!
# Calls on graphs with and without node identifiers correspond
-/
set_option autoImplicit false
set_option linter.unusedSectionVars false
namespace Dctl
variable {D J : Type} [DecidableEq D] [DecidableEq J]
open Rewrite

namespace IdGraph

/-- `g` is `a` with identifiers. -/
structure Rep (g : IdGraph D J) (a : Graph D J) : Prop where
  wf : AMap.WF g.nodes
  nodup : g.chain.Nodup
  chain : Enc g.nodes g.chain a.chain
  idx : g.inputIdx = g.inputs.zip a.inputs
  len : g.inputs.length = a.inputs.length
  inNodup : g.inputs.Nodup
  names : a.inputs.Nodup
  inNodes : g.inputs.map g.nodes.get = a.inputs.map (fun n => some ⟨.input n, false⟩)
  join : (g.joinNode = "" ∧ a.join = none) ∨ (g.joinNode ≠ "" ∧ ∃ j l, a.join = some j ∧ g.nodes.get g.joinNode = some ⟨.join j, l⟩)
  fresh : ∀ pre ∈ ["input", "join", "op"], ∀ k, g.nextID ≤ k → g.nodes.get (nodeId pre k) = none
  noEmpty : g.nodes.get "" = none
  used : ∀ id n, g.nodes.get id = some n → id ∈ g.inputs ∨ id ∈ g.chain ∨ ∃ j, n.op = .join j
  output : g.output ≠ "" → some g.output = g.lastNode

theorem rep_empty : Rep ({} : IdGraph D J) ({} : Graph D J) :=
  ⟨by simp [AMap.WF], by simp, rfl, rfl, rfl, by simp, by simp, rfl, Or.inl ⟨rfl, rfl⟩, fun _ _ _ _ => rfl, rfl, fun _ _ h => by simp [AMap.get] at h, fun h => absurd rfl h⟩

theorem Enc.mem {nodes : AMap String (IdNode D J)} {ids : List String} {c : List (Node D J)} (h : Enc nodes ids c) {id : String} (hid : id ∈ ids) :
    ∃ nd, nodes.get id = some (encNode nd) := by
  have : nodes.get id ∈ ids.map nodes.get := List.mem_map.mpr ⟨id, hid, rfl⟩
  rw [h] at this
  obtain ⟨nd, _, e⟩ := List.mem_map.mp this
  exact ⟨nd, e.symm⟩

theorem Rep.input_mem {g : IdGraph D J} {a : Graph D J} (h : Rep g a) {id : String} (hid : id ∈ g.inputs) : ∃ name, g.nodes.get id = some ⟨.input name, false⟩ := by
  have : g.nodes.get id ∈ g.inputs.map g.nodes.get := List.mem_map.mpr ⟨id, hid, rfl⟩
  rw [h.inNodes] at this
  obtain ⟨nd, _, e⟩ := List.mem_map.mp this
  exact ⟨nd, e.symm⟩

theorem Rep.input_not_chain {g : IdGraph D J} {a : Graph D J} (h : Rep g a) {id : String} (hid : id ∈ g.inputs) : id ∉ g.chain := by
  intro hc
  obtain ⟨nd, e⟩ := Enc.mem h.chain hc
  obtain ⟨n, e'⟩ := h.input_mem hid
  rw [e] at e'
  simp [encNode] at e'

theorem Rep.join_not_chain {g : IdGraph D J} {a : Graph D J} (h : Rep g a) {j : JoinOp D} {l : Bool} (hj : g.nodes.get g.joinNode = some ⟨.join j, l⟩) : g.joinNode ∉ g.chain := by
  intro hc
  obtain ⟨nd, e⟩ := Enc.mem h.chain hc
  rw [e] at hj
  simp [encNode] at hj

theorem Rep.join_not_input {g : IdGraph D J} {a : Graph D J} (h : Rep g a) {j : JoinOp D} {l : Bool} (hj : g.nodes.get g.joinNode = some ⟨.join j, l⟩) : g.joinNode ∉ g.inputs := by
  intro hc
  obtain ⟨nd, e⟩ := h.input_mem hc
  rw [e] at hj
  simp at hj

/-- A walk over the chain. -/
theorem Rep.pass {g : IdGraph D J} {a : Graph D J} (h : Rep g a) {ns : AMap String (IdNode D J)} {c : List String} {out : List (Node D J)} (hp : Pass g.nodes g.chain ns c out)
    {o : String} (ho : o ≠ "" → some o = lastNode { g with chain := c }) : Rep { g with nodes := ns, chain := c, output := o } { a with chain := out } where
  wf := hp.wf
  nodup := h.nodup.sublist hp.sub
  chain := hp.enc
  idx := h.idx
  len := h.len
  inNodup := h.inNodup
  names := h.names
  inNodes := by
    rw [← h.inNodes]
    exact List.map_congr_left (fun id hid => hp.frame id (h.input_not_chain hid))
  join := by
    rcases h.join with hj | ⟨hj, j, l, e1, e2⟩
    · exact Or.inl hj
    · exact Or.inr ⟨hj, j, l, e1, by rw [hp.frame _ (h.join_not_chain e2)]; exact e2⟩
  fresh := by
    intro pre hpre k hk
    have hf := h.fresh pre hpre k hk
    show ns.get _ = none
    rw [hp.frame _ ?_]
    · exact hf
    · intro hc
      obtain ⟨nd, e⟩ := Enc.mem h.chain hc
      rw [e] at hf
      simp at hf
  noEmpty := by
    show ns.get "" = none
    rw [hp.frame _ ?_]
    · exact h.noEmpty
    · intro hc
      obtain ⟨nd, e⟩ := Enc.mem h.chain hc
      rw [h.noEmpty] at e
      simp at e
  used := by
    intro id n hn
    by_cases hc : id ∈ g.chain
    · by_cases hc' : id ∈ c
      · exact Or.inr (Or.inl hc')
      · rw [hp.gone id hc hc'] at hn
        simp at hn
    · rw [hp.frame id hc] at hn
      rcases h.used id n hn with h1 | h1 | h1
      · exact Or.inl h1
      · exact absurd h1 hc
      · exact Or.inr (Or.inr h1)
  output := by
    intro hne
    exact ho hne

theorem lastNode_same {g : IdGraph D J} {ns : AMap String (IdNode D J)} {o : String} : lastNode { g with nodes := ns, output := o } = lastNode g := rfl

/-- A walk over the chain that keeps all identifiers. -/
theorem Rep.passSame {g : IdGraph D J} {a : Graph D J} (h : Rep g a) {ns : AMap String (IdNode D J)} {out : List (Node D J)} (hp : Pass g.nodes g.chain ns g.chain out) :
    Rep { g with nodes := ns } { a with chain := out } := h.pass hp h.output

/-! ## Building -/

theorem amap_set_fresh {K V : Type} [DecidableEq K] {m : AMap K V} {k : K} {v : V} (h : k ∉ m.map Prod.fst) : m.set k v = m ++ [(k, v)] := by
  induction m with
  | nil => rfl
  | cons p t ih =>
    obtain ⟨k', v'⟩ := p
    simp only [List.map_cons, List.mem_cons, not_or] at h
    rw [AMap.set, if_neg (fun e => h.1 e.symm), ih h.2]
    rfl

theorem Rep.fresh_not_input {g : IdGraph D J} {a : Graph D J} (h : Rep g a) {pre : String} (hp : pre ∈ ["input", "join", "op"]) : nodeId pre g.nextID ∉ g.inputs := by
  intro hm
  obtain ⟨n, e⟩ := h.input_mem hm
  rw [h.fresh pre hp _ (Nat.le_refl _)] at e
  simp at e

theorem Rep.fresh_not_chain {g : IdGraph D J} {a : Graph D J} (h : Rep g a) {pre : String} (hp : pre ∈ ["input", "join", "op"]) {k : Nat} (hk : g.nextID ≤ k) :
    nodeId pre k ∉ g.chain := by
  intro hm
  obtain ⟨n, e⟩ := Enc.mem h.chain hm
  rw [h.fresh pre hp _ hk] at e
  simp at e

theorem Rep.set_fresh {g : IdGraph D J} {a : Graph D J} (h : Rep g a) {pre : String} (hp : pre ∈ ["input", "join", "op"]) (n : IdNode D J) :
    ∀ pre' ∈ ["input", "join", "op"], ∀ k, g.nextID + 1 ≤ k → (g.nodes.set (nodeId pre g.nextID) n).get (nodeId pre' k) = none := by
  intro pre' hp' k hk
  rw [AMap.get_set, if_neg (fun e => by have := (nodeId_inj hp hp' e).2; omega)]
  exact h.fresh pre' hp' k (by omega)

theorem zip_snd {l : List String} {m : List String} (h : l.length = m.length) : (l.zip m).map Prod.snd = m := by
  induction l generalizing m with
  | nil => cases m <;> simp_all
  | cons x l ih => cases m with
    | nil => simp at h
    | cons y m => simp only [List.zip_cons_cons, List.map_cons, List.cons.injEq, true_and]; exact ih (by simpa using h)

theorem zip_fst {l : List String} {m : List String} (h : l.length = m.length) : (l.zip m).map Prod.fst = l := by
  induction l generalizing m with
  | nil => cases m <;> simp_all
  | cons x l ih => cases m with
    | nil => simp at h
    | cons y m => simp only [List.zip_cons_cons, List.map_cons, List.cons.injEq, true_and]; exact ih (by simpa using h)

theorem lastNode_input {g : IdGraph D J} {id : String} {m : AMap String String} {ns : AMap String (IdNode D J)} {k : Nat} (ho : g.output ≠ "" → some g.output = g.lastNode) :
    g.output ≠ "" → some g.output = lastNode { g with inputs := g.inputs ++ [id], inputIdx := m, nodes := ns, nextID := k } := by
  intro hne
  rw [ho hne]
  have h1 := ho hne
  unfold lastNode at h1 ⊢
  by_cases hc : g.chain = []
  · by_cases hj : g.joinNode = ""
    · simp only [hc, hj, ne_eq, not_true_eq_false, if_false] at h1 ⊢
      cases hi : g.inputs with
      | nil => simp [hi] at h1
      | cons x l => simp
    · simp [hc, hj]
  · simp [hc]

theorem Rep.addInput {g : IdGraph D J} {a : Graph D J} (h : Rep g a) (name : String) : Rep (g.addInput name) (a.addInput name) := by
  unfold IdGraph.addInput Graph.addInput
  rw [h.idx, zip_snd h.len]
  split
  · exact h
  · rename_i hmem
    have hid := h.fresh_not_input (pre := "input") (by simp)
    have hgid := h.fresh "input" (by simp) _ (Nat.le_refl g.nextID)
    have hset : ∀ id, id ≠ nodeId "input" g.nextID → (g.nodes.set (nodeId "input" g.nextID) ⟨.input name, false⟩).get id = g.nodes.get id := by
      intro id hne
      rw [AMap.get_set, if_neg (fun e => hne e.symm)]
    exact {
      wf := h.wf.set _ _
      nodup := h.nodup
      chain := h.chain.congr (fun id hm => hset id (fun e => h.fresh_not_chain (pre := "input") (by simp) (Nat.le_refl _) (e ▸ hm)))
      idx := by
        show AMap.set (g.inputs.zip a.inputs) _ _ = _
        rw [amap_set_fresh (by rw [zip_fst h.len]; exact hid), List.zip_append h.len]
        rfl
      len := by simp [h.len]
      inNodup := by
        show (g.inputs ++ [_]).Nodup
        rw [List.nodup_append]
        refine ⟨h.inNodup, by simp, ?_⟩
        intro x hx y hy
        simp only [List.mem_singleton] at hy
        subst hy
        exact fun e => hid (e ▸ hx)
      names := by
        show (a.inputs ++ [name]).Nodup
        rw [List.nodup_append]
        refine ⟨h.names, by simp, ?_⟩
        intro x hx y hy
        simp only [List.mem_singleton] at hy
        subst hy
        exact fun e => hmem (e ▸ hx)
      inNodes := by
        show (g.inputs ++ [_]).map _ = _
        rw [List.map_append, List.map_append, ← h.inNodes]
        congr 1
        · exact List.map_congr_left (fun id hm => hset id (fun e => hid (e ▸ hm)))
        · simp [AMap.get_set]
      join := by
        rcases h.join with hj | ⟨hj, j, l, e1, e2⟩
        · exact Or.inl hj
        · refine Or.inr ⟨hj, j, l, e1, ?_⟩
          show (g.nodes.set _ _).get g.joinNode = _
          rw [hset]
          · exact e2
          · intro e; rw [e, hgid] at e2; simp at e2
      fresh := h.set_fresh (by simp) _
      noEmpty := (hset "" (nodeId_ne _ _).symm).trans h.noEmpty
      used := by
        intro id n hn
        show id ∈ g.inputs ++ [_] ∨ _
        by_cases he : id = nodeId "input" g.nextID
        · exact Or.inl (by simp [he])
        · rw [show (g.nodes.set _ _).get id = g.nodes.get id from hset id he] at hn
          rcases h.used id n hn with h1 | h1 | h1
          · exact Or.inl (by simp [h1])
          · exact Or.inr (Or.inl h1)
          · exact Or.inr (Or.inr h1)
      output := lastNode_input h.output }

theorem Rep.setJoin {g : IdGraph D J} {a : Graph D J} (h : Rep g a) (j : JoinOp D) : Rep (g.setJoin j) (a.setJoin j) := by
  have hgid := h.fresh "join" (by simp) _ (Nat.le_refl g.nextID)
  have hset : ∀ id, id ≠ nodeId "join" g.nextID → (g.nodes.set (nodeId "join" g.nextID) ⟨.join j, false⟩).get id = g.nodes.get id := by
    intro id hne
    rw [AMap.get_set, if_neg (fun e => hne e.symm)]
  exact {
    wf := h.wf.set _ _
    nodup := h.nodup
    chain := h.chain.congr (fun id hm => hset id (fun e => h.fresh_not_chain (pre := "join") (by simp) (Nat.le_refl _) (e ▸ hm)))
    idx := h.idx
    len := h.len
    inNodup := h.inNodup
    names := h.names
    inNodes := by
      rw [show (a.setJoin j).inputs = a.inputs from rfl, ← h.inNodes]
      exact List.map_congr_left (fun id hm => hset id (fun e => h.fresh_not_input (pre := "join") (by simp) (e ▸ hm)))
    join := Or.inr ⟨nodeId_ne _ _, j, false, rfl, by show (g.nodes.set _ _).get (nodeId "join" g.nextID) = _; simp [AMap.get_set]⟩
    fresh := h.set_fresh (by simp) _
    noEmpty := (hset "" (nodeId_ne _ _).symm).trans h.noEmpty
    used := by
      intro id n hn
      by_cases he : id = nodeId "join" g.nextID
      · subst he
        rw [show (g.setJoin j).nodes.get (nodeId "join" g.nextID) = some ⟨.join j, false⟩ by show (g.nodes.set _ _).get _ = _; simp [AMap.get_set]] at hn
        cases hn
        exact Or.inr (Or.inr ⟨j, rfl⟩)
      · rw [show (g.setJoin j).nodes.get id = g.nodes.get id from hset id he] at hn
        exact h.used id n hn
    output := by
      intro hne
      unfold lastNode
      have hid := nodeId_ne "join" g.nextID
      by_cases hc : g.chain = []
      · simp [IdGraph.setJoin, hc, hid]
      · have h1 := h.output (by simpa [IdGraph.setJoin, hc] using hne)
        unfold lastNode at h1
        simp only [hc, ne_eq, not_false_eq_true, if_true] at h1
        simp [IdGraph.setJoin, hc, h1] }

theorem Rep.addToChain {g : IdGraph D J} {a : Graph D J} (h : Rep g a) (o : Op D J) : Rep (g.addToChain o) (a.addToChain o) := by
  have hgid := h.fresh "op" (by simp) _ (Nat.le_refl g.nextID)
  have hnc := h.fresh_not_chain (pre := "op") (by simp) (Nat.le_refl g.nextID)
  have hset : ∀ id, id ≠ nodeId "op" g.nextID → (g.nodes.set (nodeId "op" g.nextID) ⟨.chain o, false⟩).get id = g.nodes.get id := by
    intro id hne
    rw [AMap.get_set, if_neg (fun e => hne e.symm)]
  exact {
    wf := h.wf.set _ _
    nodup := by
      show (g.chain ++ [_]).Nodup
      rw [List.nodup_append]
      refine ⟨h.nodup, by simp, ?_⟩
      intro x hx y hy
      simp only [List.mem_singleton] at hy
      subst hy
      exact fun e => hnc (e ▸ hx)
    chain := by
      refine enc_append (h.chain.congr (fun id hm => hset id (fun e => hnc (e ▸ hm)))) ?_
      simp [Enc, IdGraph.addToChain, AMap.get_set, encNode]
    idx := h.idx
    len := h.len
    inNodup := h.inNodup
    names := h.names
    inNodes := by
      rw [show (a.addToChain o).inputs = a.inputs from rfl, ← h.inNodes]
      exact List.map_congr_left (fun id hm => hset id (fun e => h.fresh_not_input (pre := "op") (by simp) (e ▸ hm)))
    join := by
      rcases h.join with hj | ⟨hj, j, l, e1, e2⟩
      · exact Or.inl hj
      · refine Or.inr ⟨hj, j, l, e1, ?_⟩
        show (g.nodes.set _ _).get g.joinNode = _
        rw [hset]
        · exact e2
        · intro e; rw [e, hgid] at e2; simp at e2
    fresh := h.set_fresh (by simp) _
    noEmpty := (hset "" (nodeId_ne _ _).symm).trans h.noEmpty
    used := by
      intro id n hn
      show _ ∨ id ∈ g.chain ++ [_] ∨ _
      by_cases he : id = nodeId "op" g.nextID
      · exact Or.inr (Or.inl (by simp [he]))
      · rw [show (g.addToChain o).nodes.get id = g.nodes.get id from hset id he] at hn
        rcases h.used id n hn with h1 | h1 | h1
        · exact Or.inl h1
        · exact Or.inr (Or.inl (by simp [h1]))
        · exact Or.inr (Or.inr h1)
    output := by
      intro _
      simp [IdGraph.addToChain, lastNode] }

theorem addNodes_spec (nodes : AMap String (IdNode D J)) (n : Nat) (ops : List (Op D J)) (hw : AMap.WF nodes) :
    (addNodes nodes n ops).2.1 = n + ops.length ∧ (addNodes nodes n ops).2.2 = (List.range' n ops.length).map (nodeId "op") ∧ AMap.WF (addNodes nodes n ops).1 ∧
    Enc (addNodes nodes n ops).1 (addNodes nodes n ops).2.2 (ops.map (fun o => ⟨o, false⟩)) ∧
    ∀ id, id ∉ (addNodes nodes n ops).2.2 → (addNodes nodes n ops).1.get id = nodes.get id := by
  induction ops generalizing nodes n with
  | nil => exact ⟨rfl, rfl, hw, rfl, fun _ _ => rfl⟩
  | cons o os ih =>
    obtain ⟨h1, h2, h3, h4, h5⟩ := ih (nodes.set (nodeId "op" n) ⟨.chain o, false⟩) (n + 1) (hw.set _ _)
    have hnot : nodeId "op" n ∉ (addNodes (nodes.set (nodeId "op" n) ⟨.chain o, false⟩) (n + 1) os).2.2 := by
      rw [h2]
      intro hm
      obtain ⟨k, hk, e⟩ := List.mem_map.mp hm
      have := (nodeId_inj (by simp) (by simp) e).2
      rw [List.mem_range'_1] at hk
      omega
    refine ⟨by simp only [addNodes, h1, List.length_cons]; omega, by simp only [addNodes, h2, List.length_cons, List.range'_succ, List.map_cons], h3, ?_, ?_⟩
    · refine enc_cons.mpr ⟨⟨o, false⟩, os.map (fun o => ⟨o, false⟩), rfl, ?_, h4⟩
      show (addNodes (nodes.set (nodeId "op" n) ⟨.chain o, false⟩) (n + 1) os).1.get (nodeId "op" n) = _
      rw [h5 _ hnot]
      simp [AMap.get_set, encNode]
    · intro id hid
      simp only [addNodes, List.mem_cons, not_or] at hid
      show (addNodes (nodes.set (nodeId "op" n) ⟨.chain o, false⟩) (n + 1) os).1.get id = _
      rw [h5 id hid.2, AMap.get_set, if_neg (fun e => hid.1 e.symm)]

theorem mem_newIds {n k : Nat} {id : String} (h : id ∈ (List.range' n k).map (nodeId "op")) : ∃ m, n ≤ m ∧ m < n + k ∧ id = nodeId "op" m := by
  obtain ⟨m, hm, e⟩ := List.mem_map.mp h
  rw [List.mem_range'_1] at hm
  exact ⟨m, hm.1, hm.2, e.symm⟩

theorem newIds_nodup (n k : Nat) : ((List.range' n k).map (nodeId "op")).Nodup := by
  rw [List.nodup_iff_pairwise_ne, List.pairwise_map]
  refine List.Pairwise.imp (fun {x y} hxy e => hxy ?_) (List.nodup_iff_pairwise_ne.mp List.nodup_range')
  exact (nodeId_inj (by simp) (by simp) e).2

theorem Rep.replaceInChain {g : IdGraph D J} {a : Graph D J} (h : Rep g a) (i : Nat) (o : Op D J) (os : List (Op D J)) :
    Rep (g.replaceInChain i (o :: os)) (a.replaceInChain i (o :: os)) := by
  have hlen := h.chain.length
  unfold IdGraph.replaceInChain Graph.replaceInChain
  by_cases hi : i < a.chain.length
  · have hi' : i < g.chain.length := by omega
    rw [if_pos hi, List.getElem?_eq_getElem hi']
    dsimp only
    generalize hops : o :: os = ops
    have hne : ops ≠ [] := by rw [← hops]; simp
    clear hops
    have hold := List.getElem_mem hi'
    generalize hoe : g.chain[i] = old at *
    obtain ⟨e1, e2, e3, e4, e5⟩ := addNodes_spec (g.nodes.erase old) g.nextID ops (h.wf.erase old)
    generalize hA : addNodes (g.nodes.erase old) g.nextID ops = A at *
    obtain ⟨ns, n', ids⟩ := A
    dsimp only at e1 e2 e3 e4 e5 ⊢
    subst e1
    have hidsf : ∀ id ∈ ids, g.nodes.get id = none := by
      intro id hid
      rw [e2] at hid
      obtain ⟨m, hm, _, rfl⟩ := mem_newIds hid
      exact h.fresh "op" (by simp) m hm
    have hidsc : ∀ id ∈ ids, id ∉ g.chain := by
      intro id hid hc
      obtain ⟨nd, e⟩ := Enc.mem h.chain hc
      rw [hidsf id hid] at e
      simp at e
    have hget : ∀ id, id ∉ ids → ns.get id = if old = id then none else g.nodes.get id := by
      intro id hid
      rw [e5 id hid, AMap.get_erase h.wf]
    have hsplit : g.chain = g.chain.take i ++ old :: g.chain.drop (i + 1) := by
      rw [← hoe, List.getElem_cons_drop, List.take_append_drop]
    have hnd := h.nodup
    rw [hsplit, List.nodup_append] at hnd
    obtain ⟨hn1, hn2, hn3⟩ := hnd
    obtain ⟨hn4, hn5⟩ := nodup_tail hn2
    have holdt : old ∉ g.chain.take i := fun hm => hn3 old hm old List.mem_cons_self rfl
    have hne2 : g.chain.take i ++ ids ++ g.chain.drop (i + 1) ≠ [] := by
      intro e
      have hids : ids ≠ [] := by
        rw [e2]; cases ops with
        | nil => exact absurd rfl hne
        | cons x l => simp [List.range'_succ]
      simp only [List.append_eq_nil_iff] at e
      exact hids e.1.2
    exact {
      wf := e3
      nodup := by
        show (g.chain.take i ++ ids ++ g.chain.drop (i + 1)).Nodup
        rw [List.nodup_append, List.nodup_append]
        refine ⟨⟨hn1, by rw [e2]; exact newIds_nodup _ _, ?_⟩, hn5, ?_⟩
        · intro x hx y hy e
          exact hidsc y hy (e ▸ List.mem_of_mem_take hx)
        · intro x hx y hy e
          rcases List.mem_append.mp hx with hx | hx
          · exact hn3 x hx y (List.mem_cons_of_mem _ hy) e
          · exact hidsc x hx (e ▸ List.mem_of_mem_drop hy)
      chain := by
        refine enc_append (enc_append ((h.chain.take i).congr ?_) e4) ((h.chain.drop (i + 1)).congr ?_)
        · intro id hid
          rw [hget id (fun hm => hidsc id hm (List.mem_of_mem_take hid)), if_neg (fun e : old = id => holdt (e ▸ hid))]
        · intro id hid
          rw [hget id (fun hm => hidsc id hm (List.mem_of_mem_drop hid)), if_neg (fun e : old = id => hn4 (e ▸ hid))]
      idx := h.idx
      len := h.len
      inNodup := h.inNodup
      names := h.names
      inNodes := by
        rw [← h.inNodes]
        refine List.map_congr_left (fun id hid => ?_)
        show ns.get id = g.nodes.get id
        obtain ⟨nm, e⟩ := h.input_mem hid
        rw [hget id (fun hm => by rw [hidsf id hm] at e; simp at e), if_neg (fun e' : old = id => h.input_not_chain hid (e' ▸ hold))]
      join := by
        rcases h.join with hj | ⟨hj, j, l, e1', e2'⟩
        · exact Or.inl hj
        · refine Or.inr ⟨hj, j, l, e1', ?_⟩
          show ns.get g.joinNode = _
          rw [hget _ (fun hm => by rw [hidsf _ hm] at e2'; simp at e2'), if_neg (fun e' : old = g.joinNode => h.join_not_chain e2' (e' ▸ hold))]
          exact e2'
      fresh := by
        intro pre hp k hk
        show ns.get (nodeId pre k) = none
        have hk' : g.nextID + ops.length ≤ k := hk
        rw [hget _ ?_]
        · split
          · rfl
          · exact h.fresh pre hp k (by omega)
        · intro hm
          rw [e2] at hm
          obtain ⟨m, _, hm', e⟩ := mem_newIds hm
          have := (nodeId_inj hp (by simp) e).2
          omega
      noEmpty := by
        show ns.get "" = none
        rw [hget _ ?_]
        · split
          · rfl
          · exact h.noEmpty
        · intro hm
          rw [e2] at hm
          obtain ⟨m, _, _, e⟩ := mem_newIds hm
          exact nodeId_ne _ _ e.symm
      used := by
        intro id n hn
        show id ∈ g.inputs ∨ id ∈ g.chain.take i ++ ids ++ g.chain.drop (i + 1) ∨ _
        by_cases hm : id ∈ ids
        · exact Or.inr (Or.inl (by simp [hm]))
        · rw [show _ = _ from hget id hm] at hn
          split at hn
          · simp at hn
          · rename_i hne'
            rcases h.used id n hn with h1 | h1 | h1
            · exact Or.inl h1
            · refine Or.inr (Or.inl ?_)
              rw [hsplit] at h1
              simp only [List.mem_append, List.mem_cons] at h1 ⊢
              rcases h1 with h1 | h1 | h1
              · exact Or.inl (Or.inl h1)
              · exact absurd h1.symm hne'
              · exact Or.inr h1
            · exact Or.inr (Or.inr h1)
      output := by
        intro _
        unfold lastNode
        rw [if_pos hne2]
        show some ((List.getLast? _).getD _) = _
        rw [List.getLast?_eq_some_getLast hne2]
        rfl }
  · rw [if_neg hi, List.getElem?_eq_none (by omega)]
    exact h

end IdGraph
end Dctl
