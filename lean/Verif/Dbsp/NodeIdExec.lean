import Verif.Dbsp.NodeIdRules
/-!
# Running and converting graphs with and without node identifiers correspond
-/
set_option autoImplicit false
set_option linter.unusedSectionVars false
namespace Dctl
variable {D J : Type} [DecidableEq D] [DecidableEq J]
open Rewrite

namespace IdGraph

theorem map_get_zip {xs ys : List String} (hn : xs.Nodup) (hl : xs.length = ys.length) : xs.map (AMap.get (xs.zip ys)) = ys.map some := by
  induction xs generalizing ys with
  | nil => cases ys <;> simp_all
  | cons x xs ih =>
    cases ys with
    | nil => simp at hl
    | cons y ys =>
      obtain ⟨h1, h2⟩ := nodup_tail hn
      simp only [List.zip_cons_cons, List.map_cons, List.cons.injEq]
      refine ⟨by simp [AMap.get], ?_⟩
      rw [← ih h2 (by simpa using hl)]
      refine List.map_congr_left (fun z hz => ?_)
      simp only [AMap.get]
      rw [if_neg (fun e : x = z => h1 (e ▸ hz))]

theorem Rep.collect {g : IdGraph D J} {a : Graph D J} (h : Rep g a) (ins : List (String × ZSet D)) : g.collect ins = collectInputs a.inputs ins := by
  unfold IdGraph.collect collectInputs
  rw [h.len]
  split
  · rfl
  · have e := map_get_zip h.inNodup h.len
    rw [← h.idx] at e
    have e' : ∀ F : Option String → Except Err (ZSet D), g.inputs.mapM (fun id => F (g.inputIdx.get id)) = a.inputs.mapM (fun n => F (some n)) := by
      intro F
      have h1 : (g.inputs.map g.inputIdx.get).mapM F = g.inputs.mapM (fun id => F (g.inputIdx.get id)) := by rw [List.mapM_map]; rfl
      have h2 : (a.inputs.map some).mapM F = a.inputs.mapM (fun n => F (some n)) := by rw [List.mapM_map]; rfl
      rw [← h1, ← h2, e]
    exact e' (fun o => match o with
      | none => .error "internal error"
      | some name => match lookupInput ins name with
        | some z => .ok z
        | none => .error "missing input")

/-- A node of the walk is updated and stays. -/
theorem pass_update {nodes nodes' : AMap String (IdNode D J)} {ids ids' : List String} {out : List (Node D J)} {a : String} {nd : Node D J}
    (h : Pass (nodes.set a (encNode nd)) ids nodes' ids' out) (ha : a ∉ ids) : Pass nodes (a :: ids) nodes' (a :: ids') (nd :: out) := by
  have h1 := h.keep (a := a) (nd := nd) ha (by simp [AMap.get_set])
  refine h1.base (fun id hid => ?_)
  rw [AMap.get_set, if_neg (fun e : a = id => hid (by simp [e]))]

theorem Pass.refl {nodes : AMap String (IdNode D J)} {ids : List String} {c : List (Node D J)} (hw : AMap.WF nodes) (h : Enc nodes ids c) : Pass nodes ids nodes ids c :=
  ⟨hw, List.Sublist.refl _, h, fun _ _ => rfl, fun _ h1 h2 => absurd h1 h2⟩

theorem enc_set {nodes : AMap String (IdNode D J)} {ids : List String} {c : List (Node D J)} (h : Enc nodes ids c) {a : String} (ha : a ∉ ids) (n : IdNode D J) :
    Enc (nodes.set a n) ids c := h.congr (fun id hid => by rw [AMap.get_set, if_neg (fun e : a = id => ha (e ▸ hid))])

theorem runIds_enc (σ : Order D) (i : Nat) {nodes : AMap String (IdNode D J)} {ids : List String} {c : List (Node D J)} (hw : AMap.WF nodes) (hn : ids.Nodup) (h : Enc nodes ids c) (z : ZSet D) :
    ∃ ns, runIds σ i ids nodes z = some (ns, (runChain σ i c z).2) ∧ Pass nodes ids ns ids (runChain σ i c z).1 := by
  induction ids generalizing nodes c i z with
  | nil => rw [enc_nil.mp h]; exact ⟨nodes, rfl, Pass.done hw⟩
  | cons id ids ih =>
    obtain ⟨nd, c', rfl, h1, h2⟩ := enc_cons.mp h
    obtain ⟨n1, n2⟩ := nodup_tail hn
    have hpr : (encNode nd).op.proc [σ i z] = (.chain (nd.op.proc (σ i z)).1, (nd.op.proc (σ i z)).2) := rfl
    simp only [runIds, h1, hpr, runChain]
    generalize nd.op.proc (σ i z) = P
    obtain ⟨o', r⟩ := P
    have hw' := hw.set id (encNode { nd with op := o' })
    have he' := enc_set h2 n1 (encNode { nd with op := o' })
    cases r with
    | error e => exact ⟨_, rfl, pass_update (Pass.refl hw' he') n1⟩
    | ok r =>
      obtain ⟨ns, e, hp⟩ := ih (i + 1) hw' n2 he' r
      exact ⟨ns, e, pass_update hp n1⟩

theorem resetIds_enc {nodes : AMap String (IdNode D J)} {ids : List String} {c : List (Node D J)} (hw : AMap.WF nodes) (hn : ids.Nodup) (h : Enc nodes ids c) :
    ∃ ns, resetIds ids nodes = some ns ∧ Pass nodes ids ns ids (c.map (fun nd => { nd with op := nd.op.reset })) := by
  induction ids generalizing nodes c with
  | nil => rw [enc_nil.mp h]; exact ⟨nodes, rfl, Pass.done hw⟩
  | cons id ids ih =>
    obtain ⟨nd, c', rfl, h1, h2⟩ := enc_cons.mp h
    obtain ⟨n1, n2⟩ := nodup_tail hn
    have hw' := hw.set id (encNode { nd with op := nd.op.reset })
    have he' := enc_set h2 n1 (encNode { nd with op := nd.op.reset })
    obtain ⟨ns, e, hp⟩ := ih hw' n2 he'
    simp only [resetIds, h1]
    exact ⟨ns, e, pass_update hp n1⟩

theorem Rep.reset {g : IdGraph D J} {a : Graph D J} (h : Rep g a) : ∃ g', g.reset = some g' ∧ Rep g' a.reset := by
  unfold IdGraph.reset Graph.reset
  rcases h.join with ⟨e1, e2⟩ | ⟨e1, j, l, e2, e3⟩
  · obtain ⟨ns, e, hp⟩ := resetIds_enc h.wf h.nodup h.chain
    refine ⟨_, by simp only [e1, ne_eq, not_true_eq_false, if_false, List.nil_append, e]; rfl, ?_⟩
    have := h.passSame hp
    simpa [e1, e2] using this
  · have h1 := h.setJoinNode e1 e3 j.reset
    obtain ⟨ns, e, hp⟩ := resetIds_enc h1.wf h1.nodup h1.chain
    refine ⟨_, by simp only [e1, ne_eq, not_false_eq_true, if_true, List.singleton_append, resetIds, e3, AnyOp.reset]; rw [e]; rfl, ?_⟩
    have := h1.passSame hp
    simpa [e2] using this

theorem except_mapM_nil {f : String → Except Err (ZSet D)} {l : List String} (h : l.mapM f = .ok []) : l = [] := by
  cases l with
  | nil => rfl
  | cons x l =>
    rw [List.mapM_cons] at h
    cases hx : f x with
    | error e => rw [hx] at h; cases h
    | ok y =>
      rw [hx] at h
      cases hl : l.mapM f with
      | error e => simp only [hl, bind, Except.bind] at h; cases h
      | ok ys => simp only [hl, bind, Except.bind, pure, Except.pure] at h; cases h

theorem Rep.process {g : IdGraph D J} {a : Graph D J} (h : Rep g a) (hi : a.inputs ≠ []) (σ : Order D) (ins : List (String × ZSet D)) :
    ∃ g', g.process σ ins = some (g', (a.process σ ins).2) ∧ Rep g' (a.process σ ins).1 := by
  unfold IdGraph.process Graph.process
  rw [h.collect]
  cases hc : collectInputs a.inputs ins with
  | error e => exact ⟨g, rfl, h⟩
  | ok zs =>
    rcases h.join with ⟨e1, e2⟩ | ⟨e1, j, l, e2, e3⟩
    · have hz : zs ≠ [] := by
        intro e
        subst e
        unfold collectInputs at hc
        split at hc
        · cases hc
        · exact hi (except_mapM_nil hc)
      cases zs with
      | nil => exact absurd rfl hz
      | cons z zs =>
        obtain ⟨ns, e, hp⟩ := runIds_enc σ 1 h.wf h.nodup h.chain z
        simp only [runJoin, e1, ne_eq, not_true_eq_false, if_false, e, e2]
        have := h.passSame hp
        exact ⟨_, rfl, by rw [e2, e1] at this; exact this⟩
    · have hpr : (AnyOp.join j : AnyOp D J).proc (zs.map (σ 0)) = (.join (j.proc (zs.map (σ 0))).1, (j.proc (zs.map (σ 0))).2) := rfl
      simp only [runJoin, e1, ne_eq, not_false_eq_true, if_true, e3, hpr, e2]
      generalize j.proc (zs.map (σ 0)) = P
      obtain ⟨j', r⟩ := P
      have h1 := h.setJoinNode e1 e3 j'
      cases r with
      | error er => exact ⟨_, rfl, h1⟩
      | ok z =>
        obtain ⟨ns, e, hp⟩ := runIds_enc σ 1 h1.wf h1.nodup h1.chain z
        simp only [e]
        exact ⟨_, rfl, h1.passSame hp⟩

/-! ## Conversion -/

theorem Rep.copyInputs {nodes : AMap String (IdNode D J)} {ids names : List String} (he : ids.map nodes.get = names.map (fun n => some ⟨.input n, false⟩)) {t : IdGraph D J} {b : Graph D J}
    (h : Rep t b) : ∃ t', copyInputs nodes ids t = some t' ∧ Rep t' (names.foldl Graph.addInput b) := by
  induction ids generalizing names t b with
  | nil => cases names with
    | nil => exact ⟨t, rfl, h⟩
    | cons x l => simp at he
  | cons id ids ih => cases names with
    | nil => simp at he
    | cons x l =>
      simp only [List.map_cons, List.cons.injEq] at he
      obtain ⟨t', e, h'⟩ := ih he.2 (h.addInput x)
      exact ⟨t', by simp only [IdGraph.copyInputs, he.1]; exact e, h'⟩

theorem Rep.copyChain {f : Op D J → Except Err (Op D J)} {nodes : AMap String (IdNode D J)} {ids : List String} {c : List (Node D J)} (he : Enc nodes ids c) {t : IdGraph D J} {b : Graph D J}
    (h : Rep t b) : (∃ e, convertChain f c = .error e ∧ copyChain f nodes ids t = some (.error e)) ∨
      ∃ c' t', convertChain f c = .ok c' ∧ copyChain f nodes ids t = some (.ok t') ∧ Rep t' { b with chain := b.chain ++ c' } := by
  induction ids generalizing c t b with
  | nil =>
    rw [enc_nil.mp he]
    exact Or.inr ⟨[], t, rfl, rfl, by simpa using h⟩
  | cons id ids ih =>
    obtain ⟨nd, c', rfl, h1, h2⟩ := enc_cons.mp he
    simp only [IdGraph.copyChain, h1, encNode, convertChain]
    cases hf : f nd.op with
    | error e => exact Or.inl ⟨e, rfl, rfl⟩
    | ok o =>
      rcases ih h2 (h.addToChain o) with ⟨e, e1, e2⟩ | ⟨c1, t', e1, e2, e3⟩
      · exact Or.inl ⟨e, by simp only [e1], e2⟩
      · refine Or.inr ⟨⟨o, false⟩ :: c1, t', by simp only [e1], e2, ?_⟩
        simpa [Graph.addToChain] using e3

theorem foldl_addInput (names : List String) (b : Graph D J) :
    names.foldl Graph.addInput b = { b with inputs := names.foldl (fun acc n => if n ∈ acc then acc else acc ++ [n]) b.inputs } := by
  induction names generalizing b with
  | nil => rfl
  | cons x l ih =>
    rw [List.foldl_cons, ih, List.foldl_cons]
    unfold Graph.addInput
    split <;> rfl

theorem Rep.convert {g : IdGraph D J} {a : Graph D J} (h : Rep g a) (jf : JoinOp D → JoinOp D) (f : Op D J → Except Err (Op D J)) :
    (∃ e g', a.convert jf f = .error e ∧ g.convert jf f = some (g', .error e) ∧ Rep g' a) ∨
    ∃ b g' t, a.convert jf f = .ok b ∧ g.convert jf f = some (g', .ok t) ∧ Rep t b ∧ Rep g' a := by
  obtain ⟨o, e, hr⟩ := h.validate
  unfold IdGraph.convert Graph.convert
  rw [e]
  cases hv : a.validate with
  | error er => exact Or.inl ⟨er, _, rfl, rfl, hr⟩
  | ok u =>
    obtain ⟨t1, e1, r1⟩ := Rep.copyInputs h.inNodes (rep_empty (D := D) (J := J))
    have e2 : ∃ t2, copyJoin jf { g with output := o } t1 = some (.ok t2) ∧ Rep t2 { a.inputs.foldl Graph.addInput {} with join := a.join.map jf } := by
      unfold copyJoin
      rcases h.join with ⟨j1, j2⟩ | ⟨j1, j, l, j2, j3⟩
      · refine ⟨t1, by simp [j1], ?_⟩
        rw [j2]
        simp only [foldl_addInput] at r1 ⊢
        exact r1
      · refine ⟨t1.setJoin (jf j), by simp [j1, j3], ?_⟩
        rw [j2]
        exact r1.setJoin (jf j)
    obtain ⟨t2, e2, r2⟩ := e2
    dsimp only
    rw [e1]
    dsimp only
    rw [e2]
    dsimp only
    rcases Rep.copyChain (f := f) h.chain r2 with ⟨er, c1, c2⟩ | ⟨c', t', c1, c2, c3⟩
    · rw [c1, c2]
      exact Or.inl ⟨er, _, rfl, rfl, hr⟩
    · rw [c1, c2]
      refine Or.inr ⟨_, _, t', rfl, rfl, ?_, hr⟩
      rw [foldl_addInput] at c3
      simpa using c3

/-! ## Calls -/

theorem Rep.exec {g : IdGraph D J} {a : Graph D J} (h : Rep g a) (c : GraphCmd D J) : ∃ g', g.exec c = some (g', (a.exec c).2) ∧ Rep g' (a.exec c).1 := by
  cases c with
  | input n => exact ⟨_, rfl, h.addInput n⟩
  | join j => exact ⟨_, rfl, h.setJoin j⟩
  | chain o => exact ⟨_, rfl, h.addToChain o⟩
  | replace i o ops => exact ⟨_, rfl, h.replaceInChain i o ops⟩
  | optimize =>
    obtain ⟨g', e, hr⟩ := h.optimize
    exact ⟨g', by simp only [IdGraph.exec, e, Option.map_some, Graph.exec], hr⟩
  | process σ ins =>
    obtain ⟨o, e, hr⟩ := h.validate
    simp only [IdGraph.exec, e, Graph.exec]
    cases hv : a.validate with
    | error er => exact ⟨_, rfl, hr⟩
    | ok u =>
      have hi : a.inputs ≠ [] := by
        intro e'
        rw [Graph.validate, if_pos e'] at hv
        simp at hv
      obtain ⟨g', e', hr'⟩ := hr.process hi σ ins
      exact ⟨g', by simp only [e', Option.map_some], hr'⟩
  | reset =>
    obtain ⟨g', e, hr⟩ := h.reset
    exact ⟨g', by simp only [IdGraph.exec, e, Option.map_some, Graph.exec], hr⟩
  | snapshot =>
    rcases h.convert JoinOp.toSnapshot Op.toSnapshot with ⟨er, g', e1, e2, hr⟩ | ⟨b, g', t, e1, e2, hr, _⟩
    · exact ⟨g', by simp only [IdGraph.exec, IdGraph.toSnapshot, e2, Option.map_some, Graph.exec, Graph.toSnapshot, e1], by simpa only [Graph.exec, Graph.toSnapshot, e1] using hr⟩
    · exact ⟨t, by simp only [IdGraph.exec, IdGraph.toSnapshot, e2, Option.map_some, Graph.exec, Graph.toSnapshot, e1], by simpa only [Graph.exec, Graph.toSnapshot, e1] using hr⟩
  | incremental =>
    rcases h.convert JoinOp.toIncremental Op.toIncremental with ⟨er, g', e1, e2, hr⟩ | ⟨b, g', t, e1, e2, hr, _⟩
    · exact ⟨g', by simp only [IdGraph.exec, IdGraph.toIncremental, e2, Option.map_some, Graph.exec, Graph.toIncremental, e1], by simpa only [Graph.exec, Graph.toIncremental, e1] using hr⟩
    · exact ⟨t, by simp only [IdGraph.exec, IdGraph.toIncremental, e2, Option.map_some, Graph.exec, Graph.toIncremental, e1], by simpa only [Graph.exec, Graph.toIncremental, e1] using hr⟩

theorem Rep.execAll {g : IdGraph D J} {a : Graph D J} (h : Rep g a) (cs : List (GraphCmd D J)) : ∃ g', g.execAll cs = some (g', (a.execAll cs).2) ∧ Rep g' (a.execAll cs).1 := by
  induction cs generalizing g a with
  | nil => exact ⟨g, rfl, h⟩
  | cons c cs ih =>
    obtain ⟨g1, e1, h1⟩ := h.exec c
    obtain ⟨g2, e2, h2⟩ := ih h1
    exact ⟨g2, by simp only [IdGraph.execAll, e1, e2, Option.map_some, Graph.execAll], h2⟩

theorem Rep.consistent {g : IdGraph D J} {a : Graph D J} (h : Rep g a) : g.Consistent where
  nodup := by
    rw [List.nodup_append]
    exact ⟨h.inNodup, h.nodup, fun x hx y hy e => h.input_not_chain hx (e ▸ hy)⟩
  inputs := by
    intro id hid
    obtain ⟨i, hi, rfl⟩ := List.getElem_of_mem hid
    have e1 := congrArg (fun l => l[i]?) (map_get_zip h.inNodup h.len)
    have e2 := congrArg (fun l => l[i]?) h.inNodes
    rw [← h.idx] at e1
    have hi' : i < a.inputs.length := by rw [← h.len]; exact hi
    simp only [List.getElem?_map, List.getElem?_eq_getElem hi, List.getElem?_eq_getElem hi', Option.map_some, Option.some.injEq] at e1 e2
    exact ⟨_, e1, e2⟩
  join := by
    intro hne
    rcases h.join with ⟨e1, _⟩ | ⟨_, j, l, _, e3⟩
    · exact absurd e1 hne
    · exact ⟨j, l, e3⟩
  chain := by
    intro id hid
    obtain ⟨nd, e⟩ := Enc.mem h.chain hid
    exact ⟨nd.op, nd.lifted, e⟩
  used := h.used
  fresh := h.fresh
  output := h.output

/-! ## Results of single nodes -/

theorem Pass.rest {nodes ns : AMap String (IdNode D J)} {l1 l2 : List String} {out c2 : List (Node D J)} (h : Pass nodes l1 ns l1 out) (h2 : Enc nodes l2 c2) (hn : (l1 ++ l2).Nodup) :
    Pass nodes (l1 ++ l2) ns (l1 ++ l2) (out ++ c2) := by
  refine ⟨h.wf, List.Sublist.refl _, enc_append h.enc (h2.congr ?_), ?_, fun _ h1 h2 => absurd h1 h2⟩
  · intro id hid
    exact h.frame id (fun hm => (List.nodup_append.mp hn).2.2 id hm id hid rfl)
  · intro id hid
    exact h.frame id (fun hm => hid (List.mem_append_left _ hm))

theorem lookup_zip {V : Type} {xs : List String} {zs : List V} (hn : xs.Nodup) (hl : zs.length = xs.length) : xs.map (fun x => (xs.zip zs).lookup x) = zs.map some := by
  induction xs generalizing zs with
  | nil => cases zs <;> simp_all
  | cons x xs ih =>
    cases zs with
    | nil => simp at hl
    | cons z zs =>
      obtain ⟨h1, h2⟩ := nodup_tail hn
      simp only [List.zip_cons_cons, List.map_cons, List.cons.injEq]
      refine ⟨by simp [List.lookup], ?_⟩
      rw [← ih h2 (by simpa using hl)]
      refine List.map_congr_left (fun y hy => ?_)
      have : (y == x) = false := by simpa using fun e : y = x => h1 (e ▸ hy)
      simp [List.lookup, this]

theorem mapM_some {V W : Type} {xs : List V} {zs : List W} {F : V → Option W} (h : xs.map F = zs.map some) : xs.mapM F = some zs := by
  induction xs generalizing zs with
  | nil => cases zs <;> simp_all
  | cons x xs ih => cases zs with
    | nil => simp at h
    | cons z zs =>
      simp only [List.map_cons, List.cons.injEq] at h
      simp [List.mapM_cons, h.1, ih h.2]

theorem mapM_ok {V W : Type} {xs : List V} {zs : List W} {F : V → Except Err W} (h : xs.map F = zs.map .ok) : xs.mapM F = .ok zs := by
  induction xs generalizing zs with
  | nil => cases zs <;> simp_all; rfl
  | cons x xs ih => cases zs with
    | nil => simp at h
    | cons z zs =>
      simp only [List.map_cons, List.cons.injEq] at h
      rw [List.mapM_cons, h.1, ih h.2]
      rfl

theorem collectInputs_zip {xs : List String} {zs : List (ZSet D)} (hn : xs.Nodup) (hl : zs.length = xs.length) : collectInputs xs (xs.zip zs) = .ok zs := by
  unfold collectInputs
  rw [if_neg (by simp [hl])]
  apply mapM_ok
  have e := lookup_zip hn hl
  have := congrArg (List.map (fun o : Option (ZSet D) => match o with | some z => (.ok z : Except Err (ZSet D)) | none => .error "missing input")) e
  rw [List.map_map, List.map_map] at this
  exact this

theorem Rep.nodeResultJoin {g : IdGraph D J} {a : Graph D J} (h : Rep g a) (hj : g.joinNode ≠ "") (σ : Order D) {zs : List (ZSet D)} (hl : zs.length = g.inputs.length) :
    ∃ g', g.nodeResult σ g.joinNode (g.inputs.zip zs) = some (g', ((a.upTo 0).process σ (a.inputs.zip zs)).2) ∧
      Rep g' (((a.upTo 0).process σ (a.inputs.zip zs)).1.thenRest a 0) := by
  rcases h.join with ⟨e1, _⟩ | ⟨e1, j, l, e2, e3⟩
  · exact absurd e1 hj
  · have hm : g.inputs.mapM (lookupInput (g.inputs.zip zs)) = some zs := mapM_some (lookup_zip h.inNodup hl)
    have hc := collectInputs_zip h.names (hl.trans h.len)
    have hpr : (AnyOp.join j : AnyOp D J).proc (zs.map (σ 0)) = (.join (j.proc (zs.map (σ 0))).1, (j.proc (zs.map (σ 0))).2) := rfl
    simp only [nodeResult, e3, hm, if_true, runJoin, ne_eq, e1, not_false_eq_true, hpr, Option.map_some, Graph.process, Graph.upTo, hc, e2, List.take_zero, runChain, Graph.thenRest]
    generalize j.proc (zs.map (σ 0)) = P
    obtain ⟨j', r⟩ := P
    have h1 := h.setJoinNode e1 e3 j'
    cases r with
    | error er => exact ⟨_, rfl, by simpa using h1⟩
    | ok z => exact ⟨_, rfl, by simpa using h1⟩

theorem Rep.runUpTo {g : IdGraph D J} {a : Graph D J} (h : Rep g a) (σ : Order D) (n : Nat) (z : ZSet D) :
    ∃ ns, runIds σ 1 (g.chain.take n) g.nodes z = some (ns, (runChain σ 1 (a.chain.take n) z).2) ∧
      Rep { g with nodes := ns } { a with chain := (runChain σ 1 (a.chain.take n) z).1 ++ a.chain.drop n } := by
  obtain ⟨ns, e, hp⟩ := runIds_enc σ 1 h.wf (h.nodup.sublist (List.take_sublist n _)) (h.chain.take n) z
  refine ⟨ns, e, ?_⟩
  have := Pass.rest hp (h.chain.drop n) (by rw [List.take_append_drop]; exact h.nodup)
  rw [List.take_append_drop] at this
  exact h.passSame this

theorem Rep.nodeResultChain {g : IdGraph D J} {a : Graph D J} (h : Rep g a) (hi : a.inputs ≠ []) (σ : Order D) {zs : List (ZSet D)} (hl : zs.length = g.inputs.length) {i : Nat} {id : String}
    (hid : g.chain[i]? = some id) : ∃ g', g.nodeResult σ id (g.inputs.zip zs) = some (g', ((a.upTo (i + 1)).process σ (a.inputs.zip zs)).2) ∧
      Rep g' (((a.upTo (i + 1)).process σ (a.inputs.zip zs)).1.thenRest a (i + 1)) := by
  have hmem : id ∈ g.chain := List.mem_of_getElem? hid
  obtain ⟨nd, hnd⟩ := Enc.mem h.chain hmem
  have hix : g.chain.idxOf id = i := by
    have hlt : i < g.chain.length := by
      rcases Nat.lt_or_ge i g.chain.length with hlt | hge
      · exact hlt
      · rw [List.getElem?_eq_none hge] at hid; simp at hid
    rw [List.getElem?_eq_getElem hlt, Option.some.injEq] at hid
    rw [← hid]
    exact h.nodup.idxOf_getElem i hlt
  have hm : g.inputs.mapM (lookupInput (g.inputs.zip zs)) = some zs := mapM_some (lookup_zip h.inNodup hl)
  have hc := collectInputs_zip h.names (hl.trans h.len)
  rcases h.join with ⟨e1, e2⟩ | ⟨e1, j, l, e2, e3⟩
  · have hne : id ≠ g.joinNode := by
      intro e
      have h0 : id ≠ "" := by
        intro e0
        rw [e0, h.noEmpty] at hnd
        simp at hnd
      exact h0 (e.trans e1)
    cases zs with
    | nil =>
      have : g.inputs = [] := List.eq_nil_of_length_eq_zero hl.symm
      exact absurd (h.inputs_nil.mp this) hi
    | cons z zs =>
      obtain ⟨ns, e, hr⟩ := h.runUpTo σ (i + 1) z
      rw [e1] at hne
      simp only [nodeResult, hnd, hm, if_neg hne, if_pos hmem, runJoin, ne_eq, e1, not_true_eq_false, if_false, hix, e, Graph.process, Graph.upTo, hc, e2, Graph.thenRest]
      exact ⟨_, rfl, by rw [e1, e2] at hr; exact hr⟩
  · have hne : id ≠ g.joinNode := fun e => h.join_not_chain e3 (e ▸ hmem)
    have hpr : (AnyOp.join j : AnyOp D J).proc (zs.map (σ 0)) = (.join (j.proc (zs.map (σ 0))).1, (j.proc (zs.map (σ 0))).2) := rfl
    simp only [nodeResult, hnd, hm, if_neg hne, if_pos hmem, runJoin, ne_eq, e1, not_false_eq_true, if_true, e3, hpr, hix, Graph.process, Graph.upTo, hc, e2, Graph.thenRest]
    generalize j.proc (zs.map (σ 0)) = P
    obtain ⟨j', r⟩ := P
    have h1 := h.setJoinNode e1 e3 j'
    cases r with
    | error er =>
      refine ⟨_, rfl, ?_⟩
      simp only [List.take_append_drop]
      exact h1
    | ok z =>
      obtain ⟨ns, e, hr⟩ := h1.runUpTo σ (i + 1) z
      simp only [e]
      exact ⟨_, rfl, hr⟩

end IdGraph

/-! ## Compiling -/

theorem Rewrite.loop_eq (rs : List (Rule D J)) (n : Nat) (g : Graph D J) : Rewrite.loop rs n g = (Rewrite.loopG rs n g).2.map (fun _ => (Rewrite.loopG rs n g).1) := by
  induction n generalizing g with
  | zero => rfl
  | succ n ih =>
    simp only [Rewrite.loop, Rewrite.loopG]
    cases Rewrite.step rs g with
    | some g' => exact ih g'
    | none => dsimp only; split <;> rfl

theorem Rewrite.optimize_eq (g : Graph D J) : Rewrite.optimize g = (Rewrite.optimizeG g).2.map (fun _ => (Rewrite.optimizeG g).1) := by
  unfold Rewrite.optimize Rewrite.optimizeG
  cases g.validate with
  | error e => rfl
  | ok u => exact Rewrite.loop_eq _ _ _

/-- The rule changes neither the inputs nor whether there is a join. -/
def Rule.KeepsShape (r : Rule D J) : Prop := ∀ g, (r.apply g).inputs = g.inputs ∧ (r.apply g).join.isNone = g.join.isNone

theorem Rewrite.rules_keep : ∀ r ∈ (Rewrite.rules : List (Rule D J)), r.KeepsShape := by
  intro r hr g
  simp only [Rewrite.rules, List.mem_cons, List.not_mem_nil, or_false] at hr
  rcases hr with rfl | rfl | rfl | rfl | rfl | rfl
  · simp only [Rewrite.joinRule]
    split
    · rename_i j hj
      split
      · exact ⟨rfl, by simp [hj]⟩
      · exact ⟨rfl, rfl⟩
    · exact ⟨rfl, rfl⟩
  · exact ⟨rfl, rfl⟩
  · exact ⟨rfl, rfl⟩
  · exact ⟨rfl, rfl⟩
  · exact ⟨rfl, rfl⟩
  · simp only [Rewrite.fuseRule]
    split
    · exact ⟨rfl, rfl⟩
    · split
      · exact ⟨rfl, rfl⟩
      · exact ⟨rfl, rfl⟩

theorem Rewrite.step_keep {rs : List (Rule D J)} (h : ∀ r ∈ rs, r.KeepsShape) {g g' : Graph D J} (hs : Rewrite.step rs g = some g') : g'.inputs = g.inputs ∧ g'.join.isNone = g.join.isNone := by
  induction rs with
  | nil => simp [Rewrite.step] at hs
  | cons r rs ih =>
    simp only [Rewrite.step] at hs
    split at hs
    · cases hs; exact h r List.mem_cons_self g
    · exact ih (fun q hq => h q (List.mem_cons_of_mem _ hq)) hs

theorem Rewrite.loopG_keep {rs : List (Rule D J)} (h : ∀ r ∈ rs, r.KeepsShape) (n : Nat) (g : Graph D J) :
    (Rewrite.loopG rs n g).1.inputs = g.inputs ∧ (Rewrite.loopG rs n g).1.join.isNone = g.join.isNone := by
  induction n generalizing g with
  | zero => exact ⟨rfl, rfl⟩
  | succ n ih =>
    simp only [Rewrite.loopG]
    cases hs : Rewrite.step rs g with
    | none => exact ⟨rfl, rfl⟩
    | some g' =>
      obtain ⟨h1, h2⟩ := ih g'
      obtain ⟨h3, h4⟩ := Rewrite.step_keep h hs
      exact ⟨h1.trans h3, h2.trans h4⟩

theorem Rewrite.optimizeG_validate (g : Graph D J) : (Rewrite.optimizeG g).1.validate = g.validate := by
  unfold Rewrite.optimizeG
  cases hv : g.validate with
  | error e => exact hv
  | ok u =>
    obtain ⟨h1, h2⟩ := Rewrite.loopG_keep Rewrite.rules_keep 20 g
    dsimp only
    rw [← hv]
    unfold Graph.validate
    rw [h1, h2]

theorem Rewrite.optimizeG_ok {g : Graph D J} (h : (Rewrite.optimizeG g).2 = .ok ()) : g.validate = .ok () := by
  unfold Rewrite.optimizeG at h
  cases hv : g.validate with
  | error e => rw [hv] at h; cases h
  | ok u => rfl

theorem Graph.execAll_append (g : Graph D J) (xs ys : List (GraphCmd D J)) :
    g.execAll (xs ++ ys) = (((g.execAll xs).1.execAll ys).1, (g.execAll xs).2 ++ ((g.execAll xs).1.execAll ys).2) := by
  induction xs generalizing g with
  | nil => rfl
  | cons x xs ih => simp only [List.cons_append, Graph.execAll, ih]

theorem Graph.execAll_inputs (g : Graph D J) (names : List String) :
    g.execAll (names.map .input) = (names.foldl (fun g k => g.addInput k) g, List.replicate names.length (.ok none)) := by
  induction names generalizing g with
  | nil => rfl
  | cons x l ih => simp only [List.map_cons, Graph.execAll, Graph.exec, ih, List.foldl_cons, List.length_cons, List.replicate_succ]

theorem Graph.execAll_ops (g : Graph D J) {ps : List (PipeOp D J)} {os : List (Op D J)} (h : ps.mapM PipeOp.toOp = .ok os) :
    ∃ g', buildChain g ps = .ok g' ∧ g.execAll (os.map .chain) = (g', List.replicate os.length (.ok none)) := by
  induction ps generalizing g os with
  | nil => cases h; exact ⟨g, rfl, rfl⟩
  | cons p ps ih =>
    rw [List.mapM_cons] at h
    cases hp : p.toOp with
    | error e => rw [hp] at h; cases h
    | ok o =>
      rw [hp] at h
      cases hl : ps.mapM PipeOp.toOp with
      | error e => simp only [hl, bind, Except.bind] at h; cases h
      | ok os' =>
        simp only [hl, bind, Except.bind, pure, Except.pure] at h
        cases h
        obtain ⟨g', e1, e2⟩ := ih (g.addToChain o) hl
        exact ⟨g', by simp only [buildChain, hp, e1], by simp only [List.map_cons, Graph.execAll, Graph.exec, e2, List.length_cons, List.replicate_succ]⟩

theorem buildChain_error (g : Graph D J) {ps : List (PipeOp D J)} {e : Err} (h : ps.mapM PipeOp.toOp = .error e) : buildChain g ps = .error e := by
  induction ps generalizing g with
  | nil => cases h
  | cons p ps ih =>
    rw [List.mapM_cons] at h
    simp only [buildChain]
    cases hp : p.toOp with
    | error e' => rw [hp] at h; cases h; rfl
    | ok o =>
      rw [hp] at h
      cases hl : ps.mapM PipeOp.toOp with
      | error e' =>
        simp only [hl, bind, Except.bind] at h
        cases h
        exact ih _ hl
      | ok os' => simp only [hl, bind, Except.bind, pure, Except.pure] at h; cases h

/-- The calls without the last one build the graph. -/
theorem newCmds_build {sources : List String} {cfg : List (PipeOp D J)} {cmds : List (GraphCmd D J)} (h : newCmds sources cfg = .ok cmds) :
    ∃ pre g, cmds = pre ++ [.optimize] ∧ buildGraph sources cfg = .ok g ∧ Graph.execAll {} pre = (g, List.replicate pre.length (.ok none)) := by
  have key : ∀ (g0 : Graph D J) (pre0 : List (GraphCmd D J)) (l : List (PipeOp D J)) (os : List (Op D J)), l.mapM PipeOp.toOp = .ok os →
      Graph.execAll ({} : Graph D J) pre0 = (g0, List.replicate pre0.length (.ok none)) →
      ∃ g, buildChain g0 l = .ok g ∧ Graph.execAll ({} : Graph D J) (pre0 ++ os.map .chain) = (g, List.replicate (pre0 ++ os.map GraphCmd.chain).length (.ok none)) := by
    intro g0 pre0 l os hos h0
    obtain ⟨g, e1, e2⟩ := Graph.execAll_ops g0 hos
    refine ⟨g, e1, ?_⟩
    rw [Graph.execAll_append, h0]
    simp only [e2, List.length_append, List.length_map, List.replicate_append_replicate]
  have hin : Graph.execAll ({} : Graph D J) (sources.map .input) = (sources.foldl (fun g k => g.addInput k) {}, List.replicate (sources.map (GraphCmd.input (D := D) (J := J))).length (.ok none)) := by
    rw [Graph.execAll_inputs, List.length_map]
  unfold newCmds at h
  unfold buildGraph
  split at h
  · rename_i ev rest
    cases hos : rest.mapM PipeOp.toOp with
    | error e => rw [hos] at h; cases h
    | ok os =>
      rw [hos] at h
      simp only [Except.ok.injEq] at h
      have h0 : Graph.execAll ({} : Graph D J) (sources.map .input ++ [.join (JoinOp.newIncremental ev sources.length)]) =
          ((sources.foldl (fun g k => g.addInput k) ({} : Graph D J)).setJoin (JoinOp.newIncremental ev sources.length),
            List.replicate (sources.map GraphCmd.input ++ [GraphCmd.join (D := D) (J := J) (JoinOp.newIncremental ev sources.length)]).length (.ok none)) := by
        rw [Graph.execAll_append, hin]
        simp only [Graph.execAll, Graph.exec, List.length_append, List.length_cons, List.length_nil]
        rw [← List.replicate_append_replicate]
        rfl
      obtain ⟨g, e1, e2⟩ := key _ _ rest os hos h0
      refine ⟨sources.map .input ++ [.join (JoinOp.newIncremental ev sources.length)] ++ os.map .chain, g, h.symm, e1, e2⟩
  · rename_i l hl
    cases hos : cfg.mapM PipeOp.toOp with
    | error e => rw [hos] at h; cases h
    | ok os =>
      rw [hos] at h
      simp only [Except.ok.injEq] at h
      obtain ⟨g, e1, e2⟩ := key _ _ cfg os hos hin
      refine ⟨sources.map .input ++ os.map .chain, g, h.symm, ?_, e2⟩
      split
      · rename_i ev rest
        exact absurd rfl (hl ev rest)
      · exact e1

end Dctl
