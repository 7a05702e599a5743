import Verif.Spec.HeapSync
import Verif.Pipeline.HeapEmitLemmas
import Verif.Pipeline.RunLemmas
/-!
# Lemmas on `Sync` in memory
-/
set_option autoImplicit false
set_option linter.unusedSectionVars false
namespace Dctl
namespace Mem
variable {J : Type} [DecidableEq J]

theorem storeListM_gives : ∀ {s : HStore} {S : Store CDoc} {h : Heap}, TgtIs h s S → TgtOk S →
    ∃ h' l, Gives (storeListM s) h (h', .ok l) ∧ Ext nowhere h h' ∧ All2 (fun a (q : ObjKey × CDoc) => ObjAt h' a q.2.1) l S
  | [], _, h, .nil, _ => ⟨h, [], gives_pure _ _, Ext.refl _ _, .nil⟩
  | (k, a) :: s, (k', o) :: S, h, .cons ⟨_, ho⟩ ht, hok => by
    obtain ⟨h1, a1, g1, f1, e1⟩ := copyObjM_gives ho
    have hkd : copyObj o.1 = o.1 := (hok _ List.mem_cons_self).2
    rw [hkd] at f1
    obtain ⟨h2, l, g2, e2, hl⟩ := storeListM_gives (TgtIs.grow (s := s) ht e1) (fun q hq => hok q (List.mem_cons_of_mem _ hq))
    exact ⟨h2, a1 :: l, g1.bind (g2.bind (gives_pure _ _)), e1.trans e2 (fun _ _ h => h), .cons (ObjAt.grow f1.reads e2) hl⟩

theorem storeGo_gives {c : Cfg CDoc J} (hc : ∀ d : CDoc, c.key (.map d.1) = d) {N : Nat} : ∀ {l : List Nat} {S : Store CDoc} {h : Heap} {z : HZ CDoc} {Z : ZSet CDoc}, N ≤ h.length →
    All2 (fun a (q : ObjKey × CDoc) => ObjAt h a q.2.1) l S → TgtOk S → ZIs c h (above N) z Z →
    ∃ h' z', Gives (storeGo c z l) h (h', .ok z') ∧ Ext nowhere h h' ∧ ZIs c h' (above N) z' (S.foldl (fun z e => ZSet.addDoc z (jsonOps.removeUID e.2) 1) Z)
  | [], _, h, z, Z, _, .nil, _, hz => ⟨h, z, gives_pure _ _, Ext.refl _ _, hz⟩
  | a :: l, (k, o) :: S, h, z, Z, hN, .cons ho hl, hok, hz => by
    obtain ⟨h1, a1, g1, f1, e1⟩ := copyObjM_gives ho
    have hkd : copyObj o.1 = o.1 := (hok _ List.mem_cons_self).2
    rw [hkd] at f1
    obtain ⟨h2, g2, o2, r2, e2, -⟩ := removeUIDM_gives f1 o.2.sorted
    have e12 : Ext nowhere h h2 := e1.trans e2 (fun b hlt hr => absurd (f1.new b hr) (Nat.not_le.mpr hlt))
    have hd : DocIs c h2 (above N) a1 (jsonOps.removeUID o) := docIs_of hc (o := jsonOps.removeUID o) o2 (fun b hb => Nat.le_trans hN (f1.new b (r2 b hb)))
    obtain ⟨z1, g3, hz1⟩ := addDoc_gives hd (by decide : (1 : Int) ≠ 0) (ZIs.grow hz e12)
    obtain ⟨h3, z', g4, e4, hz'⟩ := storeGo_gives hc (Nat.le_trans hN e12.1) (hl.imp (fun _ _ hp => ObjAt.grow hp e12)) (fun q hq => hok q (List.mem_cons_of_mem _ hq)) hz1
    exact ⟨h3, z', g1.bind (g2.bind (g3.bind g4)), e12.trans e4 (fun _ _ h => h), hz'⟩

theorem TgtOk.perm {S S' : Store CDoc} (h : TgtOk S) (hp : S'.Perm S) : TgtOk S' := fun q hq => h q (hp.mem_iff.mp hq)

theorem storeM_gives {c : Cfg CDoc J} (hc : ∀ d : CDoc, c.key (.map d.1) = d) {N : Nat} (σ : Shuffle) {s : HStore} {S : Store CDoc} {h : Heap} (hN : N ≤ h.length) (hs : TgtIs h s S)
    (hok : TgtOk S) : ∃ h' z', Gives (storeM c σ s) h (h', .ok z') ∧ Ext nowhere h h' ∧ ZIs c h' (above N) z' (storeZSet jsonOps (σ.run S)) := by
  have hok' : TgtOk (σ.run S) := hok.perm (σ.perm S)
  obtain ⟨h1, l, g1, e1, hl⟩ := storeListM_gives (show TgtIs h (σ.run s) (σ.run S) from σ.all2 hs) hok'
  obtain ⟨h2, z', g2, e2, hz'⟩ := storeGo_gives hc (Nat.le_trans hN e1.1) hl hok' (z := []) (Z := []) .nil
  exact ⟨h2, z', g1.bind g2, e1.trans e2 (fun _ _ h => h), hz'⟩

theorem inputsM_gives {c : Cfg CDoc J} (hc : ∀ d : CDoc, c.key (.map d.1) = d) {N : Nat} (σ : Shuffle) {src : HSrc} {C : SrcCache CDoc} (hok : SrcOk C) : ∀ (ss : List GVK) {h : Heap},
    N ≤ h.length → SrcIs h src C →
    ∃ h' zs, Gives (inputsM c σ src ss) h (h', .ok zs) ∧ Ext nowhere h h' ∧ All2 (ZIs c h' (above N)) zs (ss.map (fun s => storeZSet jsonOps (σ.run (C s))))
  | [], h, _, _ => ⟨h, [], gives_pure _ _, Ext.refl _ _, .nil⟩
  | s :: ss, h, hN, hs => by
    obtain ⟨h1, z, g1, e1, hz⟩ := storeM_gives hc σ hN (hs s) (hok s)
    obtain ⟨h2, zs, g2, e2, hzs⟩ := inputsM_gives hc σ hok ss (Nat.le_trans hN e1.1) (hs.grow e1)
    exact ⟨h2, z :: zs, g1.bind (g2.bind (gives_pure _ _)), e1.trans e2 (fun _ _ h => h), .cons (ZIs.grow hz e2) hzs⟩

theorem GraphIs.lt {c : Cfg CDoc J} {h : Heap} {g : HGraph CDoc} {G : Graph CDoc J} (hg : GraphIs c h g G) {b : Nat} (hb : g.Holds h b) : b < h.length := by
  obtain ⟨k, hk, z, hz, e, he, hb⟩ := held_flatten.mp hb
  obtain ⟨A, Z, hZ⟩ := hg.fine k hk z hz
  exact (hZ.held_sub he hb).2

theorem syncInputs_row {sources : List GVK} (hn : (sources.map GVK.kind).Nodup) (ω : EvalOrder CDoc) (C : SrcCache CDoc) :
    syncInputs jsonOps ω sources C = (sources.map GVK.kind).zip (sources.map (fun s => storeZSet jsonOps (ω.store (C s)))) := by
  rw [syncInputs, foldl_set_fresh GVK.kind (fun s => storeZSet jsonOps (ω.store (C s))) sources [] (by simpa using hn), List.nil_append, List.zip_map']

theorem diffM_gives {c : Cfg CDoc J} (hc : ∀ d : CDoc, c.key (.map d.1) = d) {h : Heap} {src : HSrc} {g sg : HGraph CDoc} {tgt : HStore} {p : Pipe CDoc J} (hp : WholeIs c h src g tgt p)
    (hn : (p.sources.map GVK.kind).Nodup) {S : Graph CDoc J} (hS : GraphIs c h sg S) (hi : S.inputs = p.sources.map GVK.kind) (σ : Shuffles) :
    ∃ h' sg' r, Gives (diffM c σ p.sources src sg tgt) h (h', sg', r) ∧ Ext nowhere h h' ∧ GraphIs c h' sg' (diffs σ.eval p S).1 ∧
      SameOutcome (ZIs c h' (fun _ => True)) r (diffs σ.eval p S).2 ∧ ∀ b, sg'.Holds h' b → sg.Holds h b ∨ h.length ≤ b := by
  obtain ⟨h1, ins, g1, e1, hins⟩ := inputsM_gives hc σ.store hp.pipe.ok p.sources (Nat.le_refl h.length) hp.pipe.stores
  have hS1 : GraphIs c h1 sg S := hS.agree (fun b hb => e1.get (hS.lt hb))
  have hback : ∀ b, sg.Holds h1 b → sg.Holds h b := fun b hb => (held_agree (fun b hb => e1.get (hS.lt hb))).mp hb
  have hnew : ∀ b, Held h1 ins b → h.length ≤ b := fun b hb => held_sub_all hins hb
  obtain ⟨h2, sg', r, g2, e2, hS2, hr2, ha1, ha2, ha3⟩ := process_does hS1 hins
    (fun k hk b hb hb' => absurd (hS.lt (hback b (held_flatten.mpr ⟨k, hk, hb⟩))) (Nat.not_lt.mpr (hnew b hb'))) (by rw [hi]; simp)
  have hcall : callGraph S (p.sources.map (fun s => storeZSet jsonOps (σ.store.run (p.src s)))) = S.process σ.eval.exec (syncInputs jsonOps σ.eval p.sources p.src) := by
    rw [callGraph, syncInputs_row hn, hi]; rfl
  rw [hcall] at hS2 hr2
  have hheld : ∀ b, sg'.Holds h2 b → sg.Holds h b ∨ h.length ≤ b := fun b hb => by
    obtain ⟨k, hk, hb⟩ := held_flatten.mp hb
    rcases ha2 k hk b hb with ⟨k, hk, hb⟩ | hb | hb
    · exact .inl (hback b (held_flatten.mpr ⟨k, hk, hb⟩))
    · exact .inr (hnew b hb)
    · exact .inr (Nat.le_trans e1.1 hb)
  have e12 := e1.trans e2 (fun _ _ h => h)
  obtain ⟨N1, H1⟩ := g1
  obtain ⟨N2, H2⟩ := g2
  unfold diffs
  generalize S.process σ.eval.exec (syncInputs jsonOps σ.eval p.sources p.src) = X at hS2 hr2
  obtain ⟨S', R⟩ := X
  match r, R, hr2 with
  | .error e, .error e', hr2 =>
    refine ⟨h2, sg', .error e, ⟨max N1 N2, fun n hn => ?_⟩, e12, hS2, hr2, hheld⟩
    simp only [diffM, H1 n (by omega), H2 n (by omega)]
  | .ok req, .ok Req, ⟨A, hreq⟩ =>
    obtain ⟨h3, cur, g3, e3, hcur⟩ := storeM_gives hc σ.store (Nat.zero_le _) (TgtIs.grow hp.tgt e12) hp.ok
    obtain ⟨h4, r4, g4, e4, s4⟩ := subZ_does (ZIs.grow hreq e3) hcur
    have e34 := e3.trans e4 (fun _ _ h => h)
    obtain ⟨N3, H3⟩ := g3.bind g4
    refine ⟨h4, sg', r4, ⟨max N1 (max N2 N3), fun n hn => ?_⟩, e12.trans e34 (fun _ _ h => h), hS2.agree (fun b hb => e34.get (hS2.lt hb)), ?_, fun b hb => ?_⟩
    · simp only [diffM, H1 n (by omega), H2 n (by omega), H3 n (by omega)]
    · match r4, s4 with
      | .ok z, s4 => exact ZIs.mono s4 (fun _ _ _ => trivial)
    · exact hheld b ((held_agree (fun b hb => e34.get (hS2.lt hb))).mp hb)

theorem toSnapshot_op {c : Cfg CDoc J} {h : Heap} {A : Region} {o : HOp CDoc} {O : Op CDoc J} (ho : OpIs c h A o O) :
    SameOutcome (fun o' O' => (∀ B, OpIs c h B o' O') ∧ o'.kept = []) o.toSnapshot O.toSnapshot := by
  cases ho <;> first
    | exact rfl
    | exact ⟨fun _ => by constructor <;> assumption, rfl⟩

theorem snapChainM_gives {c : Cfg CDoc J} {h : Heap} {A : HOp CDoc → Region} : ∀ {os : List (HOp CDoc)} {nds : List (Node CDoc J)}, All2 (fun o (nd : Node CDoc J) => OpIs c h (A o) o nd.op) os nds →
    SameOutcome (fun os' nds' => All2 (fun o (nd : Node CDoc J) => (∀ B, OpIs c h B o nd.op) ∧ o.kept = []) os' nds') (snapChainM os) (convertChain Op.toSnapshot nds)
  | [], _, .nil => .nil
  | o :: os, nd :: nds, .cons ho hos => by
    have h1 := toSnapshot_op ho
    have h2 := snapChainM_gives hos
    rw [snapChainM, convertChain]
    match o.toSnapshot, nd.op.toSnapshot, h1 with
    | .error e, .error e', h1 => exact h1
    | .ok o', .ok O', h1 =>
      dsimp only
      match snapChainM os, convertChain Op.toSnapshot nds, h2 with
      | .error e, .error e', h2 => exact h2
      | .ok r, .ok R, h2 => exact .cons h1 h2

theorem dedup_fresh : ∀ (l acc : List String), (acc ++ l).Nodup → l.foldl (fun acc n => if n ∈ acc then acc else acc ++ [n]) acc = acc ++ l
  | [], acc, _ => by simp
  | x :: l, acc, h => by
    have hx : x ∉ acc := fun hm => by
      rw [List.nodup_append] at h
      exact h.2.2 x hm x List.mem_cons_self rfl
    rw [List.foldl_cons, if_neg hx, dedup_fresh l (acc ++ [x]) (by simpa using h)]
    simp

theorem toSnapshot_gives {c : Cfg CDoc J} {h : Heap} {g : HGraph CDoc} {G : Graph CDoc J} (hg : GraphIs c h g G) :
    SameOutcome (fun s S => GraphIs c h s S ∧ S.inputs = G.inputs ∧ ∀ b, ¬ s.Holds h b) (g.toSnapshot G.inputs) G.toSnapshot := by
  have hc := snapChainM_gives hg.chain
  have hjn : g.join.isNone = G.join.isNone := by
    have := hg.join
    match hj1 : g.join, hj2 : G.join, this with
    | some _, some _, _ => rfl
    | none, none, _ => rfl
    | some _, none, hx => exact hx.elim
    | none, some _, hx => exact hx.elim
  unfold HGraph.toSnapshot Graph.toSnapshot Graph.convert Graph.validate
  rw [hjn]
  split
  · exact rfl
  · split
    · exact rfl
    · dsimp only
      match snapChainM g.chain, convertChain Op.toSnapshot G.chain, hc with
      | .error e, .error e', hc => exact hc
      | .ok r, .ok R, hc =>
        have hch : All2 (fun o (nd : Node CDoc J) => (∀ B, OpIs c h B o nd.op) ∧ o.kept = []) r R := hc
        have hk : ∀ k ∈ (⟨g.join.map HJoin.toSnapshot, r⟩ : HGraph CDoc).kept, k = [] := by
          intro k hk
          rcases List.mem_cons.mp hk with rfl | hk
          · cases hj : g.join with
            | none => simp
            | some j => cases j <;> rfl
          · obtain ⟨o, ho, rfl⟩ := List.mem_map.mp hk
            obtain ⟨nd, -, hnd⟩ := All2.left hch ho
            exact hnd.2
        have hh : ∀ k ∈ (⟨g.join.map HJoin.toSnapshot, r⟩ : HGraph CDoc).kept, ∀ b, ¬ Held h k b := by
          rintro k hk' b ⟨z, hz, -⟩
          rw [hk k hk'] at hz
          cases hz
        have hin : G.inputs.foldl (fun acc n => if n ∈ acc then acc else acc ++ [n]) [] = G.inputs := by
          rw [dedup_fresh G.inputs [] (by simpa using hg.names), List.nil_append]
        refine ⟨⟨by rw [hin]; exact hg.names, ?_, hch.imp (fun _ _ ho => ho.1 _), ?_⟩, hin, fun b hb => ?_⟩
        · have := hg.join
          match hj1 : g.join, hj2 : G.join, this with
          | none, none, _ => exact trivial
          | some j, some J', hx =>
            cases (show JoinIs c h _ j J' from hx) with
            | snap h1 => exact JoinIs.snap h1
            | incr h1 h2 h3 => exact JoinIs.snap h1
          | some _, none, hx => exact hx.elim
          | none, some _, hx => exact hx.elim
        · refine List.pairwise_iff_forall_sublist.mpr (fun {a b} hs x hx => absurd hx (hh a (hs.subset (by simp)) x))
        · obtain ⟨k, hk', hb⟩ := held_flatten.mp hb
          exact hh k hk' b hb

end Mem
end Dctl
