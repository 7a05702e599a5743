import Verif.Dbsp.HeapOpLemmas
/-!
# Lemmas for C110: unwinding, gathering, joins, chains
-/
set_option autoImplicit false
set_option linter.unusedSectionVars false
namespace Dctl
namespace Mem
variable {K J : Type} [DecidableEq K] [DecidableEq J]

/-! ### unwinding -/

theorem copy_transform {c : Cfg K J} {t : Nat → Nat × Val → M Nat} {f : K → J → Except Err K} (ht : ElemWrites c t f) {h : Heap} {A B : Region}
    {a : Nat} {k : K} {x : Nat × Val} {w : J} (ha : DocIs c h A a k) (hx : ElemIs c h B x w) :
    Does nowhere h ((copyDoc a).bind (fun a' => t a' x)) (f k w) (fun h' b k' => DocIs c h' (orNew B h) b k') := by
  refine ((copyDoc_does ha).bind (g := fun _ => f k w) (fun h' a' _ hext ha' => ?_)).congr rfl rfl
  refine (ht h' _ _ a' k x w ha' (hx.ext hext (fun _ _ _ h => h)) (fun b h1 h2 => ?_)).weaken (fun b _ hb => Or.inr hb)
    (fun h'' b k' _ hq => hq.mono (fun b _ hb => ?_))
  · exact absurd h2.2 (Nat.not_lt.mpr h1)
  · rcases hb with (hb | hb) | hb
    · exact .inr hb
    · exact .inl hb.1
    · exact .inr (Nat.le_trans hext.1 hb)

theorem unwindElems_cons (tr : K → J → Except Err K) (x : K) (m : Int) (acc : ZSet K) (e : J) (es : List J) :
    unwindElems tr x m acc (e :: es) = (tr x e).bind (fun d => (Except.ok (acc.addDoc d m)).bind (fun acc' => unwindElems tr x m acc' es)) := by
  rw [unwindElems]; cases tr x e <;> rfl

theorem unwindDoc_does {c : Cfg K J} {u : Unwind} {tr : K → J → Except Err K} (ht : ElemWrites c u.transform tr) {A R : Region} (hAR : ∀ b, A b → R b)
    {a : Nat} {k : K} (m : Int) {es : List (Nat × Val)} {ws : List J} : ∀ {h : Heap} {acc : HZ K} {Acc : ZSet K}, (∀ b, h.length ≤ b → R b) →
    DocIs c h A a k → All2 (ElemIs c h A) es ws → ZIs c h R acc Acc →
    Does nowhere h (unwindDoc c u a m acc es) (unwindElems tr k m Acc ws) (fun h' r R' => ZIs c h' R r R') := by
  induction es generalizing ws with
  | nil => intro h acc Acc hR ha hes hacc; cases hes; exact Does.pure hacc
  | cons x t ih =>
    intro h acc Acc hR ha hes hacc
    cases hes with
    | @cons _ w _ ws hx hes =>
      rw [unwindElems_cons, unwindDoc, ← M.bind_assoc]
      refine (copy_transform ht ha hx).then (fun h1 b k' he1 hq => ?_)
      have hq' : DocIs c h1 R b k' := hq.mono (fun b _ hb => hb.elim (hAR b) (hR b))
      refine (addDoc_does hq' m (ZIs.grow hacc he1)).then (fun h2 acc' Acc' he2 hacc' => ?_)
      exact ih (fun b hb => hR b (Nat.le_trans he1.1 (Nat.le_trans he2.1 hb))) ((ha.grow he1).grow he2)
        (hes.imp (fun _ _ h => (h.grow he1).grow he2)) hacc'

theorem unwindGo_cons (ex : K → Except Err (Option (List J))) (tr : K → J → Except Err K) (acc : ZSet K) (x : K) (m : Int) (t : ZSet K) :
    Dctl.unwindGo ex tr acc ((x, m) :: t) = (ex x).bind (fun r => match r with
      | none => Dctl.unwindGo ex tr acc t
      | some es => (unwindElems tr x m acc es).bind (fun acc' => Dctl.unwindGo ex tr acc' t)) := by
  rw [Dctl.unwindGo]
  cases ex x with
  | error e => rfl
  | ok r =>
    cases r with
    | none => rfl
    | some es => simp only [Except.bind]; cases unwindElems tr x m acc es <;> rfl

theorem unwindGo_does {c : Cfg K J} {u : Unwind} {ex : K → Except Err (Option (List J))} {tr : K → J → Except Err K}
    (hex : ElemsRead c u.extract ex) (ht : ElemWrites c u.transform tr) {A R : Region} (hAR : ∀ b, A b → R b) {z : HZ K} {Z : ZSet K} :
    ∀ {h : Heap} {acc : HZ K} {Acc : ZSet K}, (∀ b, h.length ≤ b → R b) → ZIs c h A z Z → ZIs c h R acc Acc →
    Does nowhere h (unwindGo c u acc z) (Dctl.unwindGo ex tr Acc Z) (fun h' r R' => ZIs c h' R r R') := by
  induction z generalizing Z with
  | nil => intro h acc Acc hR hz hacc; cases hz; exact Does.pure hacc
  | cons e' t ih =>
    obtain ⟨k, a, m⟩ := e'
    intro h acc Acc hR hz hacc
    cases hz with
    | @cons _ q _ T he ht' =>
      obtain ⟨k', m'⟩ := q
      obtain ⟨h1, h2, h3⟩ := he
      simp only at h1 h2 h3
      subst h1 h2
      rw [unwindGo_cons, unwindGo]
      refine (hex h A a k h3).then (fun h1 r s he1 hq => ?_)
      have hR1 : ∀ b, h1.length ≤ b → R b := fun b hb => hR b (Nat.le_trans he1.1 hb)
      match r, s, hq with
      | none, none, _ => exact ih hR1 (ZIs.grow ht' he1) (ZIs.grow hacc he1)
      | some es, some ws, hq =>
        have hq' : All2 (ElemIs c h1 R) es ws := All2.imp hq (fun _ _ hd => ElemIs.mono hd (fun b _ hb => hb.elim (hAR b) (hR b)))
        refine (unwindDoc_does ht (fun _ h => h) m hR1 ((h3.grow he1).mono (fun b _ => hAR b)) hq' (ZIs.grow hacc he1)).then (fun h2 acc' Acc' he2 hacc' => ?_)
        exact ih (fun b hb => hR1 b (Nat.le_trans he2.1 hb)) (ZIs.grow (ZIs.grow ht' he1) he2) hacc'

/-! ### gathering -/

/-- A group in memory is the abstract group. -/
def GroupIs (c : Cfg K J) (h : Heap) (A : Region) (g : HGroup J) (G : Group K J) : Prop :=
  g.name = G.key ∧ ValIs c h A g.key G.key ∧ All2 (ValIs c h A) g.vals G.vals ∧ DocIs c h A g.doc G.doc

theorem GroupIs.grow {c : Cfg K J} {h h' : Heap} {A : Region} {g : HGroup J} {G : Group K J} (hg : GroupIs c h A g G) (he : Ext nowhere h h') :
    GroupIs c h' A g G := ⟨hg.1, hg.2.1.grow he, hg.2.2.1.imp (fun _ _ h => h.grow he), hg.2.2.2.grow he⟩

theorem removeMatch_does {c : Cfg K J} {h : Heap} {A : Region} (j : J) {vs : List Val} {ws : List J} (hv : All2 (ValIs c h A) vs ws) :
    Does nowhere h (removeMatch c j vs) (.ok (removeFirstMatch ws j)) (fun h' r r' => h' = h ∧ All2 (ValIs c h A) r r') := by
  induction hv with
  | nil => exact Does.pure ⟨rfl, .nil⟩
  | @cons v w vs ws hvw hrest ih =>
    obtain ⟨j', hr, hk, hA⟩ := id hvw
    obtain ⟨N, hN⟩ := hr.gives
    obtain ⟨h', r, ⟨N', hN'⟩, he, hs⟩ := ih
    match r, hs with
    | .ok r, hs =>
      obtain ⟨rfl, hs⟩ : h' = h ∧ All2 (ValIs c h A) r (removeFirstMatch ws j) := hs
      by_cases hwj : w = j
      · refine ⟨h', .ok vs, ⟨N, fun n hn => ?_⟩, Ext.refl _ _, ?_⟩
        · simp only [removeMatch, hN n hn, hk, hwj, if_true]
        · subst hwj; simpa [SameOutcome, removeFirstMatch] using hrest
      · refine ⟨h', .ok (v :: r), ⟨max N N', fun n hn => ?_⟩, Ext.refl _ _, ?_⟩
        · simp only [removeMatch, hN n (by omega), hk, hwj, if_false]
          rw [bind_ok (hN' n (by omega))]; rfl
        · simp only [SameOutcome, removeFirstMatch, List.erase_cons, beq_iff_eq, hwj, if_false]
          exact ⟨trivial, .cons hvw hs⟩
    | .error _, hs => exact absurd hs (by simp [SameOutcome])

theorem removeMatches_does {c : Cfg K J} {h : Heap} {A : Region} (j : J) : ∀ (i : Nat) {vs : List Val} {ws : List J}, All2 (ValIs c h A) vs ws →
    Does nowhere h (removeMatches c j i vs) (.ok ((List.replicate i j).foldl removeFirstMatch ws)) (fun h' r r' => h' = h ∧ All2 (ValIs c h A) r r')
  | 0, vs, ws, hv => Does.pure ⟨rfl, hv⟩
  | i + 1, vs, ws, hv => by
    refine ((removeMatch_does j hv).then (g := fun ws => .ok ((List.replicate i j).foldl removeFirstMatch ws)) (fun h' r r' he hq => ?_)).congr rfl rfl
    obtain ⟨rfl, hq⟩ := hq
    exact removeMatches_does j i hq

theorem applyMultH_does {c : Cfg K J} {h : Heap} {A : Region} {v : Val} {w : J} (hv : ValIs c h A v w) (m : Int) {vs : List Val} {ws : List J}
    (hvs : All2 (ValIs c h A) vs ws) :
    Does nowhere h (applyMultH c vs v m) (.ok (applyMult ws w m)) (fun h' r r' => h' = h ∧ All2 (ValIs c h A) r r') := by
  by_cases hm : m > 0
  · refine ⟨h, .ok (vs ++ List.replicate m.toNat v), ⟨0, fun n _ => by simp [applyMultH, hm]⟩, Ext.refl _ _, ?_⟩
    simp only [applyMult, hm, if_true, SameOutcome]
    exact ⟨trivial, hvs.append (All2.replicate hv _)⟩
  · obtain ⟨j, hr, hk, hA⟩ := id hv
    obtain ⟨N, hN⟩ := hr.gives
    obtain ⟨h', r, ⟨N', hN'⟩, he, hs⟩ := removeMatches_does (c := c) w (-m).toNat hvs
    refine ⟨h', r, ⟨max N N', fun n hn => ?_⟩, he, ?_⟩
    · simp only [applyMultH, hm, if_false, hN n (by omega), hk]; exact hN' n (by omega)
    · simpa only [applyMult, hm, if_false] using hs

theorem updGroupH_does {c : Cfg K J} {h : Heap} {A : Region} {key v : Val} {kw w : J} {a : Nat} {x : K} (hk : ValIs c h A key kw) (hv : ValIs c h A v w)
    (ha : DocIs c h A a x) (m : Int) {gs : List (HGroup J)} {Gs : List (Group K J)} (hg : All2 (GroupIs c h A) gs Gs) :
    Does nowhere h (updGroupH c kw key v a m gs) (.ok (updGroup kw w x m Gs)) (fun h' r r' => h' = h ∧ All2 (GroupIs c h A) r r') := by
  induction hg with
  | nil =>
    refine ((applyMultH_does hv m .nil).then (g := fun vs => .ok [⟨kw, vs, x⟩]) (fun h' r r' he hq => ?_)).congr rfl rfl
    obtain ⟨rfl, hq⟩ := hq
    exact Does.pure ⟨rfl, .cons ⟨rfl, hk, hq, ha⟩ .nil⟩
  | @cons g G gs Gs hgG hrest ih =>
    rw [updGroupH, updGroup]
    by_cases hn : g.name = kw
    · have hn' : G.key = kw := by rw [← hgG.1]; exact hn
      simp only [hn, hn', if_true]
      refine ((applyMultH_does hv m hgG.2.2.1).then (g := fun vs => .ok ({ G with vals := vs } :: Gs)) (fun h' r r' he hq => ?_)).congr rfl (by rw [hn']; rfl)
      obtain ⟨rfl, hq⟩ := hq
      exact Does.pure ⟨rfl, .cons ⟨hn'.symm, hgG.2.1, hq, hgG.2.2.2⟩ hrest⟩
    · have hn' : G.key ≠ kw := by rw [← hgG.1]; exact hn
      simp only [hn, hn', if_false]
      refine (ih.then (g := fun Gs => .ok (G :: Gs)) (fun h' r r' he hq => ?_)).congr rfl rfl
      obtain ⟨rfl, hq⟩ := hq
      exact Does.pure ⟨rfl, .cons hgG hq⟩

theorem valKey_does {c : Cfg K J} {h : Heap} {A : Region} {v : Val} {w : J} (hv : ValIs c h A v w) :
    Does nowhere h (valKey c v) (.ok w) (fun h' r r' => h' = h ∧ r = w ∧ r' = w) := by
  obtain ⟨j, hr, hk, hA⟩ := hv
  obtain ⟨N, hN⟩ := hr.gives
  exact ⟨h, .ok w, ⟨N, fun n hn => by simp [valKey, hN n hn, hk]⟩, Ext.refl _ _, rfl, rfl, rfl⟩

theorem gatherGroups_cons (G : Gather K J) (acc : List (Group K J)) (x : K) (m : Int) (t : ZSet K) :
    gatherGroups G acc ((x, m) :: t) = (G.key x).bind (fun k => match k with
      | none => gatherGroups G acc t
      | some k => (G.val x).bind (fun v => match v with
        | none => gatherGroups G acc t
        | some v => (Except.ok k).bind (fun k => (Except.ok (updGroup k v x m acc)).bind (fun acc' => gatherGroups G acc' t)))) := by
  rw [gatherGroups]
  cases G.key x with
  | error e => rfl
  | ok k =>
    cases k with
    | none => rfl
    | some k =>
      simp only [Except.bind]
      cases G.val x with
      | error e => rfl
      | ok v => cases v <;> rfl

theorem gatherGroupsH_does {c : Cfg K J} {g : HGather} {G : Gather K J} (hkey : ValReads c g.key G.key) (hval : ValReads c g.val G.val)
    {A R : Region} (hAR : ∀ b, A b → R b) {z : HZ K} {Z : ZSet K} :
    ∀ {h : Heap} {acc : List (HGroup J)} {Acc : List (Group K J)}, (∀ b, h.length ≤ b → R b) → ZIs c h A z Z → All2 (GroupIs c h R) acc Acc →
    Does nowhere h (gatherGroupsH c g acc z) (gatherGroups G Acc Z) (fun h' r R' => All2 (GroupIs c h' R) r R') := by
  induction z generalizing Z with
  | nil => intro h acc Acc hR hz hacc; cases hz; exact Does.pure hacc
  | cons e' t ih =>
    obtain ⟨k, a, m⟩ := e'
    intro h acc Acc hR hz hacc
    cases hz with
    | @cons _ q _ T he ht' =>
      obtain ⟨k', m'⟩ := q
      obtain ⟨h1, h2, h3⟩ := he
      simp only at h1 h2 h3
      subst h1 h2
      rw [gatherGroups_cons, gatherGroupsH]
      refine (hkey h A a k h3).then (fun h1 r s he1 hq => ?_)
      have hR1 : ∀ b, h1.length ≤ b → R b := fun b hb => hR b (Nat.le_trans he1.1 hb)
      have hacc1 : All2 (GroupIs c h1 R) acc Acc := hacc.imp (fun _ _ h => h.grow he1)
      match r, s, hq with
      | none, none, _ => exact ih hR1 (ZIs.grow ht' he1) hacc1
      | some kv, some kw, hq =>
        have hq1 : ValIs c h1 R kv kw := ValIs.mono hq (fun b _ hb => hb.elim (hAR b) (hR b))
        refine (hval h1 A a k (h3.grow he1)).then (fun h2 r s he2 hq => ?_)
        have hR2 : ∀ b, h2.length ≤ b → R b := fun b hb => hR1 b (Nat.le_trans he2.1 hb)
        have hacc2 : All2 (GroupIs c h2 R) acc Acc := hacc1.imp (fun _ _ h => h.grow he2)
        match r, s, hq with
        | none, none, _ => exact ih hR2 (ZIs.grow (ZIs.grow ht' he1) he2) hacc2
        | some v, some w, hq =>
          have hq2 : ValIs c h2 R v w := ValIs.mono hq (fun b _ hb => hb.elim (hAR b) (hR1 b))
          refine (valKey_does (hq1.grow he2)).then (fun h3' r' s' he3 hq3 => ?_)
          obtain ⟨rfl, rfl, rfl⟩ := hq3
          refine (updGroupH_does (hq1.grow he2) hq2 (((h3.grow he1).grow he2).mono (fun b _ => hAR b)) m hacc2).then (fun h4 acc' Acc' he4 hq4 => ?_)
          obtain ⟨rfl, hq4⟩ := hq4
          exact ih hR2 (ZIs.grow (ZIs.grow ht' he1) he2) hq4

theorem copy_aggregate {c : Cfg K J} {t : Nat → Val → List Val → M Nat} {f : K → J → List J → Except Err K} (ht : AggWrites c t f) {h : Heap} {A B : Region}
    {a : Nat} {k : K} {v : Val} {w : J} {vs : List Val} {ws : List J} (ha : DocIs c h A a k) (hv : ValIs c h B v w) (hvs : All2 (ValIs c h B) vs ws) :
    Does nowhere h ((copyDoc a).bind (fun a' => t a' v vs)) (f k w ws) (fun h' b k' => DocIs c h' (orNew B h) b k') := by
  refine ((copyDoc_does ha).bind (g := fun _ => f k w ws) (fun h' a' _ hext ha' => ?_)).congr rfl rfl
  refine (ht h' _ _ a' k v w vs ws ha' (hv.ext hext (fun _ _ _ h => h)) (hvs.imp (fun _ _ hv => hv.ext hext (fun _ _ _ h => h))) (fun b h1 h2 => ?_)).weaken
    (fun b _ hb => Or.inr hb) (fun h'' b k' _ hq => hq.mono (fun b _ hb => ?_))
  · exact absurd h2.2 (Nat.not_lt.mpr h1)
  · rcases hb with (hb | hb) | hb
    · exact .inr hb
    · exact .inl hb.1
    · exact .inr (Nat.le_trans hext.1 hb)

theorem gatherAgg_cons (G : Gather K J) (acc : ZSet K) (gr : Group K J) (gs : List (Group K J)) :
    gatherAgg G acc (gr :: gs) = (G.agg gr.doc gr.key (G.sort gr.vals)).bind (fun d => (Except.ok (acc.addDoc d 1)).bind (fun acc' => gatherAgg G acc' gs)) := by
  rw [gatherAgg]; cases G.agg gr.doc gr.key (G.sort gr.vals) <;> rfl

theorem gatherAggH_does {c : Cfg K J} {g : HGather} {G : Gather K J} (hagg : AggWrites c g.agg G.agg) (hsort : SortReads c g.sort G.sort)
    {R : Region} {gs : List (HGroup J)} {Gs : List (Group K J)} : ∀ {h : Heap} {acc : HZ K} {Acc : ZSet K}, (∀ b, h.length ≤ b → R b) →
    All2 (GroupIs c h R) gs Gs → ZIs c h R acc Acc →
    Does nowhere h (gatherAggH c g acc gs) (gatherAgg G Acc Gs) (fun h' r R' => ZIs c h' R r R') := by
  induction gs generalizing Gs with
  | nil => intro h acc Acc hR hg hacc; cases hg; exact Does.pure hacc
  | cons gr gs ih =>
    intro h acc Acc hR hg hacc
    cases hg with
    | @cons _ Gr _ Gs hgr hgs =>
      obtain ⟨vs', ⟨N, hN⟩, hvs⟩ := hsort h R _ _ hgr.2.2.1
      have hs : Does nowhere h (g.sort gr.vals) (.ok ()) (fun h' r _ => h' = h ∧ r = vs') := ⟨h, .ok vs', ⟨N, hN⟩, Ext.refl _ _, rfl, rfl⟩
      rw [gatherAggH]
      refine (hs.then (g := fun _ => gatherAgg G Acc (Gr :: Gs)) (fun h0 r _ he hq => ?_)).congr rfl rfl
      obtain ⟨rfl, rfl⟩ := hq
      rw [gatherAgg_cons, ← M.bind_assoc]
      refine (copy_aggregate hagg hgr.2.2.2 hgr.2.1 hvs).then (fun h1 b k' he1 hq => ?_)
      have hq' : DocIs c h1 R b k' := hq.mono (fun b _ hb => hb.elim id (hR b))
      refine (addDoc_does hq' 1 (ZIs.grow hacc he1)).then (fun h2 acc' Acc' he2 hacc' => ?_)
      exact ih (fun b hb => hR b (Nat.le_trans he1.1 (Nat.le_trans he2.1 hb))) (hgs.imp (fun _ _ h => (h.grow he1).grow he2)) hacc'

end Mem
end Dctl
