import Verif.Spec.HeapEmit
import Verif.Pipeline.HeapConvertLemmas
/-! Helper lemmas for C124. -/
set_option autoImplicit false
set_option linter.unusedSectionVars false
namespace Dctl
namespace Mem
variable {J : Type} [DecidableEq J]

/-! ### orders -/

theorem all2_map {A B : Type} {R : A → B → Prop} : ∀ {ps : List (A × B)}, (∀ p ∈ ps, R p.1 p.2) → All2 R (ps.map Prod.fst) (ps.map Prod.snd)
  | [], _ => .nil
  | p :: _, h => .cons (h p (List.mem_cons_self ..)) (all2_map (fun q hq => h q (List.mem_cons_of_mem _ hq)))

theorem all2_pairs {A B : Type} {R : A → B → Prop} {as : List A} {bs : List B} (h : All2 R as bs) :
    ∃ ps : List (A × B), as = ps.map Prod.fst ∧ bs = ps.map Prod.snd ∧ ∀ p ∈ ps, R p.1 p.2 := by
  induction h with
  | nil => exact ⟨[], rfl, rfl, fun p hp => by cases hp⟩
  | @cons a b as bs hr _ ih =>
    obtain ⟨ps, h1, h2, h3⟩ := ih
    refine ⟨(a, b) :: ps, by simp [h1], by simp [h2], fun p hp => ?_⟩
    rcases List.mem_cons.mp hp with e | hp
    · subst e; exact hr
    · exact h3 p hp

theorem Shuffle.all2 (σ : Shuffle) {A B : Type} {R : A → B → Prop} {as : List A} {bs : List B} (h : All2 R as bs) : All2 R (σ.run as) (σ.run bs) := by
  obtain ⟨ps, h1, h2, h3⟩ := all2_pairs h
  rw [h1, h2, σ.natural, σ.natural]
  exact all2_map (fun p hp => h3 p ((σ.perm ps).mem_iff.mp hp))

theorem all2_filter {A B : Type} {R : A → B → Prop} {f : A → Bool} {g : B → Bool} (hfg : ∀ a b, R a b → f a = g b) {as : List A} {bs : List B} (h : All2 R as bs) :
    All2 R (as.filter f) (bs.filter g) := by
  induction h with
  | nil => exact .nil
  | @cons a b as bs hr _ ih =>
    rw [List.filter_cons, List.filter_cons, hfg a b hr]
    split
    · exact .cons hr ih
    · exact ih

/-! ### writes into a fresh object -/

/-- The map at a field of a fresh object is replaced, in place, by a map with values of the old one and values without references. -/
theorem Fresh.inner {N : Nat} {h : Heap} {a : Nat} {o : Obj} (hf : Fresh N h a o) (hs : SMap.Sorted o) {m : List (String × Val)} (ha : h[a]? = some (.map m)) {k : String} {x : Nat}
    (hmk : SMap.get m k = some (.ref x)) {mm : List (String × Val)} (hx : h[x]? = some (.map mm)) {mm' : List (String × Val)} {om' : SMap Json} {n : Nat}
    (hr : readFields (read n h) mm' = some om') (hsub : ∀ k2 v2, (k2, v2) ∈ mm' → (∃ k3, (k3, v2) ∈ mm) ∨ ∀ y, v2 ≠ .ref y) :
    Fresh N (h.set x (.map mm')) a (SMap.set o k (.map om')) ∧ Ext (above N) h (h.set x (.map mm')) := by
  obtain ⟨n0, m0, ha0, hm⟩ := hf.reads.cell
  rw [ha] at ha0; injection ha0 with ha0; injection ha0 with ha0; subst ha0
  have hmem := SMap.mem_of_get hmk
  have hms : SMap.Sorted m := sorted_keys (readFields_keys hm) hs
  have hax : Reach h (.ref a) x := .field ha hmem (.here x)
  have hNx : N ≤ x := hf.new x hax
  have hxl : x < h.length := hf.reads.lt hax
  have hread : Mem.read (n0 + 1) h (.ref a) = some (.map o) := by rw [read_map ha, hm]; rfl
  have hne : a ≠ x := fun e => read_acyclic ha hmem hread (by rw [e]; exact .here x)
  obtain ⟨jx, hjx⟩ := readFields_some hm k _ hmem
  have hacx : ∀ {k3 v3}, (k3, v3) ∈ mm → ¬ Reach h v3 x := fun hm3 => read_acyclic hx hm3 hjx
  have hc : (h.set x (.map mm'))[x]? = some (.map mm') := List.getElem?_set_self hxl
  have hca : (h.set x (.map mm'))[a]? = some (.map m) := by rw [set_other hne, ha]
  have hin : ∀ k2 v2, (k2, v2) ∈ mm' → ∀ b, Reach h v2 b → (h.set x (.map mm'))[b]? = h[b]? := fun k2 v2 hm2 b hb => by
    rcases hsub k2 v2 hm2 with ⟨k3, hm3⟩ | hno
    · exact set_other (fun e => hacx hm3 (e ▸ hb))
    · exact absurd hb (no_reach hno)
  have hoth : ∀ k2 v2, (k2, v2) ∈ m → k2 ≠ k → ∀ b, Reach h v2 b → (h.set x (.map mm'))[b]? = h[b]? :=
    fun k2 v2 hm2 hk2 b hb => set_other (fun e => hf.apart m ha k2 v2 k _ hm2 hmem hk2 b hb (by rw [e]; exact .here x))
  have hback : ∀ k2 v2, (k2, v2) ∈ m → ∀ b, Reach (h.set x (.map mm')) v2 b → Reach h v2 b := by
    intro k2 v2 hm2 b hb
    by_cases hk2 : k2 = k
    · subst hk2
      have : v2 = .ref x := by
        have h3 := SMap.get_of_mem hms hm2
        rw [hmk] at h3; injection h3 with h3; exact h3.symm
      subst this
      cases hb with
      | here => exact .here x
      | @field _ _ _ k4 v4 hy hm4 hb =>
        rw [hc] at hy; injection hy with hy; injection hy with hy; subst hy
        rcases hsub k4 v4 hm4 with ⟨k3, hm3⟩ | hno
        · exact .field hx hm3 (reach_frame hb (hin k4 v4 hm4))
        · exact absurd hb (no_reach hno)
      | elem hy _ _ => rw [hc] at hy; cases hy
    · exact reach_frame hb (hoth k2 v2 hm2 hk2)
  refine ⟨⟨?_, fun b hb => ?_, fun m' hm' k1 v1 k2 v2 h1 h2 hne' b hb1 hb2 => ?_⟩, ext_set hNx _⟩
  · have hm2 : readFields (Mem.read (max n0 (n + 1)) h) m = some o := readFields_mono hm (fun k v j _ hj => read_mono hj (by omega))
    have hr2 : readFields (Mem.read (max n0 (n + 1) - 1) h) mm' = some om' := readFields_mono hr (fun k v j _ hj => read_mono hj (by omega))
    refine objAt_of_cell (n := max n0 (n + 1)) hca (readFields_change hms hm2 (fun k2 v2 hm2 hk2 => read_frame _ (hoth k2 v2 hm2 hk2)) hmk ?_)
    obtain ⟨q, hq⟩ : ∃ q, max n0 (n + 1) = q + 1 := ⟨max n0 (n + 1) - 1, by omega⟩
    rw [hq] at hr2 ⊢
    rw [read_map hc]
    have : readFields (Mem.read q (h.set x (.map mm'))) mm' = some om' := by
      rw [← (show readFields (Mem.read q h) mm' = some om' from hr2)]
      exact readFields_congr (fun k2 v2 hm2 => read_frame _ (hin k2 v2 hm2))
    rw [this]; rfl
  · cases hb with
    | here => exact hf.new a (.here a)
    | field hy hm2 hb =>
      rw [hca] at hy; injection hy with hy; injection hy with hy; subst hy
      exact hf.new b (.field ha hm2 (hback _ _ hm2 b hb))
    | elem hy _ _ => rw [hca] at hy; cases hy
  · rw [hca] at hm'; injection hm' with hm'; injection hm' with hm'; subst hm'
    exact hf.apart m ha k1 v1 k2 v2 h1 h2 hne' b (hback _ _ h1 b hb1) (hback _ _ h2 b hb2)

/-- A string in a map in a fresh object is set or removed in place. -/
theorem Fresh.setStrIn {N : Nat} {h : Heap} {a : Nat} {o : Obj} (hf : Fresh N h a o) (hs : SMap.Sorted o) {k : String} {om : SMap Json} (hk : SMap.get o k = some (.map om)) (k' s : String) :
    Fresh N (setStrH h a [k, k'] s) a (Dctl.setStr o [k, k'] s) ∧ Ext (above N) h (setStrH h a [k, k'] s) := by
  obtain ⟨n, m, ha, hm⟩ := hf.reads.cell
  have hget := readFields_get (k := k) hm
  rw [hk] at hget
  cases hmk : SMap.get m k with
  | none => rw [hmk] at hget; cases hget
  | some w =>
    rw [hmk] at hget
    have hw : Mem.read n h w = some (.map om) := hget.symm
    cases w with
    | ref x =>
      cases n with
      | zero => rw [read_zero] at hw; cases hw
      | succ n =>
        cases hxc : h[x]? with
        | none => exact absurd (show x < h.length from (Reach.here x).lt hw) (by simpa using hxc)
        | some c =>
          cases c with
          | list l =>
            rw [read_list hxc, Option.map_eq_some_iff] at hw
            obtain ⟨_, _, h2⟩ := hw; cases h2
          | map mm =>
            rw [read_map hxc, Option.map_eq_some_iff] at hw
            obtain ⟨om1, hom, e⟩ := hw
            injection e with e; subst e
            have hrs : Mem.read n h (.str s) = some (.str s) := by cases n <;> rfl
            rw [setStr_two s hk]
            by_cases hse : s = ""
            · have heq : setStrH h a [k, k'] s = h.set x (.map (SMap.erase mm k')) := by
                rw [setStrH, if_pos hse, removeNestedH, ha]; simp only [hmk, hxc]; rw [removeNestedH, hxc]
              rw [heq, if_pos hse]
              exact hf.inner hs ha hmk hxc (readFields_erase hom) (fun k2 v2 hm2 => .inl ⟨k2, SMap.mem_erase hm2⟩)
            · have heq : setStrH h a [k, k'] s = h.set x (.map (SMap.set mm k' (.str s))) := by
                rw [setStrH, if_neg hse, setNestedH, ha]; simp only [hmk, hxc]; rw [setNestedH, hxc]
              rw [heq, if_neg hse]
              refine hf.inner hs ha hmk hxc (readFields_set hrs hom) (fun k2 v2 hm2 => ?_)
              rcases SMap.mem_set hm2 with e | e
              · injection e with _ e; subst e; exact .inr (fun y => by simp)
              · exact .inl ⟨k2, e⟩
    | null => cases n <;> (simp only [Mem.read] at hw; injection hw with e; cases e)
    | bool b => cases n <;> (simp only [Mem.read] at hw; injection hw with e; cases e)
    | int b => cases n <;> (simp only [Mem.read] at hw; injection hw with e; cases e)
    | float b => cases n <;> (simp only [Mem.read] at hw; injection hw with e; cases e)
    | str b => cases n <;> (simp only [Mem.read] at hw; injection hw with e; cases e)

/-- A fresh object with metadata, made of the heap `h0` by writes from `N` on. -/
structure Made (N : Nat) (h0 h : Heap) (a : Nat) (o : Obj) : Prop where
  fresh : Fresh N h a o
  sorted : SMap.Sorted o
  md : ∃ om, SMap.get o "metadata" = some (.map om)
  ext : Ext (above N) h0 h

theorem Made.setGVK {N : Nat} {h0 h : Heap} {a : Nat} {o : Obj} (hm : Made N h0 h a o) (t : GVK) : Made N h0 (setGVKH h a t) a (setGVK o t) := by
  obtain ⟨h1, h2⟩ := hm.fresh.setGVK t
  obtain ⟨om, hom⟩ := hm.md
  refine ⟨h1, by rw [setGVK_eq]; exact (hm.sorted.set _ _).set _ _, ⟨om, ?_⟩, hm.ext.trans h2 (fun _ _ h => h)⟩
  rw [setGVK_get hm.sorted, if_neg (by decide), if_neg (by decide), hom]

theorem Made.setStr {N : Nat} {h0 h : Heap} {a : Nat} {o : Obj} (hm : Made N h0 h a o) (k s : String) :
    Made N h0 (setStrH h a ["metadata", k] s) a (Dctl.setStr o ["metadata", k] s) := by
  obtain ⟨om, hom⟩ := hm.md
  obtain ⟨h1, h2⟩ := hm.fresh.setStrIn hm.sorted hom k s
  rw [setStr_two s hom] at h1 ⊢
  exact ⟨h1, hm.sorted.set _ _, ⟨_, by rw [SMap.get_set _ hm.sorted, if_pos rfl]⟩, hm.ext.trans h2 (fun _ _ h => h)⟩

theorem kinded_of {o : CDoc} {t : GVK} (ht : PlainKind t) (hk : SMap.get o.1 "kind" = some (.str t.kind)) (ha : SMap.get o.1 "apiVersion" = some (.str (gvString t))) : Kinded o := by
  have hs : SMap.Sorted o.1 := o.2.sorted
  have h1 : nestedString o.1 ["apiVersion"] = gvString t := by rw [nestedString, nested_one, ha]
  have h2 : nestedString o.1 ["kind"] = t.kind := by rw [nestedString, nested_one, hk]
  have hg : objGVK o.1 = t := by
    have ht : parseGroupVersion (gvString t) = some (t.group, t.version) := ht
    rw [objGVK, h1, ht, h2]
  show copyObj o.1 = o.1
  rw [copyObj, setGVK_eq, hg, set_get_self hs ha, set_get_self hs hk]

/-- An object is made of a document. -/
theorem enforceM_gives {h : Heap} {a : Nat} {d : CDoc} (hd : ObjAt h a d.1) {t : GVK} (ht : PlainKind t) :
    ∃ h' r, Gives (enforceM t a) h (h', r) ∧ Ext nowhere h h' ∧
      SameOutcome (fun a' (o : CDoc) => ObjAt h' a' o.1 ∧ Kinded o ∧ ∀ b, Reach h' (.ref a') b → h.length ≤ b) r (jsonOps.enforce t d) := by
  obtain ⟨N, H⟩ := Reads.gives hd
  have H' : ∀ n, N ≤ n → read n h (.ref a) = some (.map d.1) := H
  cases he : enforceDoc t d.1 with
  | error e =>
    have hv : jsonOps.enforce t d = .error e := by
      simp only [jsonOps]
      split
      · rename_i r hr; rw [he] at hr; cases hr
      · rename_i e' hr; rw [he] at hr; cases hr; rfl
    rw [hv]
    exact ⟨h, .error e, ⟨N, fun n hn => by rw [enforceM, H' n hn]; simp only [he]⟩, Ext.refl _ _, rfl⟩
  | ok r =>
    have hv : jsonOps.enforce t d = .ok ⟨r, enforceDoc_canon d.2 he⟩ := jsonOps_enforce.mpr he
    rw [hv]
    obtain ⟨h1, v1, hc, -⟩ := copy_spec N (H' N (Nat.le_refl _))
    obtain ⟨a1, rfl⟩ := copy_is_ref hc
    obtain ⟨a2, e2, hf, hx⟩ := copy_fresh hd hc
    injection e2 with e2; subst e2
    obtain ⟨md, name, hmd, hn, hne, hns, -⟩ := (enforceDoc_ok d.2).mp he
    have m0 : Made h.length h1 h1 a1 d.1 := ⟨hf, d.2.sorted, ⟨md, hmd⟩, Ext.refl _ _⟩
    have m1 := ((((((m0.setGVK (objGVK [])).setStr "namespace" (objKey []).1).setStr "name" (objKey []).2).setGVK t).setStr "name" name).setStr "namespace"
      (nestedString d.1 ["metadata", "namespace"]))
    have hname : nestedString d.1 ["metadata", "name"] = name := by
      rw [nestedString, nested_cons, hmd]
      show (match nested md ["name"] with | some (.str s) => s | _ => "") = name
      rw [nested_one, hn]
    have hr : r = Dctl.setStr (Dctl.setStr (setGVK (setContent [] d.1) t) ["metadata", "name"] name) ["metadata", "namespace"] (nestedString d.1 ["metadata", "namespace"]) := by
      rw [enforceDoc, hmd] at he
      simp only [hn, if_neg hne] at he
      rcases hns with h3 | ⟨ns, h3⟩
      · rw [h3] at he; injection he with he; exact he.symm
      · rw [h3] at he; injection he with he; exact he.symm
    have hfix := (enforceDoc_fixed (enforceDoc_canon d.2 he)).mp (enforceDoc_idem d.2 he)
    refine ⟨_, .ok a1, ⟨N, fun n hn => ?_⟩, ext_of_above hx m1.ext, ?_, kinded_of ht hfix.2.1 hfix.2.2, m1.fresh.new⟩
    · rw [enforceM, H' n hn]
      simp only [he, setContentM, copy_mono hc hn, hname]
    · show ObjAt _ _ r
      rw [hr]
      exact m1.fresh.reads

/-! ### `ConvertZSetToDelta` -/

theorem listM_gives : ∀ {z : HZ CDoc} {Z : ZSet CDoc} {h : Heap}, All2 (fun e p => e.2.2 = p.2 ∧ ObjAt h e.2.1 p.1.1) z Z →
    ∃ h' l, Gives (listM z) h (h', .ok l) ∧ Ext nowhere h h' ∧ All2 (fun p q => p.2 = q.2 ∧ ObjAt h' p.1 q.1.1) l Z
  | [], _, h, .nil => ⟨h, [], gives_pure _ _, Ext.refl _ _, .nil⟩
  | (k, a, m) :: z, (d, m') :: Z, h, .cons ⟨hm, ho⟩ ht => by
    obtain ⟨N, H⟩ := Reads.gives ho
    obtain ⟨h1, v1, hc, -⟩ := copy_spec N (H N (Nat.le_refl _))
    obtain ⟨a1, rfl⟩ := copy_is_ref hc
    obtain ⟨a2, e2, hf, hx⟩ := copy_fresh ho hc
    injection e2 with e2; subst e2
    obtain ⟨h2, l, g2, e2, hl⟩ := listM_gives (h := h1) (ht.imp (fun e p hp => ⟨hp.1, ObjAt.grow hp.2 hx⟩))
    refine ⟨h2, (a1, m) :: l, ?_, hx.trans e2 (fun _ _ h => h), .cons ⟨hm, ObjAt.grow hf.reads e2⟩ hl⟩
    exact Gives.bind (a := a1) (h1 := h1) ⟨N, fun n hn => by simp [copyDoc, copy_mono hc hn]⟩ (g2.bind (gives_pure _ _))

theorem DeltaIs.grow {h h' : Heap} {A : Region} {δ : Delta Nat} {Δ : Delta CDoc} (hd : DeltaIs h A δ Δ) (he : Ext nowhere h h') : DeltaIs h' A δ Δ :=
  ⟨hd.1, ObjAt.grow hd.2.1 he, hd.2.2.1, fun b hb => hd.2.2.2 b (reach_frame hb (fun _ hb => he.get (hd.2.1.lt hb)))⟩

/-- Objects that share no cell. -/
abbrev Lone (h : Heap) (l : List Nat) : Prop := l.Pairwise (fun a b => Apart (Reach h (.ref a)) (Reach h (.ref b)))

theorem emitGo_gives {t : GVK} (ht : PlainKind t) : ∀ {l : List (Nat × Int)} {Z : ZSet CDoc} {h : Heap} {N : Nat}, N ≤ h.length → All2 (fun p q => p.2 = q.2 ∧ ObjAt h p.1 q.1.1) l Z →
    ∃ h' r, Gives (emitGo t l) h (h', r) ∧ Ext nowhere h h' ∧ SameOutcome (All2 (DeltaIs h' (above N))) r (convertZSet jsonOps t Z) ∧ ∀ ds, r = .ok ds → Lone h' (ds.map Delta.obj)
  | [], _, h, N, _, .nil => ⟨h, .ok [], gives_pure _ _, Ext.refl _ _, .nil, fun ds hd => by cases hd; exact .nil⟩
  | (a, m) :: l, (d, m') :: Z, h, N, hN, .cons ⟨hm, ho⟩ hl => by
    have hm : m = m' := hm
    subst hm
    by_cases hz : m = 0
    · obtain ⟨h', r, h1, h2, h3⟩ := emitGo_gives ht hN hl
      exact ⟨h', r, by rw [emitGo, if_pos hz]; exact h1, h2, by rw [convertZSet, if_pos hz]; exact h3⟩
    · obtain ⟨h1, r1, g1, e1, s1⟩ := enforceM_gives ho ht
      rw [emitGo, if_neg hz, convertZSet, if_neg hz]
      match r1, jsonOps.enforce t d, s1 with
      | .error e, .error e', s1 =>
        obtain ⟨N1, H1⟩ := g1
        exact ⟨h1, .error e, ⟨N1, fun n hn => by rw [M.bind, H1 n hn]⟩, e1, s1, fun ds hd => by cases hd⟩
      | .ok a', .ok o, ⟨s1, s2, s3⟩ =>
        obtain ⟨h2, r2, g2, e2, q2, l2⟩ := emitGo_gives ht (Nat.le_refl h1.length) (hl.imp (fun p q hp => ⟨hp.1, ObjAt.grow hp.2 e1⟩))
        match r2, convertZSet jsonOps t Z, q2 with
        | .error e, .error e', q2 =>
          obtain ⟨N2, H2⟩ := g2
          exact ⟨h2, .error e, g1.bind ⟨N2, fun n hn => by rw [M.bind, H2 n hn]⟩, e1.trans e2 (fun _ _ h => h), q2, fun ds hd => by cases hd⟩
        | .ok ds, .ok Ds, q2 =>
          have q2 : All2 (DeltaIs h2 (above h1.length)) ds Ds := q2
          have hd1 : DeltaIs h1 (above N) ⟨if 0 < m then .added else .deleted, a'⟩ ⟨if 0 < m then .added else .deleted, o⟩ :=
            ⟨rfl, s1, s2, fun b hb => Nat.le_trans hN (s3 b hb)⟩
          refine ⟨h2, _, g1.bind (g2.bind (gives_pure _ _)), e1.trans e2 (fun _ _ h => h), ?_, ?_⟩
          · exact All2.cons (hd1.grow e2) (q2.imp (fun _ _ hd => ⟨hd.1, hd.2.1, hd.2.2.1, fun b hb => Nat.le_trans (Nat.le_trans hN e1.1) (hd.2.2.2 b hb)⟩))
          · intro ds' hds
            cases hds
            refine List.Pairwise.cons (fun x hx b hb hb' => ?_) (l2 ds rfl)
            obtain ⟨δ, hδ, rfl⟩ := List.mem_map.mp hx
            obtain ⟨Δ, -, hΔ⟩ := All2.left q2 hδ
            exact absurd (s1.lt (reach_frame hb (fun _ hb => e2.get (s1.lt hb)))) (Nat.not_lt.mpr (hΔ.2.2.2 b hb'))

/-! ### `Reconcile` -/

/-- Objects in memory and on values, in a region. -/
def ObjIs (h : Heap) (A : Region) (a : Nat) (o : CDoc) : Prop := ObjAt h a o.1 ∧ Kinded o ∧ ∀ b, Reach h (.ref a) b → A b

theorem ObjIs.grow {h h' : Heap} {A : Region} {a : Nat} {o : CDoc} (ho : ObjIs h A a o) (he : Ext nowhere h h') : ObjIs h' A a o :=
  ⟨ObjAt.grow ho.1 he, ho.2.1, fun b hb => ho.2.2 b (reach_frame hb (fun _ hb => he.get (ho.1.lt hb)))⟩

/-- Groups in memory and on values. -/
structure OpsIs (h : Heap) (A : Region) (ops : KeyOps Nat) (Ops : KeyOps CDoc) : Prop where
  adds : All2 (ObjIs h A) ops.adds Ops.adds
  dels : All2 (ObjIs h A) ops.dels Ops.dels
  existed : ops.existed = Ops.existed

theorem OpsIs.grow {h h' : Heap} {A : Region} {ops : KeyOps Nat} {Ops : KeyOps CDoc} (ho : OpsIs h A ops Ops) (he : Ext nowhere h h') : OpsIs h' A ops Ops :=
  ⟨ho.adds.imp (fun _ _ h => h.grow he), ho.dels.imp (fun _ _ h => h.grow he), ho.existed⟩

/-- Two maps with the same keys and values in relation. -/
abbrev MapIs {V W : Type} (R : V → W → Prop) (m : AMap ObjKey V) (M : AMap ObjKey W) : Prop := All2 (fun p q => p.1 = q.1 ∧ R p.2 q.2) m M

theorem MapIs.get {V W : Type} {R : V → W → Prop} {m : AMap ObjKey V} {M : AMap ObjKey W} (h : MapIs R m M) (k : ObjKey) : OptIs R (AMap.get m k) (AMap.get M k) := by
  induction h with
  | nil => trivial
  | @cons p q t t' hr _ ih =>
    obtain ⟨k1, v⟩ := p
    obtain ⟨k2, w⟩ := q
    obtain ⟨e, hr⟩ := hr
    have e : k1 = k2 := e
    subst e
    rw [AMap.get, AMap.get]
    split
    · exact hr
    · exact ih

theorem MapIs.set {V W : Type} {R : V → W → Prop} {m : AMap ObjKey V} {M : AMap ObjKey W} (h : MapIs R m M) (k : ObjKey) {v : V} {w : W} (hv : R v w) :
    MapIs R (AMap.set m k v) (AMap.set M k w) := by
  induction h with
  | nil => exact .cons ⟨rfl, hv⟩ .nil
  | @cons p q t t' hr ht ih =>
    obtain ⟨k1, v1⟩ := p
    obtain ⟨k2, w1⟩ := q
    obtain ⟨e, hr⟩ := hr
    have e : k1 = k2 := e
    subst e
    rw [AMap.set, AMap.set]
    split
    · exact .cons ⟨rfl, hv⟩ ht
    · exact .cons ⟨rfl, hr⟩ ih

theorem groupOfM_gives {h : Heap} {tgt : HStore} {T : Store CDoc} (hT : TgtIs h tgt T) (hok : TgtOk T) {A : Region} {gs : AMap ObjKey (KeyOps Nat)} {Gs : AMap ObjKey (KeyOps CDoc)}
    (hg : MapIs (OpsIs h A) gs Gs) (k : ObjKey) :
    ∃ h' ops, Gives (groupOfM tgt gs k) h (h', .ok ops) ∧ Ext nowhere h h' ∧ OpsIs h' A ops (groupOf T Gs k) := by
  have h1 := hg.get k
  rw [groupOfM, groupOf]
  match AMap.get gs k, AMap.get Gs k, h1 with
  | some ops, some Ops, h1 => exact ⟨h, ops, gives_pure _ _, Ext.refl _ _, h1⟩
  | none, none, _ =>
    rcases getM_gives hT hok k with ⟨h2, h3⟩ | ⟨h', x, o, h2, h3, h4, h5, -⟩
    · refine ⟨h, _, h3.bind (gives_pure _ _), Ext.refl _ _, .nil, .nil, ?_⟩
      simp only [h2]; rfl
    · refine ⟨h', _, h3.bind (gives_pure _ _), h5, .nil, .nil, ?_⟩
      simp only [h2]; rfl

theorem push_is {h : Heap} {A : Region} {ops : KeyOps Nat} {Ops : KeyOps CDoc} (ho : OpsIs h A ops Ops) {δ : Delta Nat} {Δ : Delta CDoc} (hd : DeltaIs h A δ Δ) :
    SameOutcome (OpsIs h A) (ops.push δ) (Ops.push Δ) := by
  obtain ⟨ty, a⟩ := δ
  obtain ⟨ty', o⟩ := Δ
  obtain ⟨e, h1, h2, h3⟩ := hd
  have e : ty = ty' := e
  subst e
  cases ty with
  | added => exact OpsIs.mk (ops := { ops with adds := ops.adds ++ [a] }) (Ops := { Ops with adds := Ops.adds ++ [o] }) (ho.adds.append (.cons ⟨h1, h2, h3⟩ .nil)) ho.dels ho.existed
  | deleted => exact OpsIs.mk (ops := { ops with dels := ops.dels ++ [a] }) (Ops := { Ops with dels := Ops.dels ++ [o] }) ho.adds (ho.dels.append (.cons ⟨h1, h2, h3⟩ .nil)) ho.existed
  | _ => rfl

theorem TgtIs.grow {h h' : Heap} {s : HStore} {S : Store CDoc} (hs : TgtIs h s S) (he : Ext nowhere h h') : TgtIs h' s S :=
  All2.imp hs (fun _ _ hp => ⟨hp.1, ObjAt.grow hp.2 he⟩)

theorem groupM_gives {tgt : HStore} {T : Store CDoc} (hok : TgtOk T) {A : Region} : ∀ {ds : List (Delta Nat)} {Ds : List (Delta CDoc)} {h : Heap} {gs : AMap ObjKey (KeyOps Nat)}
    {Gs : AMap ObjKey (KeyOps CDoc)}, TgtIs h tgt T → MapIs (OpsIs h A) gs Gs → All2 (DeltaIs h A) ds Ds →
    ∃ h' r, Gives (groupM tgt gs ds) h (h', r) ∧ Ext nowhere h h' ∧ SameOutcome (MapIs (OpsIs h' A)) r (groupDeltas jsonOps T Gs Ds)
  | [], _, h, gs, Gs, _, hg, .nil => ⟨h, .ok gs, gives_pure _ _, Ext.refl _ _, hg⟩
  | δ :: ds, Δ :: Ds, h, gs, Gs, hT, hg, .cons hd hds => by
    obtain ⟨h1, ops, g1, e1, s1⟩ := groupOfM_gives hT hok hg (objKey Δ.obj.1)
    have hp := push_is s1 (hd.grow e1)
    have hkey : jsonOps.key Δ.obj = objKey Δ.obj.1 := rfl
    rw [groupDeltas, hkey]
    have hstart : ∀ {r}, Gives (match ops.push δ with | .error e => M.fail e | .ok ops => groupM tgt (AMap.set gs (objKey Δ.obj.1) ops) ds) h1 r →
        Gives (groupM tgt gs (δ :: ds)) h r := fun hr => (objM_gives hd.2.1).bind (g1.bind hr)
    match hq : ops.push δ, (groupOf T Gs (objKey Δ.obj.1)).push Δ, hp with
    | .error e, .error e', hp => exact ⟨h1, .error e, hstart (by rw [hq]; exact gives_fail _ _), e1, hp⟩
    | .ok ops', .ok Ops', hp =>
      have hp : OpsIs h1 A ops' Ops' := hp
      obtain ⟨h2, r, g2, e2, s2⟩ := groupM_gives hok (hT.grow e1) (MapIs.set (hg.imp (fun _ _ h => ⟨h.1, h.2.grow e1⟩)) (objKey Δ.obj.1) hp) (hds.imp (fun _ _ h => h.grow e1))
      exact ⟨h2, r, hstart (by rw [hq]; exact g2), e1.trans e2 (fun _ _ h => h), s2⟩

theorem All2.head {A B : Type} {R : A → B → Prop} {as : List A} {bs : List B} (h : All2 R as bs) : OptIs R as.head? bs.head? := by
  cases h with
  | nil => trivial
  | cons hr _ => exact hr

theorem All2.last {A B : Type} {R : A → B → Prop} {as : List A} {bs : List B} (h : All2 R as bs) : OptIs R as.getLast? bs.getLast? := by
  rw [List.getLast?_eq_head?_reverse, List.getLast?_eq_head?_reverse]
  exact h.reverse.head

theorem tgtHolds_back {h h' : Heap} {s : HStore} {S : Store CDoc} (hs : TgtIs h s S) (he : Ext nowhere h h') {b : Nat} (hb : TgtHolds h' s b) : TgtHolds h s b := by
  obtain ⟨p, hp, hr⟩ := hb
  obtain ⟨q, -, hq⟩ := All2.left hs hp
  exact ⟨p, hp, reach_frame hr (fun _ hb => he.get (hq.2.lt hb))⟩

/-- What a step of `Reconcile` does. -/
structure Acted (h : Heap) (tgt : HStore) (h' : Heap) (tgt' : HStore) (T' : Store CDoc) : Prop where
  ext : Ext nowhere h h'
  is : TgtIs h' tgt' T'
  ok : TgtOk T'
  held : ∀ b, TgtHolds h' tgt' b → TgtHolds h tgt b ∨ h.length ≤ b

theorem put_acted {h : Heap} {tgt : HStore} {T : Store CDoc} (hT : TgtIs h tgt T) (hok : TgtOk T) {a : Nat} {o : CDoc} (ho : ObjAt h a o.1) (hk : Kinded o) :
    ∃ h' tgt', Gives (tgt.putM a) h (h', .ok tgt') ∧ Acted h tgt h' tgt' (AMap.set T (objKey o.1) o) := by
  obtain ⟨h', a', g1, h1, h2, h3⟩ := putM_gives tgt ho hk
  refine ⟨h', _, g1, h3, srcAt_set (hT.grow h3) _ h1, fun q hq => ?_, fun b hb => ?_⟩
  · rcases mem_store_set hq with rfl | hq
    · exact ⟨rfl, hk⟩
    · exact hok q hq
  · obtain ⟨p, hp, hr⟩ := hb
    rcases mem_store_set hp with rfl | hp
    · exact .inr (h2 b hr)
    · exact .inl (tgtHolds_back hT h3 ⟨p, hp, hr⟩)

theorem del_acted {h : Heap} {tgt : HStore} {T : Store CDoc} (hT : TgtIs h tgt T) (hok : TgtOk T) {a : Nat} {o : CDoc} (ho : ObjAt h a o.1) :
    ∃ tgt', Gives (tgt.delM a) h (h, .ok tgt') ∧ Acted h tgt h tgt' (AMap.erase T (objKey o.1)) :=
  ⟨_, delM_gives tgt ho, Ext.refl _ _, srcAt_erase hT _, fun q hq => hok q (mem_store_erase hq), fun _ ⟨p, hp, hr⟩ => .inl ⟨p, mem_store_erase hp, hr⟩⟩

theorem same_acted {h : Heap} {tgt : HStore} {T : Store CDoc} (hT : TgtIs h tgt T) (hok : TgtOk T) : Acted h tgt h tgt T := ⟨Ext.refl _ _, hT, hok, fun _ h => .inl h⟩

theorem Acted.trans {h h1 h2 : Heap} {s s1 s2 : HStore} {T1 T2 : Store CDoc} (a1 : Acted h s h1 s1 T1) (a2 : Acted h1 s1 h2 s2 T2) : Acted h s h2 s2 T2 := by
  refine ⟨a1.ext.trans a2.ext (fun _ _ h => h), a2.is, a2.ok, fun b hb => ?_⟩
  rcases a2.held b hb with h3 | h3
  · exact a1.held b h3
  · exact .inr (Nat.le_trans a1.ext.1 h3)

theorem actM_gives {h : Heap} {tgt : HStore} {T : Store CDoc} (hT : TgtIs h tgt T) (hok : TgtOk T) {A : Region} {ops : KeyOps Nat} {Ops : KeyOps CDoc} (ho : OpsIs h A ops Ops) :
    ∃ h' x, Gives (actM tgt ops) h (h', .ok x) ∧ Acted h tgt h' x.1 (actOn jsonOps T Ops).1 ∧ OptIs (DeltaIs h' A) x.2 (actOn jsonOps T Ops).2 := by
  have hl := ho.adds.last
  have hd := ho.dels.head
  have hput : ∀ {a : Nat} {o : CDoc}, ObjIs h A a o → ∃ h' x, Gives ((tgt.putM a).bind (fun s => .pure (s, some ⟨.upserted, a⟩))) h (h', .ok x) ∧
      Acted h tgt h' x.1 (AMap.set T (objKey o.1) o) ∧ OptIs (DeltaIs h' A) x.2 (some ⟨.upserted, o⟩) := fun hx => by
    obtain ⟨h', s', g1, a1⟩ := put_acted hT hok hx.1 hx.2.1
    exact ⟨h', _, g1.bind (gives_pure _ _), a1, rfl, hx.grow a1.ext⟩
  have hsame : ∃ h' x, Gives (M.pure (tgt, (none : Option (Delta Nat)))) h (h', .ok x) ∧ Acted h tgt h' x.1 T ∧ OptIs (DeltaIs h' A) x.2 (none : Option (Delta CDoc)) :=
    ⟨h, _, gives_pure _ _, same_acted hT hok, trivial⟩
  rw [actM, actOn, ho.existed]
  match ops.adds.getLast?, Ops.adds.getLast?, hl, ops.dels.head?, Ops.dels.head?, hd with
  | some a, some o, hl, none, none, _ => exact hput hl
  | none, none, _, some d, some o, hd =>
    dsimp only
    by_cases he : Ops.existed
    · rw [if_pos he, if_pos he]
      obtain ⟨s', g1, a1⟩ := del_acted hT hok hd.1
      exact ⟨h, _, g1.bind (gives_pure _ _), a1, rfl, hd⟩
    · rw [if_neg he, if_neg he]; exact hsame
  | some a, some o, hl, some d, some o', _ =>
    dsimp only
    by_cases he : Ops.existed
    · rw [if_pos he, if_pos he]; exact hput hl
    · rw [if_neg he, if_neg he]; exact hsame
  | none, none, _, none, none, _ => exact hsame

theorem actAllM_gives {A : Region} : ∀ {gs : List (ObjKey × KeyOps Nat)} {Gs : List (ObjKey × KeyOps CDoc)} {h : Heap} {tgt : HStore} {T : Store CDoc},
    TgtIs h tgt T → TgtOk T → All2 (fun p q => p.1 = q.1 ∧ OpsIs h A p.2 q.2) gs Gs →
    ∃ h' x, Gives (actAllM tgt gs) h (h', .ok x) ∧ Acted h tgt h' x.1 (actAll jsonOps T Gs).1 ∧ All2 (DeltaIs h' A) x.2 (actAll jsonOps T Gs).2
  | [], _, h, tgt, T, hT, hok, .nil => ⟨h, _, gives_pure _ _, same_acted hT hok, .nil⟩
  | (k, ops) :: gs, (k', Ops) :: Gs, h, tgt, T, hT, hok, .cons ho hg => by
    obtain ⟨h1, x, g1, a1, o1⟩ := actM_gives hT hok ho.2
    obtain ⟨h2, y, g2, a2, o2⟩ := actAllM_gives a1.is a1.ok (hg.imp (fun _ _ h => ⟨h.1, h.2.grow a1.ext⟩))
    refine ⟨h2, _, g1.bind (g2.bind (gives_pure _ _)), a1.trans a2, ?_⟩
    refine All2.append (as := x.2.toList) (bs := (actOn jsonOps T Ops).2.toList) ?_ o2
    match x.2, (actOn jsonOps T Ops).2, o1 with
    | none, none, _ => exact .nil
    | some d, some D, o1 => exact .cons (DeltaIs.grow o1 a2.ext) .nil

theorem reconcileM_gives {h : Heap} {tgt : HStore} {T : Store CDoc} (hT : TgtIs h tgt T) (hok : TgtOk T) (σ : Shuffles) {A : Region} {ds : List (Delta Nat)} {Ds : List (Delta CDoc)}
    (hd : All2 (DeltaIs h A) ds Ds) :
    ∃ h' r, Gives (reconcileM σ tgt ds) h (h', r) ∧ Ext nowhere h h' ∧
      SameOutcome (fun x X => Acted h tgt h' x.1 X.1 ∧ All2 (DeltaIs h' A) x.2 X.2) r (reconcile jsonOps σ.recon T Ds) := by
  obtain ⟨h1, r1, g1, e1, s1⟩ := groupM_gives (A := A) hok hT (gs := []) (Gs := []) .nil hd
  rw [reconcile]
  match r1, groupDeltas jsonOps T [] Ds, s1 with
  | .error e, .error e', s1 =>
    obtain ⟨N1, H1⟩ := g1
    exact ⟨h1, .error e, ⟨N1, fun n hn => by rw [reconcileM, M.bind, H1 n hn]⟩, e1, s1⟩
  | .ok gs, .ok Gs, s1 =>
    have s1 : MapIs (OpsIs h1 A) gs Gs := s1
    obtain ⟨h2, x, g2, a2, o2⟩ := actAllM_gives (hT.grow e1) hok (σ.groups.all2 s1)
    have a1 : Acted h tgt h1 tgt T := ⟨e1, hT.grow e1, hok, fun b hb => .inl (tgtHolds_back hT e1 hb)⟩
    have a3 := a1.trans a2
    refine ⟨h2, _, g1.bind (g2.bind (gives_pure _ _)), a3.ext, a3, ?_⟩
    exact (all2_filter (fun a b hab => by rw [hab.1]) (σ.deletes.all2 o2)).append (all2_filter (fun a b hab => by rw [hab.1]) (σ.upserts.all2 o2))

/-! ### every object is emitted once -/

/-- The first list has elements of the second, each of them at most as often. -/
def Within {X : Type} (l m : List X) : Prop := ∃ r, (l ++ r).Perm m

theorem Within.trans {X : Type} {l m k : List X} (h1 : Within l m) (h2 : Within m k) : Within l k := by
  obtain ⟨r, h1⟩ := h1
  obtain ⟨s, h2⟩ := h2
  exact ⟨r ++ s, by rw [← List.append_assoc]; exact (h1.append_right s).trans h2⟩

theorem Within.append {X : Type} {l l' m m' : List X} (h1 : Within l m) (h2 : Within l' m') : Within (l ++ l') (m ++ m') := by
  obtain ⟨r, h1⟩ := h1
  obtain ⟨s, h2⟩ := h2
  refine ⟨r ++ s, (List.Perm.trans ?_ (h1.append h2))⟩
  rw [List.append_assoc, List.append_assoc]
  exact List.Perm.append_left l (by rw [← List.append_assoc, ← List.append_assoc]; exact List.Perm.append_right s List.perm_append_comm)

theorem within_perm {X : Type} {l m : List X} (h : l.Perm m) : Within l m := ⟨[], by rw [List.append_nil]; exact h⟩

theorem within_sublist {X : Type} {l m : List X} (h : l.Sublist m) : Within l m := by
  obtain ⟨r, hr⟩ := h.exists_perm_append
  exact ⟨r, hr.symm⟩

theorem Within.map {X Y : Type} {l m : List X} (f : X → Y) (h : Within l m) : Within (l.map f) (m.map f) := by
  obtain ⟨r, h⟩ := h
  exact ⟨r.map f, by rw [← List.map_append]; exact h.map f⟩

theorem Within.pairwise {X : Type} {R : X → X → Prop} (hR : ∀ {x y}, R x y → R y x) {l m : List X} (h : Within l m) (hp : m.Pairwise R) : l.Pairwise R := by
  obtain ⟨r, h⟩ := h
  exact (List.pairwise_append.mp ((h.pairwise_iff hR).mpr hp)).1

theorem bind_inv {A B : Type} {m : M A} {f : A → M B} {n : Nat} {h h' : Heap} {b : B} (hb : (m.bind f) n h = some (h', .ok b)) :
    ∃ h1 a, m n h = some (h1, .ok a) ∧ f a n h1 = some (h', .ok b) := by
  rw [M.bind] at hb
  split at hb
  · cases hb
  · cases hb
  · exact ⟨_, _, by assumption, hb⟩

/-- The objects of a group, and of all groups. -/
def objs (ops : KeyOps Nat) : List Nat := ops.adds ++ ops.dels

/-- The objects of all groups. -/
def allObjs (gs : List (ObjKey × KeyOps Nat)) : List Nat := gs.flatMap (fun p => objs p.2)

theorem push_objs {ops ops' : KeyOps Nat} {δ : Delta Nat} (h : ops.push δ = .ok ops') : (objs ops').Perm (δ.obj :: objs ops) := by
  rw [KeyOps.push] at h
  split at h
  · cases h
    simp only [objs, List.append_assoc, List.singleton_append]
    exact List.perm_middle
  · cases h
    simp only [objs]
    rw [← List.append_assoc]
    exact List.perm_append_singleton _ _
  · cases h

theorem set_objs_some {gs : AMap ObjKey (KeyOps Nat)} {k : ObjKey} {ops ops' : KeyOps Nat} {a : Nat} (hg : AMap.get gs k = some ops) (hp : (objs ops').Perm (a :: objs ops)) :
    (allObjs (AMap.set gs k ops')).Perm (a :: allObjs gs) := by
  induction gs with
  | nil => cases hg
  | cons p t ih =>
    obtain ⟨k1, v⟩ := p
    rw [AMap.get] at hg
    rw [AMap.set]
    split at hg
    · rename_i e
      cases hg
      rw [if_pos e]
      exact hp.append_right _
    · rename_i e
      rw [if_neg e]
      simp only [allObjs, List.flatMap_cons] at ih ⊢
      exact ((ih hg).append_left _).trans List.perm_middle

theorem set_objs_none {gs : AMap ObjKey (KeyOps Nat)} {k : ObjKey} {ops' : KeyOps Nat} (hg : AMap.get gs k = none) :
    (allObjs (AMap.set gs k ops')).Perm (objs ops' ++ allObjs gs) := by
  induction gs with
  | nil => simp [AMap.set, allObjs]
  | cons p t ih =>
    obtain ⟨k1, v⟩ := p
    rw [AMap.get] at hg
    rw [AMap.set]
    split at hg
    · cases hg
    · rename_i e
      rw [if_neg e]
      simp only [allObjs, List.flatMap_cons] at ih ⊢
      refine ((ih hg).append_left _).trans ?_
      rw [← List.append_assoc, ← List.append_assoc]
      exact List.perm_append_comm.append_right _

theorem groupOfM_objs {tgt : HStore} {gs : AMap ObjKey (KeyOps Nat)} {k : ObjKey} {n : Nat} {h h' : Heap} {ops : KeyOps Nat} (hg : groupOfM tgt gs k n h = some (h', .ok ops)) :
    AMap.get gs k = some ops ∨ (AMap.get gs k = none ∧ objs ops = []) := by
  rw [groupOfM] at hg
  cases e : AMap.get gs k with
  | some ops1 =>
    simp only [e, M.pure, Option.some.injEq, Prod.mk.injEq, Except.ok.injEq] at hg
    exact .inl (by rw [hg.2])
  | none =>
    simp only [e] at hg
    obtain ⟨h1, x, -, hx⟩ := bind_inv hg
    simp only [M.pure, Option.some.injEq, Prod.mk.injEq, Except.ok.injEq] at hx
    exact .inr ⟨rfl, by rw [← hx.2]; rfl⟩

theorem groupM_objs {tgt : HStore} {n : Nat} : ∀ {ds : List (Delta Nat)} {gs gs' : AMap ObjKey (KeyOps Nat)} {h h' : Heap}, groupM tgt gs ds n h = some (h', .ok gs') →
    (allObjs gs').Perm (ds.map Delta.obj ++ allObjs gs)
  | [], gs, gs', h, h', hg => by
    simp only [groupM, M.pure, Option.some.injEq, Prod.mk.injEq, Except.ok.injEq] at hg
    rw [← hg.2]; exact List.Perm.refl _
  | δ :: ds, gs, gs', h, h', hg => by
    rw [groupM] at hg
    obtain ⟨h1, o, -, hg⟩ := bind_inv hg
    obtain ⟨h2, ops, hops, hg⟩ := bind_inv hg
    cases hpush : ops.push δ with
    | error e => rw [hpush] at hg; cases hg
    | ok ops' =>
      rw [hpush] at hg
      have h3 := groupM_objs hg
      have hp := push_objs hpush
      refine h3.trans (List.Perm.trans ?_ (List.perm_middle (l₁ := ds.map Delta.obj)))
      refine List.Perm.append_left _ ?_
      rcases groupOfM_objs hops with h4 | ⟨h4, h5⟩
      · exact set_objs_some h4 hp
      · refine (set_objs_none h4).trans ?_
        rw [h5] at hp
        exact hp.append_right _

theorem actM_objs {tgt : HStore} {ops : KeyOps Nat} {n : Nat} {h h' : Heap} {x : HStore × Option (Delta Nat)} (ha : actM tgt ops n h = some (h', .ok x)) :
    Within (x.2.toList.map Delta.obj) (objs ops) := by
  have hnone : ∀ {s : HStore} {h : Heap}, M.pure (s, (none : Option (Delta Nat))) n h = some (h', .ok x) → Within (x.2.toList.map Delta.obj) (objs ops) := fun hx => by
    simp only [M.pure, Option.some.injEq, Prod.mk.injEq, Except.ok.injEq] at hx
    rw [← hx.2]; exact within_sublist (List.nil_sublist _)
  have hsome : ∀ {m : M HStore} {h : Heap} {ty : DeltaType} {a : Nat}, a ∈ objs ops → (m.bind (fun s => .pure (s, some ⟨ty, a⟩))) n h = some (h', .ok x) →
      Within (x.2.toList.map Delta.obj) (objs ops) := fun hm hx => by
    obtain ⟨h1, s, -, hx⟩ := bind_inv hx
    simp only [M.pure, Option.some.injEq, Prod.mk.injEq, Except.ok.injEq] at hx
    rw [← hx.2]
    exact within_sublist (List.singleton_sublist.mpr hm)
  have hadd : ∀ {a}, ops.adds.getLast? = some a → a ∈ objs ops := fun e => List.mem_append_left _ (List.mem_of_getLast? e)
  have hdel : ∀ {a}, ops.dels.head? = some a → a ∈ objs ops := fun e => List.mem_append_right _ (List.mem_of_head? e)
  rw [actM] at ha
  cases e1 : ops.adds.getLast? with
  | some a =>
    cases e2 : ops.dels.head? with
    | none => simp only [e1, e2] at ha; exact hsome (hadd e1) ha
    | some d =>
      simp only [e1, e2] at ha
      by_cases he : ops.existed
      · rw [if_pos he] at ha; exact hsome (hadd e1) ha
      · rw [if_neg he] at ha; exact hnone ha
  | none =>
    cases e2 : ops.dels.head? with
    | none => simp only [e1, e2] at ha; exact hnone ha
    | some d =>
      simp only [e1, e2] at ha
      by_cases he : ops.existed
      · rw [if_pos he] at ha; exact hsome (hdel e2) ha
      · rw [if_neg he] at ha; exact hnone ha

theorem actAllM_objs {n : Nat} : ∀ {gs : List (ObjKey × KeyOps Nat)} {tgt : HStore} {h h' : Heap} {x : HStore × List (Delta Nat)}, actAllM tgt gs n h = some (h', .ok x) →
    Within (x.2.map Delta.obj) (allObjs gs)
  | [], tgt, h, h', x, ha => by
    simp only [actAllM, M.pure, Option.some.injEq, Prod.mk.injEq, Except.ok.injEq] at ha
    rw [← ha.2]; exact within_sublist (List.nil_sublist _)
  | (k, ops) :: gs, tgt, h, h', x, ha => by
    rw [actAllM] at ha
    obtain ⟨h1, y, h2, ha⟩ := bind_inv ha
    obtain ⟨h3, z, h4, ha⟩ := bind_inv ha
    simp only [M.pure, Option.some.injEq, Prod.mk.injEq, Except.ok.injEq] at ha
    rw [← ha.2]
    simp only [List.map_append]
    exact (actM_objs h2).append (actAllM_objs h4)

theorem filters_within {X : Type} (p q : X → Bool) (hpq : ∀ x, q x = true → p x = false) (l : List X) : Within (l.filter p ++ l.filter q) l := by
  refine Within.trans ?_ (within_perm (List.filter_append_perm p l))
  refine Within.append (within_perm (List.Perm.refl _)) ?_
  have h : l.filter q = (l.filter (fun x => !p x)).filter q := by
    rw [List.filter_filter]
    refine List.filter_congr (fun x _ => ?_)
    cases hq : q x with
    | false => rfl
    | true => rw [hpq x hq]; rfl
  rw [h]
  exact within_sublist List.filter_sublist

theorem reconcileM_objs {σ : Shuffles} {tgt : HStore} {ds : List (Delta Nat)} {n : Nat} {h h' : Heap} {x : HStore × List (Delta Nat)}
    (hr : reconcileM σ tgt ds n h = some (h', .ok x)) : Within (x.2.map Delta.obj) (ds.map Delta.obj) := by
  rw [reconcileM] at hr
  obtain ⟨h1, gs, hgs, hr⟩ := bind_inv hr
  obtain ⟨h2, y, hy, hr⟩ := bind_inv hr
  simp only [M.pure, Option.some.injEq, Prod.mk.injEq, Except.ok.injEq] at hr
  have g1 := groupM_objs hgs
  have g2 := actAllM_objs hy
  have g3 : (allObjs (σ.groups.run gs)).Perm (allObjs gs) := (σ.groups.perm gs).flatMap_right _
  have g4 : Within (x.2.map Delta.obj) (y.2.map Delta.obj) := by
    rw [← hr.2]
    refine Within.map _ (Within.trans (within_perm (((σ.deletes.perm y.2).filter _).append ((σ.upserts.perm y.2).filter _))) (filters_within _ _ (fun δ hδ => ?_) _))
    have : δ.type = .upserted := by simpa using hδ
    simp [this]
  have g5 : allObjs ([] : AMap ObjKey (KeyOps Nat)) = [] := rfl
  rw [g5, List.append_nil] at g1
  exact g4.trans (g2.trans ((within_perm g3).trans (within_perm g1)))

/-! ### both -/

theorem docs_all2 {c : Cfg CDoc J} (hc : ∀ d : CDoc, c.key (.map d.1) = d) {h : Heap} {A : Region} {z : HZ CDoc} {Z : ZSet CDoc} (hz : ZIs c h A z Z) (hd : Docs h z) :
    All2 (fun e p => e.2.2 = p.2 ∧ ObjAt h e.2.1 p.1.1) z Z := by
  refine All2.imp_mem hz (fun e p he hp => ?_)
  obtain ⟨d, hd⟩ := hd e he
  obtain ⟨-, hm, j, hj, hkey, -⟩ := hp
  have hjd := hj.unique hd
  rw [hjd, hc] at hkey
  exact ⟨hm, hkey ▸ hd⟩

theorem emitM_gives {c : Cfg CDoc J} (hc : ∀ d : CDoc, c.key (.map d.1) = d) {h : Heap} {tgt : HStore} {T : Store CDoc} (hT : TgtIs h tgt T) (hok : TgtOk T) (σ : Shuffles) {t : GVK}
    (ht : PlainKind t) {A : Region} {z : HZ CDoc} {Z : ZSet CDoc} (hz : ZIs c h A z Z) (hd : Docs h z) :
    ∃ h' r, Gives (emitM σ t tgt z) h (h', r) ∧ Ext nowhere h h' ∧
      SameOutcome (fun x X => Acted h tgt h' x.1 X.1 ∧ All2 (DeltaIs h' (above h.length)) x.2 X.2 ∧ Apart (TgtHolds h' x.1) (Emitted h' x.2) ∧
        Lone h' (x.2.map Delta.obj)) r
        (emits σ.eval t T Z) := by
  have hE : emits σ.eval t T Z = (match convertZSet jsonOps t (σ.list.run Z) with | .error e => .error e | .ok ds => reconcile jsonOps σ.recon T ds) := rfl
  rw [hE]
  obtain ⟨h1, l, g1, e1, s1⟩ := listM_gives (docs_all2 hc hz hd)
  obtain ⟨h2, r2, g2, e2, s2, lone⟩ := emitGo_gives ht (N := h.length) e1.1 (σ.list.all2 s1)
  have e12 := e1.trans e2 (fun _ _ h => h)
  match r2, convertZSet jsonOps t (σ.list.run Z), s2 with
  | .error e, .error e', s2 =>
    obtain ⟨N2, H2⟩ := g2
    exact ⟨h2, .error e, g1.bind ⟨N2, fun n hn => by rw [M.bind, H2 n hn]⟩, e12, s2⟩
  | .ok ds, .ok Ds, s2 =>
    have s2 : All2 (DeltaIs h2 (above h.length)) ds Ds := s2
    have s2' : All2 (DeltaIs h2 (fun b => h.length ≤ b ∧ b < h2.length)) ds Ds :=
      s2.imp (fun _ _ hd => ⟨hd.1, hd.2.1, hd.2.2.1, fun b hb => ⟨hd.2.2.2 b hb, hd.2.1.lt hb⟩⟩)
    obtain ⟨h3, r3, g3, e3, s3⟩ := reconcileM_gives (hT.grow e12) hok σ s2'
    refine ⟨h3, r3, g1.bind (g2.bind g3), e12.trans e3 (fun _ _ h => h), ?_⟩
    dsimp only
    match r3, reconcile jsonOps σ.recon T Ds, s3 with
    | .error e, .error e', s3 => exact s3
    | .ok x, .ok X, ⟨a3, d3⟩ =>
      have a0 : Acted h tgt h2 tgt T := ⟨e12, hT.grow e12, hok, fun b hb => .inl (tgtHolds_back hT e12 hb)⟩
      refine ⟨a0.trans a3, d3.imp (fun _ _ hd => ⟨hd.1, hd.2.1, hd.2.2.1, fun b hb => (hd.2.2.2 b hb).1⟩), fun b hb ⟨δ, hδ, hr⟩ => ?_, ?_⟩
      rotate_left
      · obtain ⟨N3, H3⟩ := g3
        have hw := reconcileM_objs (H3 N3 (Nat.le_refl _))
        refine List.Pairwise.imp_of_mem ?_ (hw.pairwise (fun hab b hb hb' => hab b hb' hb) (lone ds rfl))
        intro x y hx hy hxy b hb hb'
        have hback : ∀ {x}, x ∈ ds.map Delta.obj → Reach h3 (.ref x) b → Reach h2 (.ref x) b := fun hx hb => by
          obtain ⟨δ, hδ, rfl⟩ := List.mem_map.mp hx
          obtain ⟨Δ, -, hΔ⟩ := All2.left s2 hδ
          exact reach_frame hb (fun _ hb => e3.get (hΔ.2.1.lt hb))
        have hin : ∀ {x}, x ∈ List.map Delta.obj _ → x ∈ ds.map Delta.obj := fun hx => by
          obtain ⟨r, hr⟩ := hw
          exact hr.mem_iff.mp (List.mem_append_left _ hx)
        exact hxy b (hback (hin hx) hb) (hback (hin hy) hb')
      obtain ⟨Δ, -, hΔ⟩ := All2.left d3 hδ
      have hb' := hΔ.2.2.2 b hr
      rcases a3.held b hb with h4 | h4
      · obtain ⟨p, hp, hr'⟩ := tgtHolds_back hT e12 h4
        obtain ⟨q, -, hq⟩ := All2.left hT hp
        exact absurd (hq.2.lt hr') (Nat.not_lt.mpr hb'.1)
      · exact absurd hb'.2 (Nat.not_lt.mpr h4)

end Mem
end Dctl
