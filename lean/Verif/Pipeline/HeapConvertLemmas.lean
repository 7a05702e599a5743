import Verif.Spec.HeapConvert
import Verif.Cache.HeapCacheLemmas
import Verif.Props.Heap
/-!
# Converting deltas in memory

Lemmas for C123.
-/
set_option autoImplicit false
set_option linter.unusedSectionVars false
namespace Dctl
namespace Mem
variable {J : Type} [DecidableEq J]

/-! ### removing a field in place -/

theorem readFields_erase {f : Val → Option Json} {k : String} : ∀ {m : List (String × Val)} {js : List (String × Json)}, readFields f m = some js →
    readFields f (SMap.erase m k) = some (SMap.erase js k)
  | [], js, h => by rw [readFields] at h; injection h with h; subst h; rfl
  | (k', v') :: t, js, h => by
    rw [readFields] at h
    split at h
    case h_2 => cases h
    rename_i j' js' h1 h2
    injection h with h; subst h
    rw [SMap.erase, SMap.erase]
    split
    · exact h2
    · rw [readFields, h1, readFields_erase h2]

/-- Removing a field of a map in a copy, in place. -/
theorem Fresh.removeInner {N : Nat} {h : Heap} {a : Nat} {o : Obj} (hf : Fresh N h a o) (hs : SMap.Sorted o) (k k' : String) :
    ObjAt (removeNestedH [k, k'] h a) a (removeNested o [k, k']) ∧ (∀ b, Reach (removeNestedH [k, k'] h a) (.ref a) b → Reach h (.ref a) b) ∧
    Ext (fun b => Reach h (.ref a) b) h (removeNestedH [k, k'] h a) ∧ (removeNestedH [k, k'] h a).length = h.length := by
  obtain ⟨n, m, ha, hm⟩ := hf.reads.cell
  have hget := readFields_get (k := k) hm
  have hms : SMap.Sorted m := sorted_keys (readFields_keys hm) hs
  have hkeep : ∀ {h' : Heap}, h' = h → removeNested o [k, k'] = o → ObjAt h' a (removeNested o [k, k']) ∧ (∀ b, Reach h' (.ref a) b → Reach h (.ref a) b) ∧
      Ext (fun b => Reach h (.ref a) b) h h' ∧ h'.length = h.length := by
    intro h' e e'; subst e; rw [e']; exact ⟨hf.reads, fun _ h => h, Ext.refl _ _, rfl⟩
  cases hmk : SMap.get m k with
  | none =>
    refine hkeep (by rw [removeNestedH, ha]; simp only [hmk]) ?_
    rw [hmk] at hget
    have hget' : SMap.get o k = none := hget
    rw [removeNested, hget']
  | some w =>
    have hmem := SMap.mem_of_get hmk
    obtain ⟨jw, hjw⟩ := readFields_some hm k w hmem
    have hog : SMap.get o k = some jw := by rw [hget, hmk]; exact hjw
    have hscal : (∀ x, jw ≠ .map x) → removeNested o [k, k'] = o := by
      intro hnm
      rw [removeNested, hog]
      cases jw with
      | map x => exact absurd rfl (hnm x)
      | _ => rfl
    cases w with
    | ref x =>
      cases hxc : h[x]? with
      | none => exact absurd (show x < h.length from (Reach.here x).lt hjw) (by simpa using hxc)
      | some c =>
        cases c with
        | list l =>
          refine hkeep (by rw [removeNestedH, ha]; simp only [hmk, hxc]) (hscal ?_)
          intro y hy
          subst hy
          cases n with
          | zero => rw [read_zero] at hjw; cases hjw
          | succ n =>
            rw [read_list hxc, Option.map_eq_some_iff] at hjw
            obtain ⟨_, _, h2⟩ := hjw; cases h2
        | map mm =>
          cases n with
          | zero => rw [read_zero] at hjw; cases hjw
          | succ n =>
          have hjw0 := hjw
          rw [read_map hxc, Option.map_eq_some_iff] at hjw
          obtain ⟨om, hom, hjo⟩ := hjw
          subst hjo
          have hax : Reach h (.ref a) x := .field ha hmem (.here x)
          have hread : Mem.read (n + 2) h (.ref a) = some (.map o) := by rw [read_map ha, hm]; rfl
          have hreadx : Mem.read (n + 1) h (.ref x) = some (.map om) := by rw [read_map hxc, hom]; rfl
          have hne : a ≠ x := fun e => read_acyclic ha hmem hread (by rw [e]; exact .here x)
          have hlt : x < h.length := (List.getElem?_eq_some_iff.mp hxc).1
          have heq : removeNestedH [k, k'] h a = h.set x (.map (SMap.erase mm k')) := by
            rw [removeNestedH, ha]; simp only [hmk, hxc]; rw [removeNestedH, hxc]
          have hof : removeNested o [k, k'] = SMap.set o k (.map (SMap.erase om k')) := by
            rw [removeNested, hog]; rfl
          rw [heq, hof]
          have hcx : (h.set x (.map (SMap.erase mm k')))[x]? = some (.map (SMap.erase mm k')) := by rw [List.getElem?_set_self hlt]
          have hca : (h.set x (.map (SMap.erase mm k')))[a]? = some (.map m) := by rw [set_other hne, ha]
          have hoth : ∀ k2 v2, (k2, v2) ∈ m → k2 ≠ k → ∀ b, Reach h v2 b → (h.set x (.map (SMap.erase mm k')))[b]? = h[b]? :=
            fun k2 v2 hm2 hk2 b hb => set_other (fun e => hf.apart m ha k2 v2 k _ hm2 hmem hk2 b hb (by rw [e]; exact .here x))
          have hin : ∀ k2 v2, (k2, v2) ∈ mm → ∀ b, Reach h v2 b → (h.set x (.map (SMap.erase mm k')))[b]? = h[b]? :=
            fun k2 v2 hm2 b hb => set_other (fun e => read_acyclic hxc hm2 hreadx (e ▸ hb))
          refine ⟨objAt_of_cell (n := n + 1) hca (readFields_change hms hm (fun k2 v2 hm2 hk2 => read_frame _ (hoth k2 v2 hm2 hk2)) hmk ?_), ?_,
            ⟨by simp, fun b _ hn => set_other (fun e => hn (e ▸ hax))⟩, by simp⟩
          · rw [read_map hcx]
            have h1 : readFields (Mem.read n (h.set x (.map (SMap.erase mm k')))) mm = some om := by
              rw [← hom]; exact readFields_congr (fun k2 v2 hm2 => read_frame n (hin k2 v2 hm2))
            rw [readFields_erase h1]; rfl
          · intro b hb
            cases hb with
            | here => exact .here a
            | @field _ _ _ k2 v2 hx hm2 hb =>
              rw [hca] at hx; injection hx with hx; injection hx with hx; subst hx
              by_cases hk2 : k2 = k
              · subst hk2
                have : v2 = .ref x := by
                  have h3 := SMap.get_of_mem hms hm2
                  rw [hmk] at h3; injection h3 with h3; exact h3.symm
                subst this
                cases hb with
                | here => exact hax
                | field hy hm3 hb =>
                  rw [hcx] at hy; injection hy with hy; injection hy with hy; subst hy
                  have hm3' := SMap.mem_erase hm3
                  exact .field ha hmem (.field hxc hm3' (reach_frame hb (hin _ _ hm3')))
                | elem hy _ _ => rw [hcx] at hy; cases hy
              · exact .field ha hm2 (reach_frame hb (hoth k2 v2 hm2 hk2))
            | elem hx _ _ => rw [hca] at hx; cases hx
    | null => exact hkeep (by rw [removeNestedH, ha]; simp only [hmk]) (hscal (by intro y; cases n <;> (simp only [Mem.read] at hjw; injection hjw with e; subst e; simp)))
    | bool b => exact hkeep (by rw [removeNestedH, ha]; simp only [hmk]) (hscal (by intro y; cases n <;> (simp only [Mem.read] at hjw; injection hjw with e; subst e; simp)))
    | int b => exact hkeep (by rw [removeNestedH, ha]; simp only [hmk]) (hscal (by intro y; cases n <;> (simp only [Mem.read] at hjw; injection hjw with e; subst e; simp)))
    | float b => exact hkeep (by rw [removeNestedH, ha]; simp only [hmk]) (hscal (by intro y; cases n <;> (simp only [Mem.read] at hjw; injection hjw with e; subst e; simp)))
    | str b => exact hkeep (by rw [removeNestedH, ha]; simp only [hmk]) (hscal (by intro y; cases n <;> (simp only [Mem.read] at hjw; injection hjw with e; subst e; simp)))

/-! ### steps -/

theorem Gives.bind {A B : Type} {m : M A} {f : A → M B} {h h1 : Heap} {a : A} {r : Heap × Except Err B} (H1 : Gives m h (h1, .ok a)) (H2 : Gives (f a) h1 r) :
    Gives (m.bind f) h r := by
  obtain ⟨N, H1⟩ := H1
  obtain ⟨N', H2⟩ := H2
  exact ⟨max N N', fun n hn => by rw [M.bind, H1 n (by omega)]; exact H2 n (by omega)⟩

theorem gives_pure {A : Type} (a : A) (h : Heap) : Gives (M.pure a) h (h, .ok a) := ⟨0, fun _ _ => rfl⟩

theorem gives_fail {A : Type} (e : Err) (h : Heap) : Gives (M.fail e : M A) h (h, .error e) := ⟨0, fun _ _ => rfl⟩

theorem copyObjM_gives {h : Heap} {a : Nat} {o : Obj} (ho : ObjAt h a o) :
    ∃ h' a', Gives (copyObjM a) h (h', .ok a') ∧ Fresh h.length h' a' (copyObj o) ∧ Ext nowhere h h' := by
  obtain ⟨N, h', a', H⟩ := copyObjH_ends ho
  obtain ⟨h1, h2⟩ := copyObjH_fresh ho (H N (Nat.le_refl _))
  exact ⟨h', a', ⟨N, fun n hn => by rw [copyObjM, H n hn]; rfl⟩, h1, h2⟩

theorem objM_gives {h : Heap} {a : Nat} {o : Obj} (ho : ObjAt h a o) : Gives (objM a) h (h, .ok o) := by
  obtain ⟨N, H⟩ := Reads.gives ho
  refine ⟨N, fun n hn => ?_⟩
  have h1 : read n h (.ref a) = some (.map o) := H n hn
  rw [objM, h1]

theorem removeUIDM_gives {N : Nat} {h : Heap} {a : Nat} {o : Obj} (hf : Fresh N h a o) (hs : SMap.Sorted o) :
    ∃ h', Gives (removeUIDM a) h (h', .ok ()) ∧ ObjAt h' a (removeUID o) ∧ (∀ b, Reach h' (.ref a) b → Reach h (.ref a) b) ∧
      Ext (fun b => Reach h (.ref a) b) h h' ∧ h'.length = h.length := by
  obtain ⟨N, H⟩ := Reads.gives hf.reads
  have H' : ∀ n, N ≤ n → read n h (.ref a) = some (.map o) := H
  by_cases hc : (!isViewKind (objGVK o) || objUID o == "") = true
  · exact ⟨h, ⟨N, fun n hn => by rw [removeUIDM, H' n hn]; simp only [hc]; rfl⟩, by rw [removeUID, if_pos hc]; exact hf.reads, fun _ h => h, Ext.refl _ _, rfl⟩
  · obtain ⟨h1, h2, h3, h4⟩ := hf.removeInner hs "metadata" "uid"
    exact ⟨_, ⟨N, fun n hn => by rw [removeUIDM, H' n hn]; simp only [if_neg hc]⟩, by rw [removeUID, if_neg hc]; exact h1, h2, h3, h4⟩

theorem kinded_uid {o : CDoc} (ho : Kinded o) : Kinded (jsonOps.removeUID o) := by
  have h1 : copyObj (removeUID o.1) = removeUID o.1 := by
    have hs : SMap.Sorted o.1 := o.2.sorted
    have hk : copyObj o.1 = o.1 := ho
    rw [copyObj, setGVK_eq] at hk
    rw [copyObj, setGVK_eq, removeUID_gvk o.2]
    have hg : ∀ k, k ≠ "metadata" → SMap.get (removeUID o.1) k = SMap.get o.1 k := by
      intro k hk
      rw [← nested_one, ← nested_one, removeUID_off o.2 (fun h => by simpa using h.length_le) (fun h => hk (by
        obtain ⟨t, ht⟩ := h; simp at ht; exact ht.1))]
    have hs1 : SMap.Sorted (SMap.set o.1 "apiVersion" (.str (gvString (objGVK o.1)))) := hs.set _ _
    have hkind : SMap.get o.1 "kind" = some (.str (objGVK o.1).kind) := by
      have h2 := SMap.get_set _ hs1 "kind" "kind" (Json.str (objGVK o.1).kind)
      rw [hk, if_pos rfl] at h2; exact h2
    have hav : SMap.get o.1 "apiVersion" = some (.str (gvString (objGVK o.1))) := by
      have h2 := SMap.get_set _ hs1 "kind" "apiVersion" (Json.str (objGVK o.1).kind)
      rw [hk, if_neg (by decide), SMap.get_set _ hs, if_pos rfl] at h2; exact h2
    have hs' : SMap.Sorted (removeUID o.1) := (removeUID_canon o.2).sorted
    rw [set_get_self hs' (by rw [hg _ (by decide), hav]), set_get_self hs' (by rw [hg _ (by decide), hkind])]
  exact h1

/-! ### stores -/

theorem srcAt_get {h : Heap} {s : HStore} {S : Store CDoc} (hs : All2 (fun p q => p.1 = q.1 ∧ ObjAt h p.2 q.2.1) s S) (k : ObjKey) :
    (AMap.get s k = none ∧ AMap.get S k = none) ∨ ∃ p q, p ∈ s ∧ q ∈ S ∧ q.1 = k ∧ AMap.get s k = some p.2 ∧ AMap.get S k = some q.2 ∧ ObjAt h p.2 q.2.1 := by
  induction hs with
  | nil => exact .inl ⟨rfl, rfl⟩
  | @cons p q t t' hr _ ih =>
    obtain ⟨k1, a⟩ := p
    obtain ⟨k2, o⟩ := q
    obtain ⟨e, ho⟩ := hr
    simp only at e; subst e
    rw [AMap.get, AMap.get]
    by_cases hk : k1 = k
    · rw [if_pos hk, if_pos hk]; exact .inr ⟨(k1, a), (k1, o), by simp, by simp, hk, rfl, rfl, ho⟩
    · rw [if_neg hk, if_neg hk]
      rcases ih with ih | ⟨p, q, h1, h2, h3⟩
      · exact .inl ih
      · exact .inr ⟨p, q, by simp [h1], by simp [h2], h3⟩

theorem srcAt_set {h : Heap} {s : HStore} {S : Store CDoc} (hs : All2 (fun p q => p.1 = q.1 ∧ ObjAt h p.2 q.2.1) s S) (k : ObjKey) {a : Nat} {o : CDoc} (ho : ObjAt h a o.1) :
    All2 (fun p q => p.1 = q.1 ∧ ObjAt h p.2 q.2.1) (AMap.set s k a) (AMap.set S k o) := by
  induction hs with
  | nil => exact .cons ⟨rfl, ho⟩ .nil
  | @cons p q t t' hr ht ih =>
    obtain ⟨k1, a1⟩ := p
    obtain ⟨k2, o2⟩ := q
    obtain ⟨e, ho2⟩ := hr
    simp only at e; subst e
    rw [AMap.set, AMap.set]
    by_cases hk : k1 = k
    · rw [if_pos hk, if_pos hk]; exact .cons ⟨rfl, ho⟩ ht
    · rw [if_neg hk, if_neg hk]; exact .cons ⟨rfl, ho2⟩ ih

theorem srcAt_erase {h : Heap} {s : HStore} {S : Store CDoc} (hs : All2 (fun p q => p.1 = q.1 ∧ ObjAt h p.2 q.2.1) s S) (k : ObjKey) :
    All2 (fun p q => p.1 = q.1 ∧ ObjAt h p.2 q.2.1) (AMap.erase s k) (AMap.erase S k) := by
  induction hs with
  | nil => exact .nil
  | @cons p q t t' hr ht ih =>
    obtain ⟨k1, a1⟩ := p
    obtain ⟨k2, o2⟩ := q
    obtain ⟨e, ho2⟩ := hr
    simp only at e; subst e
    rw [AMap.erase, AMap.erase]
    by_cases hk : k1 = k
    · rw [if_pos hk, if_pos hk]; exact ht
    · rw [if_neg hk, if_neg hk]; exact .cons ⟨rfl, ho2⟩ ih

theorem mem_store_set {V : Type} {m : AMap ObjKey V} {k : ObjKey} {v : V} {p : ObjKey × V} (h : p ∈ AMap.set m k v) : p = (k, v) ∨ p ∈ m := by
  induction m with
  | nil => simpa [AMap.set] using h
  | cons q t ih =>
    obtain ⟨k1, v1⟩ := q
    rw [AMap.set] at h
    split at h
    · rcases List.mem_cons.mp h with e | e
      · exact .inl e
      · exact .inr (List.mem_cons_of_mem _ e)
    · rcases List.mem_cons.mp h with e | e
      · exact .inr (by simp [e])
      · rcases ih e with e | e
        · exact .inl e
        · exact .inr (List.mem_cons_of_mem _ e)

theorem mem_store_erase {V : Type} {m : AMap ObjKey V} {k : ObjKey} {p : ObjKey × V} (h : p ∈ AMap.erase m k) : p ∈ m := by
  induction m with
  | nil => exact h
  | cons q t ih =>
    obtain ⟨k1, v1⟩ := q
    rw [AMap.erase] at h
    split at h
    · exact List.mem_cons_of_mem _ h
    · rcases List.mem_cons.mp h with e | e
      · simp [e]
      · exact List.mem_cons_of_mem _ (ih e)

theorem SrcIs.grow {h h' : Heap} {src : HSrc} {C : SrcCache CDoc} (hs : SrcIs h src C) (he : Ext nowhere h h') : SrcIs h' src C :=
  fun g => (hs g).imp (fun _ _ hp => ⟨hp.1, ObjAt.grow hp.2 he⟩)

theorem SrcIs.agree {h h' : Heap} {src : HSrc} {C : SrcCache CDoc} (hs : SrcIs h src C) (he : ∀ b, SrcHolds h src b → h'[b]? = h[b]?) : SrcIs h' src C :=
  fun g => All2.imp_mem (hs g) (fun p _ hm hp => ⟨hp.1, Reads.frame hp.2 (fun b hb => he b ⟨g, p, hm, hb⟩)⟩)

theorem SrcIs.lt {h : Heap} {src : HSrc} {C : SrcCache CDoc} (hs : SrcIs h src C) {b : Nat} (hb : SrcHolds h src b) : b < h.length := by
  obtain ⟨g, p, hp, hb⟩ := hb
  obtain ⟨q, -, ho⟩ := (hs g).mem_left hp
  exact ho.lt hb

theorem srcHolds_agree {h h' : Heap} {src : HSrc} (he : ∀ b, SrcHolds h src b → h'[b]? = h[b]?) {b : Nat} (hb : SrcHolds h' src b) : SrcHolds h src b := by
  obtain ⟨g, p, hp, hb⟩ := hb
  exact ⟨g, p, hp, reach_frame hb (fun b hb => he b ⟨g, p, hp, hb⟩)⟩

theorem SrcIs.holds_grow {h h' : Heap} {src : HSrc} {C : SrcCache CDoc} (hs : SrcIs h src C) (he : Ext nowhere h h') {b : Nat} (hb : SrcHolds h' src b) : SrcHolds h src b :=
  srcHolds_agree (fun _ hb => he.get (hs.lt hb)) hb

/-- A new version of one store. -/
theorem SrcIs.put {h : Heap} {src : HSrc} {C : SrcCache CDoc} (hs : SrcIs h src C) {g : GVK} {s : HStore} {S : Store CDoc}
    (hS : All2 (fun p q => p.1 = q.1 ∧ ObjAt h p.2 q.2.1) s S) : SrcIs h (upd src g s) (C.put g S) := by
  intro g'
  simp only [upd, SrcCache.put]
  split
  · exact hS
  · exact hs g'

theorem srcHolds_put {h : Heap} {src : HSrc} {g : GVK} {s : HStore} {b : Nat} (hb : SrcHolds h (upd src g s) b) :
    SrcHolds h src b ∨ ∃ p ∈ s, Reach h (.ref p.2) b := by
  obtain ⟨g', p, hp, hb⟩ := hb
  simp only [upd] at hp
  split at hp
  · exact .inr ⟨p, hp, hb⟩
  · exact .inl ⟨g', p, hp, hb⟩

/-- `Get` of a store. -/
theorem getM_gives {h : Heap} {s : HStore} {S : Store CDoc} (hs : All2 (fun p q => p.1 = q.1 ∧ ObjAt h p.2 q.2.1) s S) (hk : ∀ q ∈ S, q.1 = objKey q.2.1 ∧ Kinded q.2) (k : ObjKey) :
    (AMap.get S k = none ∧ Gives (s.getM k) h (h, .ok none)) ∨
    ∃ h' x o, AMap.get S k = some o ∧ Gives (s.getM k) h (h', .ok (some x)) ∧ Fresh h.length h' x o.1 ∧ Ext nowhere h h' ∧ objKey o.1 = k ∧ Kinded o := by
  rcases srcAt_get hs k with ⟨h1, h2⟩ | ⟨p, q, h1, h2, h3, h4, h5, h6⟩
  · exact .inl ⟨h2, by rw [HStore.getM, h1]; exact gives_pure _ _⟩
  · obtain ⟨h', x, hg, hf, he⟩ := copyObjM_gives h6
    have hq := hk q h2
    have hkd : copyObj q.2.1 = q.2.1 := hq.2
    rw [hkd] at hf
    exact .inr ⟨h', x, q.2, h5, by rw [HStore.getM, h4]; exact hg.bind (gives_pure _ _), hf, he, hq.1 ▸ h3, hq.2⟩

/-- `Add`, `Update` of a store. -/
theorem putM_gives {h : Heap} (s : HStore) {a : Nat} {o : CDoc} (ho : ObjAt h a o.1) (hk : Kinded o) :
    ∃ h' a', Gives (s.putM a) h (h', .ok (AMap.set s (objKey o.1) a')) ∧ ObjAt h' a' o.1 ∧ (∀ b, Reach h' (.ref a') b → h.length ≤ b) ∧ Ext nowhere h h' := by
  obtain ⟨h', a', hg, hf, he⟩ := copyObjM_gives ho
  have hkd : copyObj o.1 = o.1 := hk
  rw [hkd] at hf
  exact ⟨h', a', hg.bind ((objM_gives hf.reads).bind (gives_pure _ _)), hf.reads, hf.new, he⟩

/-- `Delete` of a store. -/
theorem delM_gives {h : Heap} (s : HStore) {a : Nat} {o : Obj} (ho : ObjAt h a o) : Gives (s.delM a) h (h, .ok (AMap.erase s (objKey o))) :=
  (objM_gives ho).bind (gives_pure _ _)

/-! ### the conversion -/

theorem Fresh.grow {N : Nat} {h h' : Heap} {a : Nat} {o : Obj} (hf : Fresh N h a o) (he : Ext nowhere h h') : Fresh N h' a o := by
  have hag : ∀ b, Reach h (.ref a) b → h'[b]? = h[b]? := fun b hb => he.get (hf.reads.lt hb)
  refine ⟨ObjAt.grow hf.reads he, fun b hb => hf.new b (reach_frame hb hag), fun m hm k v k' v' h1 h2 hne b hb hb' => ?_⟩
  rw [hag a (.here a)] at hm
  have hin : ∀ {k v}, (k, v) ∈ m → ∀ b, Reach h' v b → Reach h v b := fun hm' b hb => reach_frame hb (fun b hb => hag b (.field hm hm' hb))
  exact hf.apart m hm k v k' v' h1 h2 hne b (hin h1 b hb) (hin h2 b hb')

theorem docIs_of {c : Cfg CDoc J} (hc : ∀ d : CDoc, c.key (.map d.1) = d) {h : Heap} {A : Region} {a : Nat} {o : CDoc} (ho : ObjAt h a o.1)
    (hA : ∀ b, Reach h (.ref a) b → A b) : DocIs c h A a o := ⟨.map o.1, ho, hc o, hA⟩

theorem addDoc_gives {c : Cfg CDoc J} {h : Heap} {A : Region} {a : Nat} {k : CDoc} (ha : DocIs c h A a k) {m : Int} (hm : m ≠ 0) {z : HZ CDoc} {Z : ZSet CDoc}
    (hz : ZIs c h A z Z) : ∃ z', Gives (addDoc c z a m) h (h, .ok z') ∧ ZIs c h A z' (Z.addDoc k m) := by
  obtain ⟨j, hr, hk, hA⟩ := id ha
  obtain ⟨N, hN⟩ := hr.gives
  refine ⟨z.upd k a m, ⟨N, fun n hn => ?_⟩, ?_⟩
  · have h1 : read n h (.ref a) = some j := hN n hn
    rw [addDoc, if_neg hm, h1, ← hk]
  · rw [ZSet.addDoc, if_neg hm]; exact upd_is ha m hz

/-- The suppression check: it only makes new cells. -/
theorem sameM_gives {h : Heap} {t : DeltaType} {old : Option Nat} {oldO : Option CDoc} {a : Nat} {o : CDoc} (ho : ObjAt h a o.1)
    (hold : OptIs (fun x (d : CDoc) => ObjAt h x d.1 ∧ Kinded d) old oldO) :
    ∃ h', Gives (sameM t old a) h (h', .ok (decide (t.isUpsert = true ∧ oldO.map jsonOps.removeUID = some o))) ∧ Ext nowhere h h' := by
  match old, oldO, hold with
  | none, none, _ => exact ⟨h, by simpa [sameM] using gives_pure _ _, Ext.refl _ _⟩
  | some x, some d, ⟨hx, hk⟩ =>
    by_cases ht : t.isUpsert = true
    · have hkd : copyObj d.1 = d.1 := hk
      obtain ⟨h1, x1, g1, f1, e1⟩ := copyObjM_gives hx
      rw [hkd] at f1
      obtain ⟨h2, g2, o2, r2, e2, -⟩ := removeUIDM_gives f1 d.2.sorted
      have e2' : Ext nowhere h h2 := e1.trans e2 (fun b hb hr => absurd (f1.new b hr) (Nat.not_le.mpr hb))
      refine ⟨h2, ?_, e2'⟩
      have heq : decide (t.isUpsert = true ∧ (some d).map jsonOps.removeUID = some o) = decide (o.1 = removeUID d.1) := by
        simp only [ht, true_and, Option.map_some, Option.some.injEq, decide_eq_decide]
        exact ⟨fun h => by rw [← h]; rfl, fun h => Subtype.ext h.symm⟩
      rw [heq, sameM, if_pos ht]
      exact g1.bind (g2.bind ((objM_gives o2).bind ((objM_gives (ObjAt.grow ho e2')).bind (gives_pure _ _))))
    · exact ⟨h, by simpa [sameM, ht] using gives_pure _ _, Ext.refl _ _⟩

/-- What a conversion leaves behind, from memory `h` on: the Z-set is made of cells that are new and not in the source cache; whatever the source
cache holds it held before, or is new. -/
structure Converted (c : Cfg CDoc J) (h h' : Heap) (src : HSrc) (x : HSrc × HZ CDoc) (X : SrcCache CDoc × ZSet CDoc) : Prop where
  stores : SrcIs h' x.1 X.1
  ok : SrcOk X.1
  zset : ZIs c h' (above h.length) x.2 X.2
  held : ∀ b, SrcHolds h' x.1 b → SrcHolds h src b ∨ h.length ≤ b
  apart : Apart (SrcHolds h' x.1) (Held h' [x.2])

/-- The second part of `convertDelta`. -/
def changeOn (C : SrcCache CDoc) (t : DeltaType) (g : GVK) (k : ObjKey) (old : Option CDoc) (d : CDoc) : Except Err (SrcCache CDoc × ZSet CDoc) :=
  match t with
  | .added => .ok (C.put g ((C g).set k d), ZSet.addDoc [] d 1)
  | .updated | .replaced | .upserted => .ok (C.put g ((C g).set k d), updateZSet old d)
  | .deleted =>
    match old with
    | none => .error "delete for a nonexistent object"
    | some _ => .ok (C.put g ((C g).erase k), ZSet.addDoc [] d (-1))
  | .sync => .error "unknown event"

theorem convertDelta_eq (C : SrcCache CDoc) (t : DeltaType) (o : CDoc) : convertDelta jsonOps C ⟨t, o⟩ =
    if t.isUpsert = true ∧ ((C (objGVK o.1)).get (objKey o.1)).map jsonOps.removeUID = some (jsonOps.removeUID o) then .ok (C, [])
    else changeOn C t (objGVK o.1) (objKey o.1) ((C (objGVK o.1)).get (objKey o.1)) (jsonOps.removeUID o) := by
  rw [convertDelta]
  cases t with
  | deleted =>
    have h1 : DeltaType.isUpsert .deleted = false := rfl
    have h2 : jsonOps.gvk o = objGVK o.1 := rfl
    have h3 : jsonOps.key o = objKey o.1 := rfl
    simp only [h1, h2, h3, Bool.false_eq_true, false_and, if_false, changeOn]
    cases (C (objGVK o.1)).get (objKey o.1) <;> rfl
  | _ => rfl

theorem SrcOk.put {C : SrcCache CDoc} (hC : SrcOk C) {g : GVK} {S : Store CDoc} (hS : ∀ q ∈ S, q.1 = objKey q.2.1 ∧ Kinded q.2) : SrcOk (C.put g S) := by
  intro g' q hq
  simp only [SrcCache.put] at hq
  split at hq
  · exact hS q hq
  · exact hC g' q hq

/-- Storing the object after its Z-set has been made. -/
theorem store_gives {c : Cfg CDoc J} {h0 h : Heap} {src : HSrc} {C : SrcCache CDoc} (hs : SrcIs h0 src C) (hC : SrcOk C) (he : Ext nowhere h0 h) {a : Nat} {d : CDoc} (g : GVK)
    {k : ObjKey} (hd : ObjAt h a d.1) (hk : Kinded d) (hkey : objKey d.1 = k) {z : HZ CDoc} {Z : ZSet CDoc} (hz : ZIs c h (above h0.length) z Z) :
    ∃ h' x, Gives (((src g).putM a).bind (fun s => M.pure (upd src g s, z))) h (h', .ok x) ∧ Ext nowhere h h' ∧
      Converted c h0 h' src x (C.put g ((C g).set k d), Z) := by
  obtain ⟨h', a', hg, ho, hnew, he'⟩ := putM_gives (src g) hd hk
  rw [hkey] at hg
  have hs' := hs.grow (he.trans he' (fun _ _ h => h))
  have hheld : ∀ b, SrcHolds h' (upd src g (AMap.set (src g) k a')) b → SrcHolds h0 src b ∨ h.length ≤ b := by
    intro b hb
    have hold := fun hb => hs.holds_grow (he.trans he' (fun _ _ h => h)) (b := b) hb
    rcases srcHolds_put hb with hb | ⟨p, hp, hb⟩
    · exact .inl (hold hb)
    · rcases mem_store_set hp with e | e
      · subst e; exact .inr (hnew b hb)
      · exact .inl (hold ⟨g, p, e, hb⟩)
  refine ⟨h', _, hg.bind (gives_pure _ _), he', ⟨hs'.put (srcAt_set (hs' g) k ho), hC.put ?_, hz.grow he', ?_, ?_⟩⟩
  · intro q hq
    rcases mem_store_set hq with e | e
    · subst e; exact ⟨hkey.symm, hk⟩
    · exact hC g q e
  · intro b hb
    rcases hheld b hb with h1 | h1
    · exact .inl h1
    · exact .inr (Nat.le_trans he.1 h1)
  · rintro b hb ⟨z', hz', e, hze, hbe⟩
    rw [List.mem_singleton] at hz'; subst hz'
    have hin := (hz.old he').held_sub hze hbe
    rcases hheld b hb with h1 | h1
    · exact absurd hin.1.1 (Nat.not_le.mpr (hs.lt h1))
    · exact absurd hin.1.2 (Nat.not_lt.mpr h1)

theorem changeM_gives {c : Cfg CDoc J} (hc : ∀ d : CDoc, c.key (.map d.1) = d) {h0 h : Heap} {src : HSrc} {C : SrcCache CDoc} (hs : SrcIs h0 src C) (hC : SrcOk C)
    (he : Ext nowhere h0 h) {a : Nat} {d : CDoc} (t : DeltaType) (g : GVK) {k : ObjKey} (hd : ObjAt h a d.1) (hnew : ∀ b, Reach h (.ref a) b → h0.length ≤ b)
    (hk : Kinded d) (hkey : objKey d.1 = k) {old : Option Nat} {oldO : Option CDoc}
    (hold : OptIs (fun x (o : CDoc) => ObjAt h x o.1 ∧ (∀ b, Reach h (.ref x) b → h0.length ≤ b) ∧ objKey o.1 = k) old oldO) :
    ∃ h' r, Gives (changeM c src t g old a) h (h', r) ∧ Ext nowhere h h' ∧ SameOutcome (Converted c h0 h' src) r (changeOn C t g k oldO d) := by
  have hdoc : DocIs c h (above h0.length) a d := docIs_of hc hd hnew
  have hstart : ZIs c h (above h0.length) ([] : HZ CDoc) [] := .nil
  have hups : ∃ h' x, Gives ((retractM c old).bind (fun z => (addDoc c z a 1).bind (fun z => ((src g).putM a).bind (fun s => M.pure (upd src g s, z))))) h (h', .ok x) ∧ Ext nowhere h h' ∧
      Converted c h0 h' src x (C.put g ((C g).set k d), updateZSet oldO d) := by
    match old, oldO, hold with
    | none, none, _ =>
      obtain ⟨z, g1, hz⟩ := addDoc_gives hdoc (m := 1) (by decide) hstart
      obtain ⟨h', x, g2, e2, hx⟩ := store_gives (c := c) hs hC he g hd hk hkey hz
      exact ⟨h', x, (gives_pure _ _).bind (g1.bind g2), e2, hx⟩
    | some x, some o, ⟨hx, hxn, _⟩ =>
      obtain ⟨z, g1, hz⟩ := addDoc_gives (docIs_of hc hx hxn) (m := -1) (by decide) hstart
      obtain ⟨z', g1', hz'⟩ := addDoc_gives hdoc (m := 1) (by decide) hz
      obtain ⟨h', x, g2, e2, hx⟩ := store_gives (c := c) hs hC he g hd hk hkey hz'
      exact ⟨h', x, g1.bind (g1'.bind g2), e2, hx⟩
  cases t with
  | added =>
    obtain ⟨z, g1, hz⟩ := addDoc_gives hdoc (m := 1) (by decide) hstart
    obtain ⟨h', x, g2, e2, hx⟩ := store_gives (c := c) hs hC he g hd hk hkey hz
    exact ⟨h', .ok x, g1.bind g2, e2, hx⟩
  | updated => obtain ⟨h', x, g1, e1, hx⟩ := hups; exact ⟨h', .ok x, g1, e1, hx⟩
  | replaced => obtain ⟨h', x, g1, e1, hx⟩ := hups; exact ⟨h', .ok x, g1, e1, hx⟩
  | upserted => obtain ⟨h', x, g1, e1, hx⟩ := hups; exact ⟨h', .ok x, g1, e1, hx⟩
  | deleted =>
    match old, oldO, hold with
    | none, none, _ => exact ⟨h, _, gives_fail _ _, Ext.refl _ _, rfl⟩
    | some x, some o, ⟨hx, hxn, hxk⟩ =>
      obtain ⟨z, g1, hz⟩ := addDoc_gives hdoc (m := -1) (by decide) hstart
      have hs' := hs.grow he
      have hheld : ∀ b, SrcHolds h (upd src g (AMap.erase (src g) k)) b → SrcHolds h0 src b := by
        intro b hb
        rcases srcHolds_put hb with hb | ⟨p, hp, hb⟩
        · exact hs.holds_grow he hb
        · exact hs.holds_grow he ⟨g, p, mem_store_erase hp, hb⟩
      refine ⟨h, .ok _, g1.bind ((delM_gives (src g) hx).bind (gives_pure _ _)), Ext.refl _ _, ?_⟩
      rw [hxk]
      exact ⟨hs'.put (srcAt_erase (hs' g) k), hC.put (fun q hq => hC g q (mem_store_erase hq)), hz, fun b hb => .inl (hheld b hb), fun b hb ⟨z', hz', e, hze, hbe⟩ => by
        rw [List.mem_singleton] at hz'; subst hz'
        exact absurd (hz.held_sub hze hbe).1 (Nat.not_le.mpr (hs.lt (hheld b hb)))⟩
  | sync => exact ⟨h, _, gives_fail _ _, Ext.refl _ _, rfl⟩

/-- The conversion of a delta. -/
theorem convertM_gives {c : Cfg CDoc J} (hc : ∀ d : CDoc, c.key (.map d.1) = d) {h : Heap} {src : HSrc} {C : SrcCache CDoc} (hs : SrcIs h src C) (hC : SrcOk C) (t : DeltaType)
    {a : Nat} {o : CDoc} (ho : ObjAt h a o.1) (hk : Kinded o) :
    ∃ h' r, Gives (convertM c src t a) h (h', r) ∧ Ext nowhere h h' ∧ SameOutcome (Converted c h h' src) r (convertDelta jsonOps C ⟨t, o⟩) := by
  have hkd : copyObj o.1 = o.1 := hk
  obtain ⟨h1, a1, g1, f1, e1⟩ := copyObjM_gives ho
  rw [hkd] at f1
  have hs1 := hs.grow e1
  -- the old version
  obtain ⟨h2, old, g2, e2, hold⟩ : ∃ h2 old, Gives ((src (objGVK o.1)).getM (objKey o.1)) h1 (h2, .ok old) ∧ Ext nowhere h1 h2 ∧
      OptIs (fun x (d : CDoc) => Fresh h1.length h2 x d.1 ∧ objKey d.1 = objKey o.1 ∧ Kinded d) old ((C (objGVK o.1)).get (objKey o.1)) := by
    rcases getM_gives (hs1 (objGVK o.1)) (hC (objGVK o.1)) (objKey o.1) with ⟨h3, h4⟩ | ⟨h', x, d, h3, h4, h5, h6, h7, h8⟩
    · exact ⟨h1, none, h4, Ext.refl _ _, by rw [h3]; trivial⟩
    · exact ⟨h', some x, h4, h6, by rw [h3]; exact ⟨h5, h7, h8⟩⟩
  -- the UID goes
  obtain ⟨h3, g3, o3, r3, e3, l3⟩ := removeUIDM_gives (f1.grow e2) o.2.sorted
  have hlow : ∀ b, Reach h2 (.ref a1) b → h.length ≤ b ∧ b < h1.length := fun b hb => by
    have hb' := reach_frame hb (fun b hb => e2.get (f1.reads.lt hb))
    exact ⟨f1.new b hb', f1.reads.lt hb'⟩
  have e13 : Ext nowhere h h3 := (e1.trans e2 (fun _ _ h => h)).trans e3 (fun b hb hr => absurd (hlow b hr).1 (Nat.not_le.mpr hb))
  have hnew3 : ∀ b, Reach h3 (.ref a1) b → h.length ≤ b := fun b hb => (hlow b (r3 b hb)).1
  have hold3 : OptIs (fun x (d : CDoc) => ObjAt h3 x d.1 ∧ (∀ b, Reach h3 (.ref x) b → h.length ≤ b) ∧ objKey d.1 = objKey o.1 ∧ Kinded d) old ((C (objGVK o.1)).get (objKey o.1)) := by
    match old, (C (objGVK o.1)).get (objKey o.1), hold with
    | none, none, _ => trivial
    | some x, some d, ⟨hf, hq⟩ =>
      have hag : ∀ b, Reach h2 (.ref x) b → h3[b]? = h2[b]? := fun b hb => e3.2 b (hf.reads.lt hb) (fun hr => absurd (hlow b hr).2 (Nat.not_lt.mpr (hf.new b hb)))
      exact ⟨Reads.frame hf.reads hag, fun b hb => Nat.le_trans e1.1 (hf.new b (reach_frame hb hag)), hq⟩
  have ho3 : ObjAt h3 a1 (jsonOps.removeUID o).1 := o3
  -- is it the same?
  obtain ⟨h4, g4, e4⟩ := sameM_gives (t := t) ho3 (old := old) (oldO := (C (objGVK o.1)).get (objKey o.1)) (by
    match old, (C (objGVK o.1)).get (objKey o.1), hold3 with
    | none, none, _ => trivial
    | some x, some d, ⟨h1, _, _, h2⟩ => exact ⟨h1, h2⟩)
  have e14 : Ext nowhere h h4 := e13.trans e4 (fun _ _ h => h)
  rw [convertDelta_eq]
  by_cases hsame : t.isUpsert = true ∧ ((C (objGVK o.1)).get (objKey o.1)).map jsonOps.removeUID = some (jsonOps.removeUID o)
  · rw [if_pos hsame]
    rw [decide_eq_true hsame] at g4
    refine ⟨h4, .ok (src, []), g1.bind ((objM_gives f1.reads).bind (g2.bind (g3.bind (g4.bind (gives_pure _ _))))), e14, ?_⟩
    exact ⟨hs.grow e14, hC, .nil, fun b hb => .inl (hs.holds_grow e14 hb), fun b _ ⟨z', hz', e, hze, _⟩ => by
      rw [List.mem_singleton] at hz'; subst hz'; cases hze⟩
  · rw [if_neg hsame]
    rw [decide_eq_false hsame] at g4
    obtain ⟨h5, r, g5, e5, hr⟩ := changeM_gives hc hs hC e14 t (objGVK o.1) (k := objKey o.1) (ObjAt.grow ho3 e4)
      (fun b hb => hnew3 b (reach_frame hb (fun b hb => e4.get (ObjAt.lt ho3 hb)))) (kinded_uid hk) (removeUID_key o.2) (old := old) (oldO := (C (objGVK o.1)).get (objKey o.1)) (by
      match old, (C (objGVK o.1)).get (objKey o.1), hold3 with
      | none, none, _ => trivial
      | some x, some d, ⟨h1, h2, h3, _⟩ => exact ⟨ObjAt.grow h1 e4, fun b hb => h2 b (reach_frame hb (fun b hb => e4.get (h1.lt hb))), h3⟩)
    exact ⟨h5, r, g1.bind ((objM_gives f1.reads).bind (g2.bind (g3.bind (g4.bind g5)))), e14.trans e5 (fun _ _ h => h), hr⟩

/-! ### the pipeline -/

theorem placed_is {c : Cfg CDoc J} {h : Heap} {A : Region} {z : HZ CDoc} {Z : ZSet CDoc} (hz : ZIs c h A z Z) (kind : String) : ∀ inputs : List String,
    All2 (ZIs c h A) (placed [] inputs kind z) (placed [] inputs kind Z)
  | [] => .nil
  | s :: t => by
    refine .cons ?_ (placed_is hz kind t)
    by_cases hk : s = kind
    · simp only [hk, if_true]; exact hz
    · simp only [if_neg hk]; exact .nil

theorem held_placed {h : Heap} {z : HZ CDoc} {inputs : List String} {kind : String} {b : Nat} (hb : Held h (placed [] inputs kind z) b) : Held h [z] b := by
  obtain ⟨z', hz', e, he, hb⟩ := hb
  obtain ⟨s, -, hs⟩ := List.mem_map.mp hz'
  split at hs
  · subst hs; exact ⟨z, by simp, e, he, hb⟩
  · subst hs; cases he

/-- A delta is fed to a pipeline. -/
theorem feedM_gives {c : Cfg CDoc J} (hc : ∀ d : CDoc, c.key (.map d.1) = d) {h : Heap} {src : HSrc} {g : HGraph CDoc} {C : SrcCache CDoc} {G : Graph CDoc J}
    (hp : PipeIs c h src g C G) (t : DeltaType) {a : Nat} {o : CDoc} (ho : ObjAt h a o.1) (hk : Kinded o) :
    ∃ h' src' g' r, Gives (feedM c G.inputs src g t a) h (h', src', g', r) ∧ Ext nowhere h h' ∧
      PipeIs c h' src' g' (feed (C, G) ⟨t, o⟩).1.1 (feed (C, G) ⟨t, o⟩).1.2 ∧ SameOutcome (ZIs c h' (fun _ => True)) r (feed (C, G) ⟨t, o⟩).2 ∧
      (∀ b, PipeHolds h' src' g' b → PipeHolds h src g b ∨ h.length ≤ b) ∧
      ∀ z, r = .ok z → (∀ b, Held h' [z] b → g.Holds h b ∨ h.length ≤ b) ∧ Apart (PipeHolds h' src' g') (Held h' [z]) := by
  obtain ⟨h1, r1, g1, e1, hr1⟩ := convertM_gives hc hp.stores hp.ok t ho hk
  obtain ⟨N0, H0⟩ := Reads.gives ho
  have H0' : ∀ n, N0 ≤ n → read n h (.ref a) = some (.map o.1) := H0
  obtain ⟨N1, H1⟩ := g1
  have hglt : ∀ k ∈ g.kept, ∀ b, Held h k b → b < h.length := by
    rintro k hk b ⟨z, hz, e, he, hb⟩
    obtain ⟨A, Z, hZ⟩ := hp.graph.fine k hk z hz
    exact (hZ.held_sub he hb).2
  have hhlt : ∀ b, g.Holds h b → b < h.length := fun b hb => by
    obtain ⟨k, hk, hb⟩ := held_flatten.mp hb
    exact hglt k hk b hb
  have hgraph1 : GraphIs c h1 g G := hp.graph.agree (fun b hb => e1.get (hhlt b hb))
  have hback : ∀ k ∈ g.kept, ∀ b, Held h1 k b → Held h k b := fun k hk b hb => (held_agree (fun b hb => e1.get (hglt k hk b hb))).mp hb
  have hbackH : ∀ b, g.Holds h1 b → g.Holds h b := fun b hb => by
    obtain ⟨k, hk, hb⟩ := held_flatten.mp hb
    exact held_flatten.mpr ⟨k, hk, hback k hk b hb⟩
  match r1, hX : convertDelta jsonOps C ⟨t, o⟩, hr1 with
  | .error e, .error e', hr1 =>
    have hfeed : feed (C, G) ⟨t, o⟩ = ((C, G), .error e') := by rw [feed, hX]
    rw [hfeed]
    refine ⟨h1, src, g, .error e, ⟨max N0 N1, fun n hn => ?_⟩, e1, ⟨hp.stores.grow e1, hp.ok, hgraph1, fun b hb hb' =>
      hp.apart b (hp.stores.holds_grow e1 hb) (hbackH b hb')⟩, hr1, fun b hb => .inl ?_, fun z hz => by cases hz⟩
    · simp only [feedM, H0' n (by omega), H1 n (by omega)]
    · rcases hb with hb | hb
      · exact .inl (hp.stores.holds_grow e1 hb)
      · exact .inr (hbackH b hb)
  | .ok (src', z), .ok (C', Z), hr1 =>
    have hr1 : Converted c h h1 src (src', z) (C', Z) := hr1
    by_cases hkin : (objGVK o.1).kind ∈ G.inputs
    case neg =>
      have hfeed : feed (C, G) ⟨t, o⟩ = ((C', G), .error "wrong number of inputs") := by rw [feed, hX]; exact if_neg hkin
      rw [hfeed]
      refine ⟨h1, src', g, .error "wrong number of inputs", ⟨max N0 N1, fun n hn => ?_⟩, e1, ⟨hr1.stores, hr1.ok, hgraph1, fun b hb hb' => ?_⟩, rfl, fun b hb => ?_,
        fun z hz => by cases hz⟩
      · simp only [feedM, H0' n (by omega), H1 n (by omega), if_neg hkin]
      · rcases hr1.held b hb with h3 | h3
        · exact hp.apart b h3 (hbackH b hb')
        · exact absurd h3 (Nat.not_le.mpr (hhlt b (hbackH b hb')))
      · rcases hb with hb | hb
        · exact (hr1.held b hb).imp .inl id
        · exact .inl (.inr (hbackH b hb))
    have hins := placed_is hr1.zset (objGVK o.1).kind G.inputs
    have hinnew : ∀ b, Held h1 (placed [] G.inputs (objGVK o.1).kind z) b → h.length ≤ b := fun b hb => held_sub_all hins hb
    obtain ⟨h2, g', r, g2, e2, hg2, hr2, ha1, ha2, ha3⟩ := process_does hgraph1 hins
      (fun k hk b hb hb' => absurd (hinnew b hb') (Nat.not_le.mpr (hglt k hk b (hback k hk b hb)))) (by simp [placed])
    obtain ⟨N2, H2⟩ := g2
    have hfeed : feed (C, G) ⟨t, o⟩ = ((C', (callGraph G (placed [] G.inputs (objGVK o.1).kind Z)).1), (callGraph G (placed [] G.inputs (objGVK o.1).kind Z)).2) := by
      rw [feed, hX]; exact if_pos hkin
    rw [hfeed]
    -- what the graph and the result hold
    have hsrc2 : ∀ b, SrcHolds h2 src' b → SrcHolds h1 src' b := fun b hb => hr1.stores.holds_grow e2 hb
    have hwhere : ∀ b, ((∃ k ∈ g.kept, Held h1 k b) ∨ Held h1 (placed [] G.inputs (objGVK o.1).kind z) b ∨ h1.length ≤ b) →
        (g.Holds h b ∨ h.length ≤ b) ∧ ¬ SrcHolds h1 src' b := by
      rintro b (⟨k, hk, hb⟩ | hb | hb)
      · have hb' := hback k hk b hb
        have hH : g.Holds h b := held_flatten.mpr ⟨k, hk, hb'⟩
        refine ⟨.inl hH, fun hs => ?_⟩
        rcases hr1.held b hs with h3 | h3
        · exact hp.apart b h3 hH
        · exact absurd h3 (Nat.not_le.mpr (hglt k hk b hb'))
      · exact ⟨.inr (hinnew b hb), fun hs => hr1.apart b hs (held_placed hb)⟩
      · exact ⟨.inr (Nat.le_trans e1.1 hb), fun hs => absurd (hr1.stores.lt hs) (Nat.not_lt.mpr hb)⟩
    have hgH : ∀ b, g'.Holds h2 b → (g.Holds h b ∨ h.length ≤ b) ∧ ¬ SrcHolds h1 src' b := fun b hb => by
      obtain ⟨k, hk, hb⟩ := held_flatten.mp hb
      exact hwhere b (ha2 k hk b hb)
    refine ⟨h2, src', g', r, ⟨max N0 (max N1 N2), fun n hn => ?_⟩, e1.trans e2 (fun _ _ h => h), ⟨hr1.stores.grow e2, hr1.ok, hg2, fun b hb hb' =>
      (hgH b hb').2 (hsrc2 b hb)⟩, ?_, ?_, ?_⟩
    · simp only [feedM, H0' n (by omega), H1 n (by omega), H2 n (by omega), if_pos hkin]
    · match r, (callGraph G (placed [] G.inputs (objGVK o.1).kind Z)).2, hr2 with
      | .ok z, .ok Z, ⟨R, h⟩ => exact h.mono (fun _ _ _ => trivial)
      | .error e, .error e', h => exact h
    · rintro b (hb | hb)
      · rcases hr1.held b (hsrc2 b hb) with h3 | h3
        · exact .inl (.inl h3)
        · exact .inr h3
      · rcases (hgH b hb).1 with h3 | h3
        · exact .inl (.inr h3)
        · exact .inr h3
    · intro z' hz'
      refine ⟨fun b hb => (hwhere b ((ha3 z' hz').1 b hb)).1, ?_⟩
      rintro b (hb | hb) hb'
      · exact (hwhere b ((ha3 z' hz').1 b hb')).2 (hsrc2 b hb)
      · obtain ⟨k, hk, hb⟩ := held_flatten.mp hb
        exact (ha3 z' hz').2 k hk b hb hb'

end Mem
end Dctl
