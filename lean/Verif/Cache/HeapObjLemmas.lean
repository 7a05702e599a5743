import Verif.Spec.HeapCache
import Verif.Dbsp.HeapLemmas
import Verif.Cache.ViewLemmas
/-!
# Copies of objects in memory, and writes to them

Lemmas for C122: a deep copy is a tree, so that writing to one of its maps shows in one place only.
-/
set_option autoImplicit false
set_option linter.unusedSectionVars false
namespace Dctl
namespace Mem

/-! ### reading -/

/-- What is reachable from a readable value is readable with the same stack. -/
theorem Reach.reads {h : Heap} {v : Val} {b : Nat} (hr : Reach h v b) : ∀ {n : Nat} {j : Json}, read n h v = some j → ∃ j', read n h (.ref b) = some j' := by
  induction hr with
  | here a => intro n j hr; exact ⟨j, hr⟩
  | field ha hm _ ih =>
    intro n j hr
    cases n with
    | zero => rw [read_zero] at hr; cases hr
    | succ n =>
      rw [read_map ha, Option.map_eq_some_iff] at hr
      obtain ⟨js, h1, -⟩ := hr
      obtain ⟨j', hj⟩ := readFields_some h1 _ _ hm
      obtain ⟨j'', hj''⟩ := ih hj
      exact ⟨j'', read_succ _ hj''⟩
  | elem ha hm _ ih =>
    intro n j hr
    cases n with
    | zero => rw [read_zero] at hr; cases hr
    | succ n =>
      rw [read_list ha, Option.map_eq_some_iff] at hr
      obtain ⟨js, h1, -⟩ := hr
      obtain ⟨j', hj⟩ := readElems_some h1 _ hm
      obtain ⟨j'', hj''⟩ := ih hj
      exact ⟨j'', read_succ _ hj''⟩

/-- A readable map does not contain itself. -/
theorem read_acyclic {h : Heap} {a : Nat} {m : List (String × Val)} (ha : h[a]? = some (.map m)) {k : String} {v : Val} (hm : (k, v) ∈ m) :
    ∀ {n : Nat} {j : Json}, read n h (.ref a) = some j → ¬ Reach h v a
  | 0, _, hr => by rw [read_zero] at hr; cases hr
  | n + 1, j, hr => by
    intro hreach
    rw [read_map ha, Option.map_eq_some_iff] at hr
    obtain ⟨js, h1, -⟩ := hr
    obtain ⟨j', hj⟩ := readFields_some h1 _ _ hm
    obtain ⟨j'', hj''⟩ := hreach.reads hj
    exact read_acyclic ha hm hj'' hreach

/-- An object in memory: the cell and how its fields are read. -/
theorem ObjAt.cell {h : Heap} {a : Nat} {o : Obj} (ho : ObjAt h a o) : ∃ n m, h[a]? = some (.map m) ∧ readFields (read n h) m = some o := by
  obtain ⟨n, hn⟩ := ho
  cases n with
  | zero => rw [read_zero] at hn; cases hn
  | succ n =>
    cases ha : h[a]? with
    | none => rw [read_ref, ha] at hn; cases hn
    | some c =>
      cases c with
      | map m =>
        rw [read_map ha, Option.map_eq_some_iff] at hn
        obtain ⟨js, h1, h2⟩ := hn
        injection h2 with h2
        exact ⟨n, m, rfl, h2 ▸ h1⟩
      | list l =>
        rw [read_list ha, Option.map_eq_some_iff] at hn
        obtain ⟨js, h1, h2⟩ := hn
        cases h2

theorem objAt_of_cell {h : Heap} {a : Nat} {o : Obj} {n : Nat} {m : List (String × Val)} (ha : h[a]? = some (.map m)) (hm : readFields (read n h) m = some o) :
    ObjAt h a o := ⟨n + 1, by rw [read_map ha, hm]; rfl⟩

theorem ObjAt.unique {h : Heap} {a : Nat} {o o' : Obj} (h1 : ObjAt h a o) (h2 : ObjAt h a o') : o = o' := by
  have h3 : Json.map o = Json.map o' := Reads.unique h1 h2
  injection h3

theorem ObjAt.of_read {h : Heap} {a n : Nat} {o : Obj} (hr : read n h (.ref a) = some (.map o)) : ObjAt h a o := ⟨n, hr⟩

theorem ObjAt.read {h : Heap} {a n : Nat} {o : Obj} {j : Json} (ho : ObjAt h a o) (hr : read n h (.ref a) = some j) : j = .map o :=
  Reads.unique ⟨n, hr⟩ ho

theorem ObjAt.lt {h : Heap} {a b : Nat} {o : Obj} (ho : ObjAt h a o) (hb : Reach h (.ref a) b) : b < h.length := hb.lt ho.choose_spec

theorem readFields_set {f : Val → Option Json} {v : Val} {j : Json} {k : String} (hv : f v = some j) :
    ∀ {m : List (String × Val)} {js : List (String × Json)}, readFields f m = some js → readFields f (SMap.set m k v) = some (SMap.set js k j)
  | [], js, h => by
    rw [readFields] at h; injection h with h; subst h
    simp only [SMap.set, readFields, hv]
  | (k', v') :: t, js, h => by
    rw [readFields] at h
    split at h
    case h_2 => cases h
    rename_i j' js' h1 h2
    injection h with h; subst h
    rw [SMap.set, SMap.set]
    split
    · simp only [readFields, hv, h1, h2]
    · split
      · simp only [readFields, hv, h2]
      · simp only [readFields, h1, readFields_set hv h2]

theorem readFields_get {f : Val → Option Json} {k : String} : ∀ {m : List (String × Val)} {js : List (String × Json)}, readFields f m = some js →
    SMap.get js k = (SMap.get m k).bind f
  | [], js, h => by rw [readFields] at h; injection h with h; subst h; rfl
  | (k', v') :: t, js, h => by
    rw [readFields] at h
    split at h
    case h_2 => cases h
    rename_i j' js' h1 h2
    injection h with h; subst h
    rw [SMap.get, SMap.get]
    split
    · exact h1.symm
    · exact readFields_get h2

theorem readFields_keys {f : Val → Option Json} : ∀ {m : List (String × Val)} {js : List (String × Json)}, readFields f m = some js →
    m.map (·.1) = js.map (·.1)
  | [], js, h => by rw [readFields] at h; injection h with h; subst h; rfl
  | (k', v') :: t, js, h => by
    rw [readFields] at h
    split at h
    case h_2 => cases h
    rename_i j' js' h1 h2
    injection h with h; subst h
    simp [readFields_keys h2]

theorem sorted_keys {V W : Type} {m : SMap V} {o : SMap W} (h : m.map (·.1) = o.map (·.1)) (hs : o.Sorted) : m.Sorted := by
  have h1 : (o.map (·.1)).Pairwise (· < ·) := List.pairwise_map.mpr hs
  rw [← h] at h1
  exact List.pairwise_map.mp h1

/-- One field of a map is read otherwise. -/
theorem readFields_change {f g : Val → Option Json} {k : String} {v : Val} {j : Json} : ∀ {m : List (String × Val)} {js : List (String × Json)}, SMap.Sorted m →
    readFields f m = some js → (∀ k' v', (k', v') ∈ m → k' ≠ k → g v' = f v') → SMap.get m k = some v → g v = some j →
    readFields g m = some (SMap.set js k j)
  | [], js, _, _, _, hg, _ => by rw [SMap.get] at hg; cases hg
  | (k', v') :: t, js, hs, h, hsame, hg, hj => by
    rw [readFields] at h
    split at h
    case h_2 => cases h
    rename_i j' js' h1 h2
    injection h with h; subst h
    have hp := List.pairwise_cons.mp hs
    rw [SMap.get] at hg
    by_cases hk : k' = k
    · rw [if_pos hk] at hg
      injection hg with hg; subst hg; subst hk
      have ht : readFields g t = some js' := by
        rw [← h2]
        refine readFields_congr (fun k2 v2 hm => hsame k2 v2 (List.mem_cons_of_mem _ hm) (fun e => ?_))
        have h3 := hp.1 _ hm
        rw [e] at h3
        exact absurd h3 (by simp)
      rw [SMap.set, if_neg (by simp), if_pos rfl, readFields, hj, ht]
    · rw [if_neg hk] at hg
      have hlt : k' < k := hp.1 _ (SMap.mem_of_get hg)
      rw [SMap.set, if_neg (by grind), if_neg hk, readFields, hsame k' v' (List.mem_cons_self ..) hk, h1,
        readFields_change hp.2 h2 (fun k2 v2 hm => hsame k2 v2 (List.mem_cons_of_mem _ hm)) hg hj]

/-! ### objects that share nothing -/

/-- Different fields of the map at `a` have no cell in common. -/
def FieldsApart (h : Heap) (a : Nat) : Prop :=
  ∀ m, h[a]? = some (.map m) → ∀ k v k' v', (k, v) ∈ m → (k', v') ∈ m → k ≠ k' → ∀ b, Reach h v b → ¬ Reach h v' b

/-- The object `o` at `a`, in cells from `N` on, its fields without common cells. -/
structure Fresh (N : Nat) (h : Heap) (a : Nat) (o : Obj) : Prop where
  reads : ObjAt h a o
  new : ∀ b, Reach h (.ref a) b → N ≤ b
  apart : FieldsApart h a

/-- The cells from `N` on. -/
def above (N : Nat) : Region := fun b => N ≤ b

theorem Fresh.lt {N : Nat} {h : Heap} {a : Nat} {o : Obj} (hf : Fresh N h a o) : a < h.length := hf.reads.lt (.here a)

/-- A write to another cell. -/
theorem set_other {h : Heap} {a b : Nat} {c : Cell} (hne : b ≠ a) : (h.set a c)[b]? = h[b]? := by
  rw [List.getElem?_set_ne (Ne.symm hne)]

/-- Writing one field of a map in place. -/
theorem setRoot_spec {h : Heap} {a : Nat} {o : Obj} {k : String} {v : Val} {j : Json} {m : List (String × Val)} {n : Nat} (ha : h[a]? = some (.map m))
    (hm : readFields (Mem.read n h) m = some o) (hv : Mem.read n h v = some j) (hva : ¬ Reach h v a) :
    let h' := h.set a (.map (SMap.set m k v))
    h'[a]? = some (.map (SMap.set m k v)) ∧ readFields (Mem.read n h') (SMap.set m k v) = some (SMap.set o k j) ∧
    (∀ k' v', (k', v') ∈ m → ∀ b, Reach h' v' b ↔ Reach h v' b) ∧ ∀ b, Reach h' v b ↔ Reach h v b := by
  intro h'
  have hlt : a < h.length := (List.getElem?_eq_some_iff.mp ha).1
  have hread : Mem.read (n + 1) h (.ref a) = some (.map o) := by rw [read_map ha, hm]; rfl
  have hoth : ∀ k' v', (k', v') ∈ m → ∀ b, Reach h v' b → h'[b]? = h[b]? := fun k' v' hmem b hb =>
    set_other (fun e => read_acyclic ha hmem hread (e ▸ hb))
  have hoth' : ∀ b, Reach h v b → h'[b]? = h[b]? := fun b hb => set_other (fun e => hva (e ▸ hb))
  have hback : ∀ w : Val, (∀ b, Reach h w b → h'[b]? = h[b]?) → ∀ b, Reach h' w b ↔ Reach h w b := fun w hw b =>
    ⟨fun hb => reach_frame hb hw, fun hb => by
      have hw' : ∀ b, Reach h' w b → h[b]? = h'[b]? := fun b hb => (hw b (reach_frame hb hw)).symm
      exact reach_frame hb hw'⟩
  refine ⟨by rw [List.getElem?_set_self hlt], ?_, fun k' v' hmem => hback v' (hoth k' v' hmem), hback v hoth'⟩
  refine readFields_set ?_ ?_
  · rw [read_frame n hoth', hv]
  · rw [← hm]
    exact readFields_congr (fun k' v' hmem => read_frame n (hoth k' v' hmem))

theorem ext_set {N : Nat} {h : Heap} {a : Nat} (ha : N ≤ a) (c : Cell) : Ext (above N) h (h.set a c) :=
  ⟨by simp, fun b _ hn => set_other (fun e => hn (e ▸ ha))⟩

/-- A string field of the root is set in place. -/
theorem Fresh.setStr {N : Nat} {h : Heap} {a : Nat} {o : Obj} (hf : Fresh N h a o) (k s : String) :
    Fresh N (setNestedH [k] h a (.str s)) a (SMap.set o k (.str s)) ∧ Ext (above N) h (setNestedH [k] h a (.str s)) := by
  obtain ⟨n, m, ha, hm⟩ := hf.reads.cell
  have hN : N ≤ a := hf.new a (.here a)
  have heq : setNestedH [k] h a (.str s) = h.set a (.map (SMap.set m k (.str s))) := by rw [setNestedH, ha]
  have hno : ∀ (h : Heap) (b : Nat), ¬ Reach h (.str s) b := fun h b => no_reach (by simp)
  have hrs : Mem.read n h (.str s) = some (.str s) := by cases n <;> rfl
  obtain ⟨hc, hr, h1, -⟩ := setRoot_spec (k := k) ha hm hrs (hno h a)
  rw [heq]
  refine ⟨⟨objAt_of_cell hc hr, fun b hb => ?_, fun m' hm' => ?_⟩, ext_set hN _⟩
  · cases hb with
    | here => exact hN
    | field hx hmem hb =>
      rw [hc] at hx; injection hx with hx; injection hx with hx; subst hx
      rcases SMap.mem_set hmem with h2 | h2
      · injection h2 with h2 h3; subst h3; exact absurd hb (hno _ _)
      · exact hf.new b (.field ha h2 ((h1 _ _ h2 b).mp hb))
    | elem hx hmem hb => rw [hc] at hx; cases hx
  · rw [hc] at hm'; injection hm' with hm'; injection hm' with hm'; subst hm'
    intro k1 v1 k2 v2 hm1 hm2 hne b hb1 hb2
    rcases SMap.mem_set hm1 with e1 | e1
    · injection e1 with _ e1; subst e1; exact hno _ _ hb1
    · rcases SMap.mem_set hm2 with e2 | e2
      · injection e2 with _ e2; subst e2; exact hno _ _ hb2
      · exact hf.apart m ha k1 v1 k2 v2 e1 e2 hne b ((h1 _ _ e1 b).mp hb1) ((h1 _ _ e2 b).mp hb2)

/-- A string field of a map in the root is set in place. -/
theorem Fresh.setInner {N : Nat} {h : Heap} {a : Nat} {o : Obj} (hf : Fresh N h a o) (hNh : N ≤ h.length) (hs : SMap.Sorted o) (k k' s : String) :
    ObjAt (setNestedH [k, k'] h a (.str s)) a (setField o [k, k'] (.str s)) ∧
    (∀ b, Reach (setNestedH [k, k'] h a (.str s)) (.ref a) b → N ≤ b) ∧ Ext (above N) h (setNestedH [k, k'] h a (.str s)) := by
  obtain ⟨n, m, ha, hm⟩ := hf.reads.cell
  have hN : N ≤ a := hf.new a (.here a)
  have hal : a < h.length := hf.lt
  have hget := readFields_get (k := k) hm
  have hms : SMap.Sorted m := sorted_keys (readFields_keys hm) hs
  have hkeep : ∀ {h' : Heap}, h' = h → setField o [k, k'] (.str s) = o → ObjAt h' a (setField o [k, k'] (.str s)) ∧ (∀ b, Reach h' (.ref a) b → N ≤ b) ∧ Ext (above N) h h' := by
    intro h' e e'; subst e; rw [e']; exact ⟨hf.reads, hf.new, Ext.refl _ _⟩
  have hscal : ∀ {w : Val} {jw : Json}, SMap.get m k = some w → Mem.read n h w = some jw → (∀ x, jw ≠ .map x) → setField o [k, k'] (.str s) = o := by
    intro w jw hw hjw hnm
    rw [hw] at hget
    have hget' : SMap.get o k = some jw := hget.trans hjw
    rw [setField, setNested, hget']
    cases jw with
    | map x => exact absurd rfl (hnm x)
    | _ => rfl
  cases hmk : SMap.get m k with
  | none =>
    have heq : setNestedH [k, k'] h a (.str s) = (h.set a (.map (SMap.set m k (.ref h.length))) ++ [.map [(k', .str s)]]) := by
      rw [setNestedH, ha]
      simp only [hmk]
      rw [setNestedH, List.getElem?_append_right (by simp)]
      simp [SMap.set]
    have hog : SMap.get o k = none := by rw [hget, hmk]; rfl
    have hof : setField o [k, k'] (.str s) = SMap.set o k (.map [(k', .str s)]) := by
      rw [setField, setNested, hog]; rfl
    rw [heq, hof]
    -- first the new map, then the field that refers to it
    have hx1 : Ext (above N) h (h ++ [.map [(k', .str s)]]) := Ext.append _ _ _
    have hag : ∀ k2 v2, (k2, v2) ∈ m → ∀ b, Reach h v2 b → (h ++ [Cell.map [(k', .str s)]])[b]? = h[b]? := fun k2 v2 hmem b hb =>
      List.getElem?_append_left (hf.reads.lt (.field ha hmem hb))
    have ha1 : (h ++ [Cell.map [(k', .str s)]])[a]? = some (.map m) := by rw [List.getElem?_append_left hal, ha]
    have hm1 : readFields (Mem.read (n + 1) (h ++ [Cell.map [(k', .str s)]])) m = some o := by
      refine readFields_mono hm (fun k2 v2 j hmem hj => ?_)
      rw [read_frame _ (hag k2 v2 hmem)]; exact read_succ _ hj
    have hrx : Mem.read (n + 1) (h ++ [Cell.map [(k', .str s)]]) (.ref h.length) = some (.map [(k', .str s)]) := by
      rw [read_map (m := [(k', .str s)]) (by simp)]
      have : Mem.read n (h ++ [Cell.map [(k', .str s)]]) (.str s) = some (.str s) := by cases n <;> rfl
      simp [readFields, this]
    have hreachx : ∀ b, Reach (h ++ [Cell.map [(k', .str s)]]) (.ref h.length) b → b = h.length := by
      intro b hb
      cases hb with
      | here => rfl
      | field hx hmem hb =>
        rw [List.getElem?_append_right (Nat.le_refl _)] at hx
        simp at hx; subst hx
        simp at hmem
        obtain ⟨-, rfl⟩ := hmem
        exact absurd hb (no_reach (by simp))
      | elem hx _ _ => rw [List.getElem?_append_right (Nat.le_refl _)] at hx; simp at hx
    have hsw : h.set a (.map (SMap.set m k (.ref h.length))) ++ [Cell.map [(k', .str s)]] =
        (h ++ [Cell.map [(k', .str s)]]).set a (.map (SMap.set m k (.ref h.length))) := by rw [List.set_append_left _ _ hal]
    rw [hsw]
    obtain ⟨hc, hr, h1, h2⟩ := setRoot_spec (k := k) ha1 hm1 hrx (fun hb => absurd (hreachx a hb) (by omega))
    refine ⟨objAt_of_cell hc hr, fun b hb => ?_, hx1.trans (ext_set hN _) (fun _ _ h => h)⟩
    cases hb with
    | here => exact hN
    | field hx hmem hb =>
      rw [hc] at hx; injection hx with hx; injection hx with hx; subst hx
      rcases SMap.mem_set hmem with e | e
      · injection e with _ e; subst e
        rw [hreachx b ((h2 b).mp hb)]; exact hNh
      · exact hf.new b (.field ha e (reach_frame ((h1 _ _ e b).mp hb) (hag _ _ e)))
    | elem hx hmem hb => rw [hc] at hx; cases hx
  | some w =>
    have hmem := SMap.mem_of_get hmk
    obtain ⟨jw, hjw⟩ := readFields_some hm k w hmem
    cases w with
    | ref x =>
      cases hxc : h[x]? with
      | none =>
        exact absurd (show x < h.length from (Reach.here x).lt hjw) (by simpa using hxc)
      | some c =>
        cases c with
        | list l =>
          refine hkeep (by rw [setNestedH, ha]; simp only [hmk, hxc]) (hscal hmk hjw ?_)
          intro y hy
          subst hy
          cases n with
          | zero => rw [read_zero] at hjw; cases hjw
          | succ n =>
            rw [read_list hxc, Option.map_eq_some_iff] at hjw
            obtain ⟨_, _, h2⟩ := hjw; cases h2
        | map mm =>
          cases n with
          | zero => rw [read_zero] at hjw; cases hjw
          | succ n =>
          have hjw0 := hjw
          rw [read_map hxc, Option.map_eq_some_iff] at hjw
          obtain ⟨om, hom, hjo⟩ := hjw
          subst hjo
          have hax : Reach h (.ref a) x := .field ha hmem (.here x)
          have hNx : N ≤ x := hf.new x hax
          have hread : Mem.read (n + 2) h (.ref a) = some (.map o) := by rw [read_map ha, hm]; rfl
          have hne : a ≠ x := fun e => read_acyclic ha hmem hread (by rw [e]; exact .here x)
          have hrs : Mem.read n h (.str s) = some (.str s) := by cases n <;> rfl
          obtain ⟨hc, hr, h1, -⟩ := setRoot_spec (k := k') hxc hom hrs (no_reach (by simp))
          have heq : setNestedH [k, k'] h a (.str s) = h.set x (.map (SMap.set mm k' (.str s))) := by
            rw [setNestedH, ha]; simp only [hmk, hxc]; rw [setNestedH, hxc]
          have hog : SMap.get o k = some (.map om) := by rw [hget, hmk]; exact hjw0
          have hof : setField o [k, k'] (.str s) = SMap.set o k (.map (SMap.set om k' (.str s))) := by
            rw [setField, setNested, hog]; rfl
          rw [heq, hof]
          have hca : (h.set x (.map (SMap.set mm k' (.str s))))[a]? = some (.map m) := by rw [set_other hne, ha]
          have hoth : ∀ k2 v2, (k2, v2) ∈ m → k2 ≠ k → ∀ b, Reach h v2 b → (h.set x (.map (SMap.set mm k' (.str s))))[b]? = h[b]? :=
            fun k2 v2 hm2 hk2 b hb => set_other (fun e => hf.apart m ha k2 v2 k _ hm2 hmem hk2 b hb (by rw [e]; exact .here x))
          refine ⟨objAt_of_cell (n := n + 1) hca (readFields_change hms hm (fun k2 v2 hm2 hk2 => read_frame _ (hoth k2 v2 hm2 hk2)) hmk ?_), ?_, ext_set hNx _⟩
          · rw [read_map hc, hr]; rfl
          · intro b hb
            cases hb with
            | here => exact hN
            | @field _ _ _ k2 v2 hx hm2 hb =>
              rw [hca] at hx; injection hx with hx; injection hx with hx; subst hx
              by_cases hk2 : k2 = k
              · subst hk2
                have : v2 = .ref x := by
                  have h3 := SMap.get_of_mem hms hm2
                  rw [hmk] at h3; injection h3 with h3; exact h3.symm
                subst this
                cases hb with
                | here => exact hNx
                | field hy hm3 hb =>
                  rw [hc] at hy; injection hy with hy; injection hy with hy; subst hy
                  rcases SMap.mem_set hm3 with e | e
                  · injection e with _ e; subst e; exact absurd hb (no_reach (by simp))
                  · exact hf.new b (.field ha hmem (.field hxc e ((h1 _ _ e b).mp hb)))
                | elem hy _ _ => rw [hc] at hy; cases hy
              · exact hf.new b (.field ha hm2 (reach_frame hb (hoth k2 v2 hm2 hk2)))
            | elem hx _ _ => rw [hca] at hx; cases hx
    | null => exact hkeep (by rw [setNestedH, ha]; simp only [hmk]) (hscal hmk hjw (by intro y; cases n <;> (simp only [Mem.read] at hjw; injection hjw with e; subst e; simp)))
    | bool b => exact hkeep (by rw [setNestedH, ha]; simp only [hmk]) (hscal hmk hjw (by intro y; cases n <;> (simp only [Mem.read] at hjw; injection hjw with e; subst e; simp)))
    | int b => exact hkeep (by rw [setNestedH, ha]; simp only [hmk]) (hscal hmk hjw (by intro y; cases n <;> (simp only [Mem.read] at hjw; injection hjw with e; subst e; simp)))
    | float b => exact hkeep (by rw [setNestedH, ha]; simp only [hmk]) (hscal hmk hjw (by intro y; cases n <;> (simp only [Mem.read] at hjw; injection hjw with e; subst e; simp)))
    | str b => exact hkeep (by rw [setNestedH, ha]; simp only [hmk]) (hscal hmk hjw (by intro y; cases n <;> (simp only [Mem.read] at hjw; injection hjw with e; subst e; simp)))

/-! ### copies -/

theorem mapFields_apart {n : Nat} : ∀ {m : List (String × Val)} {h h' : Heap} {js : List (String × Json)} {m' : List (String × Val)}, readFields (Mem.read n h) m = some js →
    mapFields (copy n) h m = some (h', m') → Ext nowhere h h' ∧ readFields (Mem.read n h') m' = some js ∧ (∀ k v, (k, v) ∈ m' → ∀ b, Reach h' v b → h.length ≤ b) ∧
    m'.Pairwise (fun x y => ∀ b, Reach h' x.2 b → ¬ Reach h' y.2 b)
  | [], h, h', js, m', hr, hc => by
    rw [mapFields] at hc; injection hc with hc; injection hc with h1 h2; subst h1; subst h2
    exact ⟨Ext.refl _ _, hr, fun k v hm => absurd hm (by simp), List.Pairwise.nil⟩
  | (k, v) :: t, h, h', js, m', hr, hc => by
    rw [readFields] at hr
    split at hr
    case h_2 => cases hr
    rename_i j js' h1 h2
    injection hr with hr
    subst hr
    obtain ⟨ha, va, hcv, hcop⟩ := copy_spec n h1
    have h3 : readFields (Mem.read n ha) t = some js' := readFields_mono h2 (fun k v j _ hj => by
      rw [read_frame n (fun b hb => hcop.1.get (hb.lt hj))]; exact hj)
    rw [mapFields, hcv] at hc
    simp only at hc
    split at hc
    case h_1 => cases hc
    rename_i hb t' hm
    injection hc with hc; injection hc with e1 e2; subst e1; subst e2
    obtain ⟨he, hrd, hreach, hpw⟩ := mapFields_apart h3 hm
    have hcop' := hcop.ext he
    refine ⟨hcop'.1, by rw [readFields, hcop'.2.1, hrd], ?_, List.pairwise_cons.mpr ⟨fun y hy b hb1 hb2 => ?_, hpw⟩⟩
    · intro k' v' hmem b hb'
      rcases List.mem_cons.mp hmem with h4 | h4
      · injection h4 with h4 h5; subst h5; exact hcop'.2.2 b hb'
      · exact Nat.le_trans hcop.1.1 (hreach k' v' h4 b hb')
    · have h5 : b < ha.length := by
        have hag : ∀ b, Reach ha va b → hb[b]? = ha[b]? := fun b hb => he.get (hb.lt hcop.2.1)
        exact (reach_frame hb1 hag).lt hcop.2.1
      exact absurd (hreach y.1 y.2 hy b hb2) (by omega)

/-- The copy of an object shares nothing with anything, and its fields share nothing with each other. -/
theorem copy_fresh {n : Nat} {h h' : Heap} {a : Nat} {v' : Val} {o : Obj} (ho : ObjAt h a o) (hc : copy n h (.ref a) = some (h', v')) :
    ∃ a', v' = .ref a' ∧ Fresh h.length h' a' o ∧ Ext nowhere h h' := by
  obtain ⟨N, hN⟩ := ho
  have hc' := copy_mono hc (Nat.le_max_left n (N + 1))
  have hr' := read_mono hN (show N ≤ max n (N + 1) by omega)
  obtain ⟨h2, v2, hc2, hcop⟩ := copy_spec _ hr'
  rw [hc'] at hc2
  injection hc2 with hc2; injection hc2 with e1 e2; subst e1; subst e2
  obtain ⟨a', rfl⟩ := copy_is_ref hc
  refine ⟨a', rfl, ⟨⟨_, hcop.2.1⟩, hcop.2.2, ?_⟩, hcop.1⟩
  obtain ⟨q, hq⟩ : ∃ q, max n (N + 1) = q + 1 := ⟨max n (N + 1) - 1, by omega⟩
  rw [hq] at hc' hr'
  rw [copy_ref] at hc'
  cases ha : h[a]? with
  | none => rw [ha] at hc'; cases hc'
  | some c =>
    rw [ha] at hc'
    cases c with
    | list l =>
      rw [read_list ha, Option.map_eq_some_iff] at hr'
      obtain ⟨_, _, e⟩ := hr'; cases e
    | map m =>
      simp only at hc'
      rw [read_map ha, Option.map_eq_some_iff] at hr'
      obtain ⟨js, hjs, e⟩ := hr'
      split at hc'
      case h_1 => cases hc'
      rename_i h3 m3 hm3
      injection hc' with hc'; injection hc' with e1 e2
      subst e1
      injection e2 with e2; subst e2
      obtain ⟨he, hrd, hreach, hpw⟩ := mapFields_apart hjs hm3
      intro m' hm' k1 v1 k2 v2 hm1 hm2 hne b hb1 hb2
      have hcell : (h3 ++ [Cell.map m3])[h3.length]? = some (.map m3) := by simp
      rw [hcell] at hm'; injection hm' with hm'; injection hm' with hm'; subst hm'
      have hag : ∀ k v, (k, v) ∈ m3 → ∀ b, Reach (h3 ++ [Cell.map m3]) v b → Reach h3 v b := fun k v hmem b hb => by
        obtain ⟨j, hj⟩ := readFields_some hrd k v hmem
        exact reach_frame hb (fun b hb => List.getElem?_append_left (hb.lt hj))
      have hb1' := hag _ _ hm1 b hb1
      have hb2' := hag _ _ hm2 b hb2
      obtain ⟨i1, hi1, e1⟩ := List.mem_iff_getElem.mp hm1
      obtain ⟨i2, hi2, e2⟩ := List.mem_iff_getElem.mp hm2
      rcases Nat.lt_trichotomy i1 i2 with hlt | heq | hgt
      · exact List.pairwise_iff_getElem.mp hpw i1 i2 hi1 hi2 hlt b (by rw [e1]; exact hb1') (by rw [e2]; exact hb2')
      · subst heq; rw [e1] at e2; injection e2 with e2 _; exact hne e2
      · exact List.pairwise_iff_getElem.mp hpw i2 i1 hi2 hi1 hgt b (by rw [e2]; exact hb2') (by rw [e1]; exact hb1')

theorem ext_of_above {h h' h'' : Heap} (h1 : Ext nowhere h h') (h2 : Ext (above h.length) h' h'') : Ext nowhere h h'' :=
  h1.trans h2 (fun _ hb hab => absurd hab (Nat.not_le.mpr hb))

theorem Fresh.setGVK {N : Nat} {h : Heap} {a : Nat} {o : Obj} (hf : Fresh N h a o) (t : GVK) :
    Fresh N (setGVKH h a t) a (setGVK o t) ∧ Ext (above N) h (setGVKH h a t) := by
  obtain ⟨h1, e1⟩ := hf.setStr "apiVersion" (gvString t)
  obtain ⟨h2, e2⟩ := h1.setStr "kind" t.kind
  rw [setGVK_eq]
  exact ⟨h2, e1.trans e2 (fun _ _ h => h)⟩

/-- `DeepCopy` on memory is `DeepCopy` on values, in new cells. -/
theorem copyObjH_fresh {n : Nat} {h h' : Heap} {a a' : Nat} {o : Obj} (ho : ObjAt h a o) (hc : copyObjH n h a = some (h', a')) :
    Fresh h.length h' a' (copyObj o) ∧ Ext nowhere h h' := by
  rw [copyObjH] at hc
  split at hc
  case h_2 => cases hc
  rename_i o' h1 a1 hr hcp
  injection hc with hc; injection hc with e1 e2; subst e1; subst e2
  have heq := ho.read hr
  injection heq with heq; subst heq
  obtain ⟨a2, e, hf, he⟩ := copy_fresh ho hcp
  injection e with e; subst e
  obtain ⟨hf2, he2⟩ := hf.setGVK (objGVK o')
  exact ⟨hf2, ext_of_above he he2⟩

/-- With enough stack `DeepCopy` ends. -/
theorem copyObjH_ends {h : Heap} {a : Nat} {o : Obj} (ho : ObjAt h a o) : ∃ N h' a', ∀ n, N ≤ n → copyObjH n h a = some (h', a') := by
  obtain ⟨N, hN⟩ := ho
  obtain ⟨h', v', hc, -⟩ := copy_spec N hN
  obtain ⟨a', rfl⟩ := copy_is_ref hc
  refine ⟨N, setGVKH h' a' (objGVK o), a', fun n hn => ?_⟩
  rw [copyObjH, read_mono hN hn, copy_mono hc hn]

/-- `WithUID` on a copy. -/
theorem withUIDH_spec {hash : String → String} (hh : ∀ s, hash s ≠ "") {n N : Nat} {h h' : Heap} {a : Nat} {o : Obj} (hf : Fresh N h a o) (hN : N ≤ h.length)
    (hs : SMap.Sorted o) (hu : withUIDH hash n h a = some h') :
    ObjAt h' a (withUID hash o) ∧ (∀ b, Reach h' (.ref a) b → N ≤ b) ∧ Ext (above N) h h' := by
  rw [withUIDH] at hu
  split at hu
  case h_2 => cases hu
  rename_i o' hr
  have heq := hf.reads.read hr
  injection heq with heq; subst heq
  rw [withUID]
  split at hu
  · rename_i hcond
    injection hu with hu; subst hu
    rw [if_pos hcond]
    exact ⟨hf.reads, hf.new, Ext.refl _ _⟩
  · rename_i hcond
    injection hu with hu; subst hu
    rw [if_neg hcond, Dctl.setStr, if_neg (by exact hh _)]
    exact hf.setInner hN hs _ _ _

end Mem
end Dctl
