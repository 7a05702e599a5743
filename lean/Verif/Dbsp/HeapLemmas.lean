import Verif.Spec.Heap
/-!
# Lemmas for C110: reading, copying, separation
-/
set_option autoImplicit false
set_option linter.unusedSectionVars false
namespace Dctl
namespace Mem
variable {K J : Type} [DecidableEq K] [DecidableEq J]

/-! ### lists -/

theorem readFields_congr {f g : Val → Option Json} : ∀ {m : List (String × Val)}, (∀ k v, (k, v) ∈ m → f v = g v) →
    readFields f m = readFields g m
  | [], _ => rfl
  | (k, v) :: t, h => by
    rw [readFields, readFields, h k v (List.mem_cons_self ..), readFields_congr (fun k v hm => h k v (List.mem_cons_of_mem _ hm))]

theorem readElems_congr {f g : Val → Option Json} : ∀ {l : List Val}, (∀ v, v ∈ l → f v = g v) → readElems f l = readElems g l
  | [], _ => rfl
  | v :: t, h => by
    rw [readElems, readElems, h v (List.mem_cons_self ..), readElems_congr (fun v hm => h v (List.mem_cons_of_mem _ hm))]

theorem readFields_some {f : Val → Option Json} : ∀ {m : List (String × Val)} {js : List (String × Json)}, readFields f m = some js →
    ∀ k v, (k, v) ∈ m → ∃ j, f v = some j
  | [], _, _ => by simp
  | (k, v) :: t, js, h => by
    rw [readFields] at h
    split at h
    · rename_i j js' h1 h2
      intro k' v' hm
      rcases List.mem_cons.mp hm with h3 | h3
      · injection h3 with h3 h4; subst h4; exact ⟨j, h1⟩
      · exact readFields_some h2 k' v' h3
    · cases h

theorem readElems_some {f : Val → Option Json} : ∀ {l : List Val} {js : List Json}, readElems f l = some js → ∀ v, v ∈ l → ∃ j, f v = some j
  | [], _, _ => by simp
  | v :: t, js, h => by
    rw [readElems] at h
    split at h
    · rename_i j js' h1 h2
      intro v' hm
      rcases List.mem_cons.mp hm with h3 | h3
      · subst h3; exact ⟨j, h1⟩
      · exact readElems_some h2 v' h3
    · cases h

theorem readFields_mono {f g : Val → Option Json} : ∀ {m : List (String × Val)} {js : List (String × Json)}, readFields f m = some js →
    (∀ k v j, (k, v) ∈ m → f v = some j → g v = some j) → readFields g m = some js := by
  intro m js h hg
  rw [← h]
  refine readFields_congr (fun k v hm => ?_)
  obtain ⟨j, hj⟩ := readFields_some h k v hm
  rw [hj, hg k v j hm hj]

theorem readElems_mono {f g : Val → Option Json} : ∀ {l : List Val} {js : List Json}, readElems f l = some js →
    (∀ v j, v ∈ l → f v = some j → g v = some j) → readElems g l = some js := by
  intro l js h hg
  rw [← h]
  refine readElems_congr (fun v hm => ?_)
  obtain ⟨j, hj⟩ := readElems_some h v hm
  rw [hj, hg v j hm hj]

/-! ### reading -/

theorem read_ref (n : Nat) (h : Heap) (a : Nat) : read (n + 1) h (.ref a) =
    (match h[a]? with
    | none => none
    | some (.map m) => (readFields (read n h) m).map .map
    | some (.list l) => (readElems (read n h) l).map .list) := rfl

theorem read_map {n : Nat} {h : Heap} {a : Nat} {m : List (String × Val)} (ha : h[a]? = some (.map m)) :
    read (n + 1) h (.ref a) = (readFields (read n h) m).map .map := by rw [read_ref, ha]

theorem read_list {n : Nat} {h : Heap} {a : Nat} {l : List Val} (ha : h[a]? = some (.list l)) :
    read (n + 1) h (.ref a) = (readElems (read n h) l).map .list := by rw [read_ref, ha]

theorem read_zero (h : Heap) (a : Nat) : read 0 h (.ref a) = none := by rw [read]

theorem read_succ : ∀ (n : Nat) {h : Heap} {v : Val} {j : Json}, read n h v = some j → read (n + 1) h v = some j
  | n, h, .null, j, hr => by cases n <;> simpa [read] using hr
  | n, h, .bool _, j, hr => by cases n <;> simpa [read] using hr
  | n, h, .int _, j, hr => by cases n <;> simpa [read] using hr
  | n, h, .float _, j, hr => by cases n <;> simpa [read] using hr
  | n, h, .str _, j, hr => by cases n <;> simpa [read] using hr
  | 0, h, .ref a, j, hr => by rw [read_zero] at hr; cases hr
  | n + 1, h, .ref a, j, hr => by
    cases ha : h[a]? with
    | none => rw [read_ref, ha] at hr; cases hr
    | some cell =>
      cases cell with
      | map m =>
        rw [read_map ha, Option.map_eq_some_iff] at hr ⊢
        obtain ⟨js, h1, h2⟩ := hr
        exact ⟨js, readFields_mono h1 (fun k v j _ hj => read_succ n hj), h2⟩
      | list l =>
        rw [read_list ha, Option.map_eq_some_iff] at hr ⊢
        obtain ⟨js, h1, h2⟩ := hr
        exact ⟨js, readElems_mono h1 (fun v j _ hj => read_succ n hj), h2⟩

theorem read_mono {n m : Nat} {h : Heap} {v : Val} {j : Json} (hr : read n h v = some j) (hm : n ≤ m) : read m h v = some j := by
  induction hm with
  | refl => exact hr
  | step _ ih => exact read_succ _ ih

theorem Reads.gives {h : Heap} {v : Val} {j : Json} (hr : Reads h v j) : Gives (fun n h => read n h v) h j :=
  ⟨hr.choose, fun _ hn => read_mono hr.choose_spec hn⟩

theorem Reads.unique {h : Heap} {v : Val} {j j' : Json} (h1 : Reads h v j) (h2 : Reads h v j') : j = j' := by
  obtain ⟨n, h1⟩ := h1
  obtain ⟨m, h2⟩ := h2
  have a := read_mono h1 (Nat.le_max_left n m)
  have b := read_mono h2 (Nat.le_max_right n m)
  rw [a] at b
  exact Option.some.inj b

/-- What is reachable from a value that can be read is allocated. -/
theorem Reach.lt {h : Heap} {v : Val} {b : Nat} (hr : Reach h v b) : ∀ {n : Nat} {j : Json}, read n h v = some j → b < h.length := by
  induction hr with
  | here a =>
    intro n j hr
    cases n with
    | zero => rw [read_zero] at hr; cases hr
    | succ n =>
      rw [read_ref] at hr
      cases ha : h[a]? with
      | none => rw [ha] at hr; cases hr
      | some _ => exact (List.getElem?_eq_some_iff.mp ha).1
  | field ha hm _ ih =>
    intro n j hr
    cases n with
    | zero => rw [read_zero] at hr; cases hr
    | succ n =>
      rw [read_map ha, Option.map_eq_some_iff] at hr
      obtain ⟨js, h1, -⟩ := hr
      obtain ⟨j', hj⟩ := readFields_some h1 _ _ hm
      exact ih hj
  | elem ha hm _ ih =>
    intro n j hr
    cases n with
    | zero => rw [read_zero] at hr; cases hr
    | succ n =>
      rw [read_list ha, Option.map_eq_some_iff] at hr
      obtain ⟨js, h1, -⟩ := hr
      obtain ⟨j', hj⟩ := readElems_some h1 _ hm
      exact ih hj

/-- Memory that agrees on what a value reaches reads the same. -/
theorem read_frame : ∀ (n : Nat) {h h' : Heap} {v : Val}, (∀ b, Reach h v b → h'[b]? = h[b]?) → read n h' v = read n h v
  | n, h, h', .null, _ => by cases n <;> simp [read]
  | n, h, h', .bool _, _ => by cases n <;> simp [read]
  | n, h, h', .int _, _ => by cases n <;> simp [read]
  | n, h, h', .float _, _ => by cases n <;> simp [read]
  | n, h, h', .str _, _ => by cases n <;> simp [read]
  | 0, h, h', .ref a, _ => by rw [read_zero, read_zero]
  | n + 1, h, h', .ref a, hag => by
    rw [read_ref, read_ref, hag a (.here a)]
    cases ha : h[a]? with
    | none => rfl
    | some cell =>
      cases cell with
      | map m => exact congrArg (Option.map Json.map) (readFields_congr (fun k v hm => read_frame n (fun b hb => hag b (.field ha hm hb))))
      | list l => exact congrArg (Option.map Json.list) (readElems_congr (fun v hm => read_frame n (fun b hb => hag b (.elem ha hm hb))))

theorem reach_frame {h h' : Heap} {v : Val} {b : Nat} (hr : Reach h' v b) : (∀ b, Reach h v b → h'[b]? = h[b]?) → Reach h v b := by
  induction hr with
  | here a => intro _; exact .here a
  | field ha hm _ ih =>
    intro hag
    have ha' := hag _ (.here _)
    rw [ha] at ha'
    exact .field ha'.symm hm (ih (fun b hb => hag b (.field ha'.symm hm hb)))
  | elem ha hm _ ih =>
    intro hag
    have ha' := hag _ (.here _)
    rw [ha] at ha'
    exact .elem ha'.symm hm (ih (fun b hb => hag b (.elem ha'.symm hm hb)))

theorem Reads.frame {h h' : Heap} {v : Val} {j : Json} (hr : Reads h v j) (hag : ∀ b, Reach h v b → h'[b]? = h[b]?) : Reads h' v j := by
  obtain ⟨n, hn⟩ := hr
  exact ⟨n, by rw [read_frame n hag, hn]⟩

/-! ### extension -/

theorem Ext.refl (W : Region) (h : Heap) : Ext W h h := ⟨Nat.le_refl _, fun _ _ _ => rfl⟩

theorem Ext.trans {W W' : Region} {h h' h'' : Heap} (h1 : Ext W h h') (h2 : Ext W' h' h'') (hw : ∀ b, b < h.length → W' b → W b) :
    Ext W h h'' :=
  ⟨Nat.le_trans h1.1 h2.1, fun b hb hn => (h2.2 b (Nat.lt_of_lt_of_le hb h1.1) (fun hw' => hn (hw b hb hw'))).trans (h1.2 b hb hn)⟩

theorem Ext.mono {W W' : Region} {h h' : Heap} (h1 : Ext W h h') (hw : ∀ b, b < h.length → W b → W' b) : Ext W' h h' :=
  ⟨h1.1, fun b hb hn => h1.2 b hb (fun h => hn (hw b hb h))⟩

theorem Ext.append (W : Region) (h t : Heap) : Ext W h (h ++ t) :=
  ⟨by simp, fun b hb _ => List.getElem?_append_left hb⟩

theorem Ext.get {h h' : Heap} (he : Ext nowhere h h') {b : Nat} (hb : b < h.length) : h'[b]? = h[b]? := he.2 b hb (fun h => h)

/-- A value that can be read, inside `A`, stays so if nothing in `A` is written. -/
theorem frame_ext {W A : Region} {h h' : Heap} {v : Val} {j : Json} (hr : Reads h v j) (hA : ∀ b, Reach h v b → A b) (he : Ext W h h')
    (hd : ∀ b, b < h.length → A b → ¬ W b) : Reads h' v j ∧ ∀ b, Reach h' v b → Reach h v b := by
  have hag : ∀ b, Reach h v b → h'[b]? = h[b]? := fun b hb => by
    have hl := hb.lt hr.choose_spec
    exact he.2 b hl (hd b hl (hA b hb))
  exact ⟨hr.frame hag, fun b hb => reach_frame hb hag⟩

/-! ### copying -/

theorem copy_ref (n : Nat) (h : Heap) (a : Nat) : copy (n + 1) h (.ref a) =
    (match h[a]? with
    | none => none
    | some (.map m) =>
      match mapFields (copy n) h m with
      | none => none
      | some (h', m') => some (h' ++ [.map m'], .ref h'.length)
    | some (.list l) =>
      match mapElems (copy n) h l with
      | none => none
      | some (h', l') => some (h' ++ [.list l'], .ref h'.length)) := rfl

/-- What a copy is: the same value, in new cells. -/
def CopyOf (n : Nat) (h h' : Heap) (v' : Val) (j : Json) : Prop :=
  Ext nowhere h h' ∧ read n h' v' = some j ∧ ∀ b, Reach h' v' b → h.length ≤ b

theorem CopyOf.ext {n : Nat} {h h' h'' : Heap} {v' : Val} {j : Json} (hc : CopyOf n h h' v' j) (he : Ext nowhere h' h'') :
    CopyOf n h h'' v' j := by
  have hag : ∀ b, Reach h' v' b → h''[b]? = h'[b]? := fun b hb => he.get (hb.lt hc.2.1)
  exact ⟨hc.1.trans he (fun _ _ h => h), by rw [read_frame n hag, hc.2.1], fun b hb => hc.2.2 b (reach_frame hb hag)⟩

theorem mapFields_spec {n : Nat} (hcopy : ∀ {h : Heap} {v : Val} {j : Json}, read n h v = some j → ∃ h' v', copy n h v = some (h', v') ∧ CopyOf n h h' v' j) :
    ∀ {m : List (String × Val)} {h : Heap} {js : List (String × Json)}, readFields (read n h) m = some js →
    ∃ h' m', mapFields (copy n) h m = some (h', m') ∧ Ext nowhere h h' ∧ readFields (read n h') m' = some js ∧
      ∀ k v, (k, v) ∈ m' → ∀ b, Reach h' v b → h.length ≤ b
  | [], h, js, hr => ⟨h, [], rfl, Ext.refl _ _, hr, fun k v hm => by cases hm⟩
  | (k, v) :: t, h, js, hr => by
    rw [readFields] at hr
    split at hr
    case h_2 => cases hr
    rename_i j js' h1 h2
    injection hr with hr
    subst hr
    obtain ⟨ha, va, hc, hcop⟩ := hcopy h1
    have h3 : readFields (read n ha) t = some js' := readFields_mono h2 (fun k v j _ hj => by
      rw [read_frame n (fun b hb => hcop.1.get (hb.lt hj))]; exact hj)
    obtain ⟨hb, t', hm, he, hrd, hreach⟩ := mapFields_spec hcopy h3
    have hcop' := hcop.ext he
    refine ⟨hb, (k, va) :: t', by rw [mapFields, hc]; simp only [hm], hcop'.1, ?_, ?_⟩
    · rw [readFields, hcop'.2.1, hrd]
    · intro k' v' hmem b hb'
      rcases List.mem_cons.mp hmem with h4 | h4
      · injection h4 with h4 h5; subst h5; exact hcop'.2.2 b hb'
      · exact Nat.le_trans hcop.1.1 (hreach k' v' h4 b hb')

theorem mapElems_spec {n : Nat} (hcopy : ∀ {h : Heap} {v : Val} {j : Json}, read n h v = some j → ∃ h' v', copy n h v = some (h', v') ∧ CopyOf n h h' v' j) :
    ∀ {l : List Val} {h : Heap} {js : List Json}, readElems (read n h) l = some js →
    ∃ h' l', mapElems (copy n) h l = some (h', l') ∧ Ext nowhere h h' ∧ readElems (read n h') l' = some js ∧
      ∀ v, v ∈ l' → ∀ b, Reach h' v b → h.length ≤ b
  | [], h, js, hr => ⟨h, [], rfl, Ext.refl _ _, hr, fun v hm => by cases hm⟩
  | v :: t, h, js, hr => by
    rw [readElems] at hr
    split at hr
    case h_2 => cases hr
    rename_i j js' h1 h2
    injection hr with hr
    subst hr
    obtain ⟨ha, va, hc, hcop⟩ := hcopy h1
    have h3 : readElems (read n ha) t = some js' := readElems_mono h2 (fun v j _ hj => by
      rw [read_frame n (fun b hb => hcop.1.get (hb.lt hj))]; exact hj)
    obtain ⟨hb, t', hm, he, hrd, hreach⟩ := mapElems_spec hcopy h3
    have hcop' := hcop.ext he
    refine ⟨hb, va :: t', by rw [mapElems, hc]; simp only [hm], hcop'.1, ?_, ?_⟩
    · rw [readElems, hcop'.2.1, hrd]
    · intro v' hmem b hb'
      rcases List.mem_cons.mp hmem with h4 | h4
      · subst h4; exact hcop'.2.2 b hb'
      · exact Nat.le_trans hcop.1.1 (hreach v' h4 b hb')

theorem reach_new_map {h : Heap} {m : List (String × Val)} {N b : Nat} (hN : N ≤ h.length)
    (hm : ∀ k v, (k, v) ∈ m → (∃ n j, read n h v = some j) ∧ ∀ b, Reach h v b → N ≤ b)
    (hr : Reach (h ++ [.map m]) (.ref h.length) b) : N ≤ b := by
  have hget : (h ++ [Cell.map m])[h.length]? = some (.map m) := by simp
  cases hr with
  | here => exact hN
  | field ha hmem hb =>
    rw [hget] at ha
    injection ha with ha; injection ha with ha; subst ha
    obtain ⟨⟨n, j, hj⟩, hreach⟩ := hm _ _ hmem
    exact hreach _ (reach_frame hb (fun b hb => (Ext.append nowhere h _).get (hb.lt hj)))
  | elem ha hmem hb => rw [hget] at ha; injection ha with ha; cases ha

theorem reach_new_list {h : Heap} {l : List Val} {N b : Nat} (hN : N ≤ h.length)
    (hm : ∀ v, v ∈ l → (∃ n j, read n h v = some j) ∧ ∀ b, Reach h v b → N ≤ b)
    (hr : Reach (h ++ [.list l]) (.ref h.length) b) : N ≤ b := by
  have hget : (h ++ [Cell.list l])[h.length]? = some (.list l) := by simp
  cases hr with
  | here => exact hN
  | elem ha hmem hb =>
    rw [hget] at ha
    injection ha with ha; injection ha with ha; subst ha
    obtain ⟨⟨n, j, hj⟩, hreach⟩ := hm _ hmem
    exact hreach _ (reach_frame hb (fun b hb => (Ext.append nowhere h _).get (hb.lt hj)))
  | field ha hmem hb => rw [hget] at ha; injection ha with ha; cases ha

theorem no_reach {h : Heap} {v : Val} (hv : ∀ a, v ≠ .ref a) {b : Nat} : ¬ Reach h v b := by
  intro hr
  cases hr with
  | here => exact hv _ rfl
  | field => exact hv _ rfl
  | elem => exact hv _ rfl

theorem copy_spec : ∀ (n : Nat) {h : Heap} {v : Val} {j : Json}, read n h v = some j →
    ∃ h' v', copy n h v = some (h', v') ∧ CopyOf n h h' v' j
  | n, h, .null, j, hr => ⟨h, .null, by cases n <;> rfl, Ext.refl _ _, hr, fun b hb => absurd hb (no_reach (by simp))⟩
  | n, h, .bool x, j, hr => ⟨h, .bool x, by cases n <;> rfl, Ext.refl _ _, hr, fun b hb => absurd hb (no_reach (by simp))⟩
  | n, h, .int x, j, hr => ⟨h, .int x, by cases n <;> rfl, Ext.refl _ _, hr, fun b hb => absurd hb (no_reach (by simp))⟩
  | n, h, .float x, j, hr => ⟨h, .float x, by cases n <;> rfl, Ext.refl _ _, hr, fun b hb => absurd hb (no_reach (by simp))⟩
  | n, h, .str x, j, hr => ⟨h, .str x, by cases n <;> rfl, Ext.refl _ _, hr, fun b hb => absurd hb (no_reach (by simp))⟩
  | 0, h, .ref a, j, hr => by rw [read_zero] at hr; cases hr
  | n + 1, h, .ref a, j, hr => by
    cases ha : h[a]? with
    | none => rw [read_ref, ha] at hr; cases hr
    | some cell =>
      cases cell with
      | map m =>
        rw [read_map ha, Option.map_eq_some_iff] at hr
        obtain ⟨js, h1, h2⟩ := hr
        obtain ⟨h', m', hm, he, hrd, hreach⟩ := mapFields_spec (fun hr => copy_spec n hr) h1
        have hrd' : readFields (read n (h' ++ [.map m'])) m' = some js := readFields_mono hrd (fun k v j _ hj => by
          rw [read_frame n (fun b hb => (Ext.append nowhere h' _).get (hb.lt hj))]; exact hj)
        refine ⟨h' ++ [.map m'], .ref h'.length, by rw [copy_ref, ha]; simp only [hm],
          he.trans (Ext.append nowhere h' _) (fun _ _ h => h), ?_, ?_⟩
        · rw [read_map (m := m') (by simp), hrd', ← h2]; rfl
        · intro b hb
          refine reach_new_map he.1 (fun k v hmem => ⟨?_, hreach k v hmem⟩) hb
          obtain ⟨j', hj'⟩ := readFields_some hrd k v hmem
          exact ⟨n, j', hj'⟩
      | list l =>
        rw [read_list ha, Option.map_eq_some_iff] at hr
        obtain ⟨js, h1, h2⟩ := hr
        obtain ⟨h', l', hm, he, hrd, hreach⟩ := mapElems_spec (fun hr => copy_spec n hr) h1
        have hrd' : readElems (read n (h' ++ [.list l'])) l' = some js := readElems_mono hrd (fun v j _ hj => by
          rw [read_frame n (fun b hb => (Ext.append nowhere h' _).get (hb.lt hj))]; exact hj)
        refine ⟨h' ++ [.list l'], .ref h'.length, by rw [copy_ref, ha]; simp only [hm],
          he.trans (Ext.append nowhere h' _) (fun _ _ h => h), ?_, ?_⟩
        · rw [read_list (l := l') (by simp), hrd', ← h2]; rfl
        · intro b hb
          refine reach_new_list he.1 (fun v hmem => ⟨?_, hreach v hmem⟩) hb
          obtain ⟨j', hj'⟩ := readElems_some hrd v hmem
          exact ⟨n, j', hj'⟩

theorem mapFields_mono {f g : Heap → Val → Option (Heap × Val)} (hfg : ∀ h v r, f h v = some r → g h v = some r) :
    ∀ {m : List (String × Val)} {h : Heap} {r : Heap × List (String × Val)}, mapFields f h m = some r → mapFields g h m = some r
  | [], _, _, h => h
  | (k, v) :: t, h, r, hr => by
    rw [mapFields] at hr ⊢
    split at hr
    · cases hr
    · rename_i h1 v1 h2
      rw [hfg _ _ _ h2]
      split at hr
      · cases hr
      · rename_i h3 t' h4
        simp only [mapFields_mono hfg h4]
        exact hr

theorem mapElems_mono {f g : Heap → Val → Option (Heap × Val)} (hfg : ∀ h v r, f h v = some r → g h v = some r) :
    ∀ {l : List Val} {h : Heap} {r : Heap × List Val}, mapElems f h l = some r → mapElems g h l = some r
  | [], _, _, h => h
  | v :: t, h, r, hr => by
    rw [mapElems] at hr ⊢
    split at hr
    · cases hr
    · rename_i h1 v1 h2
      rw [hfg _ _ _ h2]
      split at hr
      · cases hr
      · rename_i h3 t' h4
        simp only [mapElems_mono hfg h4]
        exact hr

theorem copy_succ : ∀ (n : Nat) {h : Heap} {v : Val} {r : Heap × Val}, copy n h v = some r → copy (n + 1) h v = some r
  | n, h, .null, r, hr => by cases n <;> exact hr
  | n, h, .bool _, r, hr => by cases n <;> exact hr
  | n, h, .int _, r, hr => by cases n <;> exact hr
  | n, h, .float _, r, hr => by cases n <;> exact hr
  | n, h, .str _, r, hr => by cases n <;> exact hr
  | 0, h, .ref a, r, hr => by rw [copy] at hr; cases hr
  | n + 1, h, .ref a, r, hr => by
    rw [copy_ref] at hr ⊢
    cases ha : h[a]? with
    | none => rw [ha] at hr; cases hr
    | some cell =>
      rw [ha] at hr
      cases cell with
      | map m =>
        simp only at hr ⊢
        split at hr
        · cases hr
        · rename_i h1
          simp only [mapFields_mono (fun h v r hr => copy_succ n hr) h1]
          exact hr
      | list l =>
        simp only at hr ⊢
        split at hr
        · cases hr
        · rename_i h1
          simp only [mapElems_mono (fun h v r hr => copy_succ n hr) h1]
          exact hr

theorem copy_mono {n m : Nat} {h : Heap} {v : Val} {r : Heap × Val} (hr : copy n h v = some r) (hm : n ≤ m) : copy m h v = some r := by
  induction hm with
  | refl => exact hr
  | step _ ih => exact copy_succ _ ih

theorem copy_is_ref {n : Nat} {h h' : Heap} {a : Nat} {v' : Val} (hc : copy n h (.ref a) = some (h', v')) : ∃ a', v' = .ref a' := by
  cases n with
  | zero => rw [copy] at hc; cases hc
  | succ n =>
    rw [copy_ref] at hc
    split at hc
    · cases hc
    · split at hc
      · cases hc
      · injection hc with hc; injection hc with _ hc; exact ⟨_, hc.symm⟩
    · split at hc
      · cases hc
      · injection hc with hc; injection hc with _ hc; exact ⟨_, hc.symm⟩

/-- With enough stack, a readable value is copied: same value, new cells, nothing written. -/
theorem copy_gives {h : Heap} {v : Val} {j : Json} (hr : Reads h v j) :
    ∃ h' v', Gives (fun n h => copy n h v) h (h', v') ∧ Ext nowhere h h' ∧ Reads h' v' j ∧ ∀ b, Reach h' v' b → h.length ≤ b := by
  obtain ⟨n, hn⟩ := hr
  obtain ⟨h', v', h1, h2, h3, h4⟩ := copy_spec n hn
  exact ⟨h', v', ⟨n, fun m hm => copy_mono h1 hm⟩, h2, ⟨n, h3⟩, h4⟩

end Mem
end Dctl
