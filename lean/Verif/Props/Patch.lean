import Verif.Controller.TargetLemmas
/-!
# Patches, merges and target writes (C25, C26, C27, C46, C61)
-/
set_option autoImplicit false
namespace Dctl

/-! ## C25 -/

/-- **C25** (fields not mentioned): a path the patch does not mention keeps its value. -/
theorem C25_untouched (o m : Json) (ho : o.Canon) (hm : m.Canon) (p : List String) (h : ¬ m.Mentions p) : (Json.patch o m).at p = o.at p :=
  patch_at_untouched ho hm h

/-- **C25** (scalars): a scalar in the patch replaces whatever was there, at any depth. -/
theorem C25_scalar (o m : Json) (ho : o.Canon) (hm : m.Canon) (p : List String) (v : Json) (h : m.at p = some v) (hv : v.Scalar) :
    (Json.patch o m).at p = some v := by
  rw [patch_at_both ho hm h (by rintro rfl; exact hv)]
  cases v with
  | null => exact hv.elim
  | list => exact hv.elim
  | map => exact hv.elim
  | _ => cases o.at p <;> simp [Json.patch]

/-- **C25** (recursion): at any path with a value other than null in the patch, the result is the patch of the two values there, or the
patch's value if there was none. -/
theorem C25_recursive (o m : Json) (ho : o.Canon) (hm : m.Canon) (p : List String) (v : Json) (h : m.at p = some v) (hv : v ≠ .null) :
    (Json.patch o m).at p = some (match o.at p with | some ov => Json.patch ov v | none => v) :=
  patch_at_both ho hm h hv

/-- **C25** (lists): lists are patched position by position. -/
theorem C25_list (lo lm : List Json) : ∃ l : List Json, Json.patch (.list lo) (.list lm) = .list l ∧
    ∀ (i : Nat), l[i]? = match lo[i]?, lm[i]? with
      | some x, some y => some (Json.patch x y)
      | some x, none => some x
      | none, y => y := by
  by_cases h : lo = lm
  · subst h
    refine ⟨lo, Json.patch_self _, fun i => ?_⟩
    cases lo[i]? with
    | none => rfl
    | some x => simp [Json.patch_self]
  · exact ⟨_, patch_list_list h, patchL_get lo lm⟩

/-- **C25** (nulls, partial): a null in the patch removes the field, provided the original has a map at the parent path and no null in the field.
Missing: elsewhere a null in the patch may stay, see `C25_nested_null_kept` and `C25_null_shortcut`. -/
theorem C25_null_partial (o m : Json) (ho : o.Canon) (hm : m.Canon) (q : List String) (k : String) (mo : SMap Json)
    (h : m.at (q ++ [k]) = some .null) (hq : o.at q = some (.map mo)) (hk : SMap.get mo k ≠ some .null) :
    (Json.patch o m).at (q ++ [k]) = none :=
  patch_at_null ho hm h hq hk

/-- Not **C25**: nulls inside a map that the original lacks are copied. -/
theorem C25_nested_null_kept : (Json.patch (.map []) (.map [("a", .map [("b", .null)])])).at ["a", "b"] = some .null := by decide

/-- Not **C25**: patching an object equal to the patch keeps its nulls. -/
theorem C25_null_shortcut : (Json.patch (.map [("a", .null)]) (.map [("a", .null)])).at ["a"] = some .null := by decide

/-- **C25** (idempotence). -/
theorem C25_idempotent (o m : Json) (ho : o.Canon) (hm : m.Canon) : Json.patch (Json.patch o m) m = Json.patch o m := patch_idem m o ho hm

/-- **C25** (empty patch). -/
theorem C25_empty (mo : SMap Json) : Json.patch (.map mo) (.map []) = .map mo := by
  by_cases h : mo = []
  · rw [h, Json.patch_self]
  · rw [patch_map_map h]; rfl

/-- Non-trivial instance of the hypotheses of C25. -/
example : let o := Json.map [("a", .int 1), ("b", .map [("c", .int 2), ("d", .int 3)])]
    let m := Json.map [("b", .map [("c", .null), ("e", .str "x")])]
    o.Canon ∧ m.Canon ∧ ¬ m.Mentions ["b", "d"] ∧ m.at ["b", "e"] = some (.str "x") ∧ m.at (["b"] ++ ["c"]) = some .null ∧
    o.at ["b"] = some (.map [("c", .int 2), ("d", .int 3)]) ∧
    Json.patch o m = .map [("a", .int 1), ("b", .map [("d", .int 3), ("e", .str "x")])] := by
  refine ⟨by decide, by decide, ?_, by decide, by decide, by decide, by decide⟩
  rw [mentions_cons]; rintro ⟨v, hv, h⟩
  simp [SMap.get] at hv; subst hv
  rw [mentions_cons] at h; simp [SMap.get] at h

/-! ## C26 -/

/-- **C26** (other fields): a delete on a Patcher target leaves every field alone that the object did not write. -/
theorem C26_untouched (obj w wm : SMap Json) (ho : (Json.map obj).Canon) (hw : (Json.map w).Canon) (hwm : SMap.get w "metadata" = some (.map wm))
    (p : List String) (hp : FreePath p) (h : ¬ (Json.map w).Mentions p) : nested (patcherDelete obj w) p = nested obj p := by
  rw [patcherDelete, restore_free (patchObj_canon ho (deletePatch_canon hw)) hp, nested_patchObj]
  exact patch_at_untouched ho (deletePatch_canon hw) (deletePatch_not_mentions hw hwm hp h)

/-- **C26** (written fields, partial): a delete on a Patcher target removes every scalar field the object wrote, if the target still has the map
around it and no null in the field. Missing: maps and lists that become empty stay, see `C26_leftovers`; if the map around is gone, the delete
creates it again with null inside, see `C26_garbage`. -/
theorem C26_removed_partial (obj w : SMap Json) (ho : (Json.map obj).Canon) (hw : (Json.map w).Canon) (q : List String) (k : String) (v : Json)
    (hp : FreePath (q ++ [k])) (h : nested w (q ++ [k]) = some v) (hv : v.Scalar) (mo : SMap Json) (hq : nested obj q = some (.map mo))
    (hk : SMap.get mo k ≠ some .null) : nested (patcherDelete obj w) (q ++ [k]) = none := by
  rw [patcherDelete, restore_free (patchObj_canon ho (deletePatch_canon hw)) hp, nested_patchObj]
  refine patch_at_null ho (deletePatch_canon hw) ?_ hq hk
  have := deletePatch_free hw hp
  rw [nested] at this
  rw [this]
  exact removeM_at_scalar hw h hv

/-- The identifying fields survive a delete. -/
theorem C26_identity (obj w om : SMap Json) (ho : (Json.map obj).Canon) (hw : (Json.map w).Canon) (hwm : ∃ wm, SMap.get w "metadata" = some (.map wm))
    (hom : SMap.get obj "metadata" = some (.map om)) : objKey (patcherDelete obj w) = objKey w ∧
    SMap.get (patcherDelete obj w) "kind" = some (.str (objGVK w).kind) ∧ SMap.get (patcherDelete obj w) "apiVersion" = some (.str (gvString (objGVK w))) := by
  obtain ⟨wm, hwm⟩ := hwm
  have hc := patchObj_canon ho (deletePatch_canon hw)
  refine ⟨?_, restore_gvk_get hc⟩
  have hr := (removeM_canon' hw).sorted
  have h1 : (Json.map (deletePatch w)).at ["metadata"] = some (.map (SMap.set (SMap.set (Json.removeM wm) "namespace" (.str (objKey w).1)) "name" (.str (objKey w).2))) := by
    rw [deletePatch_eq hw hwm, at_cons]
    simp [Json.field, SMap.get_set _ (setGVK_sorted hr _), Json.at]
  have h2 := patch_at_both ho (deletePatch_canon hw) h1 (by simp)
  have h3 : (Json.map obj).at ["metadata"] = some (.map om) := by rw [at_cons]; simp [Json.field, hom, Json.at]
  rw [h3] at h2
  simp only [patchObj_eq] at h2
  have h4 : SMap.get (patchObj obj (deletePatch w)) "metadata" = some (.map (patchObj om (SMap.set (SMap.set (Json.removeM wm) "namespace" (.str (objKey w).1)) "name" (.str (objKey w).2)))) := by
    rw [← nested_one]; exact h2
  exact restore_key hc h4

theorem nested_patcherUpsert (obj w : SMap Json) (ho : (Json.map obj).Canon) (hw : (Json.map w).Canon) {p : List String} (hp : FreePath p) :
    nested (patcherUpsert obj w) p = (Json.patch (.map obj) (.map w)).at p := by
  rw [patcherUpsert, restore_free (patchObj_canon ho hw) hp, nested_patchObj]

theorem at_snoc {mo : SMap Json} {k : String} (q : List String) (j : Json) (hj : j.at q = some (.map mo)) : j.at (q ++ [k]) = SMap.get mo k := by
  induction q generalizing j with
  | nil => simp [Json.at] at hj; subst hj; exact nested_one mo k
  | cons a q ih =>
    obtain ⟨m, u, rfl, hg, hu⟩ := at_cons_some hj
    rw [List.cons_append, at_cons]
    simp only [Json.field, hg, Option.bind_some]
    exact ih u hu

theorem restore_map_at {m : SMap Json} {t : GVK} {k : ObjKey} (hm : (Json.map m).Canon) {q : List String} {a : String} (hp : FreePath (q ++ [a]))
    {x : SMap Json} (h : nested m q = some (.map x)) : ∃ y, nested (restore m t k) q = some (.map y) := by
  by_cases h1 : q = []
  · subst h1; exact ⟨_, rfl⟩
  · by_cases h2 : q = ["metadata"]
    · subst h2
      rw [nested_one] at h
      rw [nested_one, restore_eq hm.sorted h, SMap.get_set _ (setGVK_sorted hm.sorted t), if_pos rfl]
      exact ⟨_, rfl⟩
    · have hq : FreePath q := ⟨h1, h2, fun r hr hpre => hp.2.2 r hr (hpre.trans (List.prefix_append _ _))⟩
      exact ⟨x, by rw [restore_free hm hq, h]⟩

/-- **C26** (write, then delete): a Patcher that upserts an object and later deletes it leaves none of the scalar fields it wrote, whatever the
target was, and changes no field it did not write. -/
theorem C26_roundtrip (obj w wm : SMap Json) (ho : (Json.map obj).Canon) (hw : (Json.map w).Canon) (hwm : SMap.get w "metadata" = some (.map wm))
    (p : List String) (hp : FreePath p) :
    (∀ v, nested w p = some v → v.Scalar → nested (patcherDelete (patcherUpsert obj w) w) p = none) ∧
    (¬ (Json.map w).Mentions p → nested (patcherDelete (patcherUpsert obj w) w) p = nested obj p) := by
  have hc := patchObj_canon ho hw
  have hu : (Json.map (patcherUpsert obj w)).Canon := restore_canon hc
  constructor
  · intro v hv hs
    obtain ⟨q, k, rfl⟩ : ∃ q k, p = q ++ [k] := ⟨p.dropLast, p.getLast hp.1, (List.dropLast_concat_getLast hp.1).symm⟩
    have hq : ∃ mo, nested (patcherUpsert obj w) q = some (.map mo) := by
      have hwq : ∃ x, (Json.map w).at q = some (.map x) := by
        clear hp hwm hc hu ho
        rw [nested] at hv
        generalize Json.map w = j at hv
        induction q generalizing j with
        | nil =>
          obtain ⟨m, u, rfl, _, _⟩ := at_cons_some hv
          exact ⟨m, rfl⟩
        | cons a q ih =>
          obtain ⟨m, u, rfl, hg, hu⟩ := at_cons_some hv
          obtain ⟨x, hx⟩ := ih u hu
          exact ⟨x, by rw [at_cons]; simp [Json.field, hg, hx]⟩
      obtain ⟨x, hx⟩ := hwq
      have := patch_at_both ho hw hx (by simp)
      have hmap : ∃ y, nested (patchObj obj w) q = some (.map y) := by
        rw [nested_patchObj, this]
        split
        · rename_i ov _
          cases ov with
          | map mo => exact ⟨_, by rw [patchObj_eq]⟩
          | _ => exact ⟨x, by rw [patch_not_map (by simp)]⟩
        · exact ⟨x, rfl⟩
      obtain ⟨y, hy⟩ := hmap
      exact restore_map_at hc hp hy
    obtain ⟨mo, hmo⟩ := hq
    refine C26_removed_partial _ w hu hw q k v hp hv hs mo hmo ?_
    have h1 : nested (patcherUpsert obj w) (q ++ [k]) = some v := by
      rw [nested_patcherUpsert obj w ho hw hp]
      exact C25_scalar _ _ ho hw _ v hv hs
    intro hnull
    have h2 : nested (patcherUpsert obj w) (q ++ [k]) = SMap.get mo k := by
      exact at_snoc q _ hmo
    rw [h1, hnull] at h2
    simp only [Option.some.injEq] at h2
    subst h2
    exact hs
  · intro hm
    rw [C26_untouched _ w wm hu hw hwm p hp hm, nested_patcherUpsert obj w ho hw hp, C25_untouched _ _ ho hw p hm]
    rfl

/-- Not **C26**: deleting what was written leaves an empty map and a list of nulls behind. -/
theorem C26_leftovers :
    let obj : SMap Json := [("apiVersion", .str "v1"), ("kind", .str "Pod"), ("metadata", .map [("name", .str "a")])]
    let w : SMap Json := [("apiVersion", .str "v1"), ("kind", .str "Pod"), ("metadata", .map [("name", .str "a")]),
      ("spec", .map [("x", .int 1), ("y", .list [.int 1, .int 2])])]
    patcherDelete (patcherUpsert obj w) w = [("apiVersion", .str "v1"), ("kind", .str "Pod"), ("metadata", .map [("name", .str "a")]),
      ("spec", .map [("y", .list [.null, .null])])] := by decide

/-- Not **C26**: if the target lost the map in the meantime, the delete creates it with nulls inside. -/
theorem C26_garbage :
    let obj : SMap Json := [("apiVersion", .str "v1"), ("kind", .str "Pod"), ("metadata", .map [("name", .str "a")])]
    let w : SMap Json := [("apiVersion", .str "v1"), ("kind", .str "Pod"), ("metadata", .map [("name", .str "a")]), ("spec", .map [("x", .int 1)])]
    patcherDelete obj w = [("apiVersion", .str "v1"), ("kind", .str "Pod"), ("metadata", .map [("name", .str "a")]),
      ("spec", .map [("x", .null)])] := by decide

/-- Non-trivial instance of the hypotheses of C26: the Patcher removes its label, the others stay. -/
example : let obj : SMap Json := [("apiVersion", .str "v1"), ("kind", .str "Pod"),
      ("metadata", .map [("labels", .map [("a", .str "1"), ("b", .str "2")]), ("name", .str "a")])]
    let w : SMap Json := [("apiVersion", .str "v1"), ("kind", .str "Pod"), ("metadata", .map [("labels", .map [("a", .str "1")]), ("name", .str "a")])]
    FreePath (["metadata", "labels"] ++ ["a"]) ∧ FreePath ["metadata", "labels", "b"] ∧ (Json.map obj).Canon ∧ (Json.map w).Canon ∧
    nested w (["metadata", "labels"] ++ ["a"]) = some (.str "1") ∧
    patcherDelete obj w = [("apiVersion", .str "v1"), ("kind", .str "Pod"), ("metadata", .map [("labels", .map [("b", .str "2")]), ("name", .str "a")])] := by
  decide

/-! ## C27 -/

/-- **C27** (every field, last wins): a scalar field of a part is in the result unless a later part mentions it. -/
theorem C27_present (pre post : List Json) (u r : Json) (hc : ∀ x ∈ pre ++ u :: post, x.Canon) (h : mergeAll .null (pre ++ u :: post) = some r)
    (p : List String) (v : Json) (hu : u.at p = some v) (hv : v.Scalar) (hpost : ∀ x ∈ post, ¬ x.Mentions p) : r.at p = some v := by
  rw [mergeAll_append, Option.bind_eq_some_iff] at h
  obtain ⟨a, ha, h⟩ := h
  have hac : a.Canon := mergeAll_canon (by trivial) (fun x hx => hc x (by simp [hx])) ha
  rw [mergeAll] at h
  split at h
  · simp at h
  · rename_i b hb
    have huc : u.Canon := hc u (by simp)
    rw [mergeAll_untouched (merge_canon u a b hac huc hb) (fun x hx => hc x (by simp [hx])) h hpost]
    have := merge_at_both hac huc hb hu
    split at this
    · exact this
    · obtain ⟨y, hy, e⟩ := this
      rw [e]
      cases v with
      | null => exact hv.elim
      | list => exact hv.elim
      | map => exact hv.elim
      | _ => simp [Json.merge] at hy; rw [hy]

/-- **C27** (lists): the list of a part is at the end of the result's list, unless a later part mentions it; what is before it is the list merged
from the earlier parts. -/
theorem C27_lists (pre post : List Json) (u a r : Json) (hc : ∀ x ∈ pre ++ u :: post, x.Canon) (ha : mergeAll .null pre = some a)
    (h : mergeAll .null (pre ++ u :: post) = some r) (p : List String) (l : List Json) (hu : u.at p = some (.list l)) (hpost : ∀ x ∈ post, ¬ x.Mentions p) :
    r.at p = some (.list (match a.at p with | some (.list l0) => l0 ++ l | _ => l)) := by
  rw [mergeAll_append, ha, Option.bind_some] at h
  have hac : a.Canon := mergeAll_canon (by trivial) (fun x hx => hc x (by simp [hx])) ha
  rw [mergeAll] at h
  split at h
  · simp at h
  · rename_i b hb
    have huc : u.Canon := hc u (by simp)
    rw [mergeAll_untouched (merge_canon u a b hac huc hb) (fun x hx => hc x (by simp [hx])) h hpost]
    have := merge_at_both hac huc hb hu
    cases hap : a.at p with
    | none => rw [hap] at this; exact this
    | some av =>
      rw [hap] at this
      obtain ⟨y, hy, e⟩ := this
      rw [e]
      cases av <;> simp [Json.merge] at hy <;> rw [hy]

/-- **C27** (nothing else): every path of the result comes from some part. -/
theorem C27_only (us : List Json) (r v : Json) (hc : ∀ x ∈ us, x.Canon) (h : mergeAll .null us = some r) (k : String) (p : List String)
    (hp : r.at (k :: p) = some v) : ∃ u ∈ us, ∃ x, u.at (k :: p) = some x := by
  rcases mergeAll_only (by trivial) hc h hp with ⟨x, hx⟩ | h
  · simp [Json.at, Json.field] at hx
  · exact h

/-- **C27** (no failure): parts without nulls always merge. -/
theorem C27_total (us : List Json) (h : ∀ u ∈ us, u.NullFree) (v : Json) : ∃ r, mergeAll v us = some r := by
  induction us generalizing v with
  | nil => exact ⟨v, rfl⟩
  | cons u us ih =>
    obtain ⟨r, hr⟩ := merge_nullfree u v (h u (by simp))
    obtain ⟨r', hr'⟩ := ih (fun x hx => h x (by simp [hx])) r
    exact ⟨r', by rw [mergeAll, hr]; exact hr'⟩

/-- A null meeting another value makes a projection fail: the hypothesis of `C27_total` cannot be dropped. -/
theorem C27_null_fails : mergeAll .null [.map [("a", .int 1)], .map [("a", .null)]] = none := by decide

/-- Non-trivial instance of the hypotheses of C27. -/
example : let u := Json.map [("a", .int 1), ("b", .map [("c", .int 2)])]
    let w := Json.map [("a", .int 5), ("b", .map [("d", .list [.int 3])])]
    mergeAll .null ([u] ++ w :: []) = some (.map [("a", .int 5), ("b", .map [("c", .int 2), ("d", .list [.int 3])])]) ∧ u.Canon ∧ w.Canon ∧
    w.at ["a"] = some (.int 5) := by decide

/-! ## C46 -/

/-- **C46** (upsert): after an upsert the target holds an object whose top-level content is exactly the new one, whose labels and annotations are the new
ones over the old ones, and whose other metadata is the old one. -/
theorem C46_upsert (t : GVK) (s : Cluster) (ty : DeltaType) (new : SMap Json) (hty : ty ∈ [DeltaType.added, .upserted, .updated, .replaced])
    (hn : (Json.map new).Canon) (hname : (objKey new).2 ≠ "")
    (hs : ∀ o, s.get (t, objKey new) = some o → (Json.map o).Canon ∧ ∃ x, SMap.get o "metadata" = some (.map x)) :
    ∃ r, (updaterWrite t s ty new).get (t, objKey new) = some r ∧
      (∀ k, k ≠ "metadata" → k ≠ "apiVersion" → k ≠ "kind" → SMap.get r k = SMap.get new k) ∧
      SMap.get r "kind" = some (.str t.kind) ∧ SMap.get r "apiVersion" = some (.str (gvString t)) ∧ objKey r = objKey new ∧
      (∀ f, f = "labels" ∨ f = "annotations" → ∀ l, getStrings new f = some l → ∃ l', getStrings r f = some l' ∧
        ∀ k, SMap.get l' k = (SMap.get l k).or (((s.get (t, objKey new)).bind (getStrings · f)).bind (SMap.get · k))) ∧
      (∀ f, f = "labels" ∨ f = "annotations" → getStrings new f = none →
        nested r ["metadata", f] = (s.get (t, objKey new)).bind (nested · ["metadata", f])) ∧
      (∀ f p, f ∉ ["name", "namespace", "labels", "annotations"] →
        nested r ("metadata" :: f :: p) = (s.get (t, objKey new)).bind (nested · ("metadata" :: f :: p))) := by
  -- the object the mutation starts from
  have hbase : ∃ obj, (updaterWrite t s ty new).get (t, objKey new) = some (updaterMutate t new obj) ∧ (Json.map obj).Canon ∧
      (∃ x, SMap.get obj "metadata" = some (.map x)) ∧
      (∀ f p, f ∉ ["name", "namespace"] → nested obj ("metadata" :: f :: p) = (s.get (t, objKey new)).bind (nested · ("metadata" :: f :: p))) := by
    have hw : updaterWrite t s ty new = match s.get (t, objKey new) with
        | none => s.set (t, objKey new) (updaterMutate t new (bareObj t (objKey new)))
        | some obj => s.set (t, objKey new) (updaterMutate t new obj) := by
      simp only [List.mem_cons, List.not_mem_nil, or_false] at hty
      rcases hty with rfl | rfl | rfl | rfl <;> rfl
    rw [hw]
    cases hg : s.get (t, objKey new) with
    | none =>
      refine ⟨bareObj t (objKey new), by simp [AMap.get_set], bareObj_canon _ _, bareObj_meta hname, ?_⟩
      intro f p hf
      simp only [List.mem_cons, List.not_mem_nil, or_false, not_or] at hf
      have hfree : FreePath ("metadata" :: f :: p) := by
        refine ⟨by simp, by simp, ?_⟩
        intro q hq
        simp only [protectedPaths, List.mem_cons, List.not_mem_nil, or_false] at hq
        rcases hq with rfl | rfl | rfl | rfl <;> simp [List.cons_prefix_cons] <;> intro h
        · exact hf.1 h.symm
        · exact hf.2 h.symm
      rw [bareObj, restore_free (by decide) hfree]; rfl
    | some o =>
      refine ⟨o, by simp [AMap.get_set], (hs o hg).1, (hs o hg).2, ?_⟩
      intros; rfl
  obtain ⟨obj, hget, hoc, ⟨x, hx⟩, hold⟩ := hbase
  refine ⟨_, hget, ?_⟩
  -- the steps of the mutation
  generalize hb : s.get (t, objKey new) = old at *
  have hcc := upd_content_canon hn hoc
  generalize hc : copyFields (dropMissing new obj (obj.map (·.1))) new = c at hcc
  have hcg : ∀ k, SMap.get c k = if k = "metadata" then SMap.get obj k else SMap.get new k := by
    intro k; rw [← hc]; exact upd_content_get hn.sorted hoc.sorted k
  have hcm : SMap.get c "metadata" = some (.map x) := by rw [hcg]; simpa using hx
  have hcmeta : ∀ p, nested c ("metadata" :: p) = nested obj ("metadata" :: p) := by
    intro p; rw [nested_cons, nested_cons, hcg]; simp
  have h1c := mergeStrings_canon (f := "labels") (new := new) hcc
  obtain ⟨x1, hx1⟩ := mergeStrings_meta (f := "labels") (new := new) hcc hcm
  have h2c := mergeStrings_canon (f := "annotations") (new := new) h1c
  obtain ⟨x2, hx2⟩ := mergeStrings_meta (f := "annotations") (new := new) h1c hx1
  have hm : updaterMutate t new obj = restore (mergeStrings "annotations" (mergeStrings "labels" c new) new) t (objKey new) := by
    rw [updaterMutate, hc]; rfl
  rw [hm]
  have hfreeMeta : ∀ f p, f ≠ "name" → f ≠ "namespace" → FreePath ("metadata" :: f :: p) := by
    intro f p h1 h2
    refine ⟨by simp, by simp, ?_⟩
    intro q hq
    simp only [protectedPaths, List.mem_cons, List.not_mem_nil, or_false] at hq
    rcases hq with rfl | rfl | rfl | rfl <;> simp [List.cons_prefix_cons] <;> intro h
    · exact h1 h.symm
    · exact h2 h.symm
  refine ⟨?_, (restore_gvk_get h2c).1, (restore_gvk_get h2c).2, restore_key h2c hx2, ?_, ?_, ?_⟩
  · intro k h1 h2 h3
    have hfree : FreePath [k] := by
      refine ⟨by simp, by simpa using h1, ?_⟩
      intro q hq
      simp only [protectedPaths, List.mem_cons, List.not_mem_nil, or_false] at hq
      rcases hq with rfl | rfl | rfl | rfl <;> simp [List.cons_prefix_cons] <;> intro h
      · exact h2 h.symm
      · exact h3 h.symm
    have hoff : ∀ f, ¬ ["metadata", f] <+: [k] ∧ ¬ [k] <+: ["metadata", f] := by
      intro f
      exact ⟨fun h => by simpa using h.length_le, fun h => h1 (by simpa [List.cons_prefix_cons] using h)⟩
    rw [← nested_one, restore_free h2c hfree, mergeStrings_off h1c (hoff _).1 (hoff _).2, mergeStrings_off hcc (hoff _).1 (hoff _).2, nested_one,
      hcg, if_neg h1]
  · rintro f hf l hl
    have hfn : f ≠ "name" ∧ f ≠ "namespace" := by rcases hf with rfl | rfl <;> decide
    rw [getStrings_congr (restore_free h2c (hfreeMeta f [] hfn.1 hfn.2))]
    have hnew : l.Sorted := getStrings_sorted hn hl
    have hcs : getStrings c f = old.bind (getStrings · f) := by
      have h1 := hold f [] (by rcases hf with rfl | rfl <;> decide)
      rw [getStrings_congr (hcmeta [f])]
      cases old with
      | none => simp only [getStrings, h1, Option.bind_none]
      | some o => simp only [getStrings, h1, Option.bind_some]
    have hos : ∀ {d : SMap Json}, (Json.map d).Canon → ((getStrings d f).getD []).Sorted := by
      intro d hd
      cases hg : getStrings d f with
      | none => exact SMap.sorted_nil
      | some y => exact getStrings_sorted hd hg
    rcases hf with rfl | rfl
    · rw [getStrings_congr (mergeStrings_off h1c (by decide) (by decide)), mergeStrings_get hcc hcm hl]
      refine ⟨_, rfl, fun k => ?_⟩
      rw [overlay_get l hnew (hos hcc), hcs]
      cases old.bind (getStrings · "labels") <;> simp [SMap.get]
    · rw [mergeStrings_get h1c hx1 hl]
      refine ⟨_, rfl, fun k => ?_⟩
      rw [overlay_get l hnew (hos h1c), getStrings_congr (mergeStrings_off hcc (by decide) (by decide)), hcs]
      cases old.bind (getStrings · "annotations") <;> simp [SMap.get]
  · rintro f hf hl
    have hfn : f ≠ "name" ∧ f ≠ "namespace" := by rcases hf with rfl | rfl <;> decide
    have h1 := hold f [] (by rcases hf with rfl | rfl <;> decide)
    rw [restore_free h2c (hfreeMeta f [] hfn.1 hfn.2), ← h1, ← hcmeta]
    rcases hf with rfl | rfl
    · rw [mergeStrings_off h1c (by decide) (by decide), mergeStrings_get_none hl]
    · rw [mergeStrings_get_none hl, mergeStrings_off hcc (by decide) (by decide)]
  · intro f p hf
    simp only [List.mem_cons, List.not_mem_nil, or_false, not_or] at hf
    obtain ⟨h1, h2, h3, h4⟩ := hf
    have hoff : ∀ g, f ≠ g → ¬ ["metadata", g] <+: "metadata" :: f :: p ∧ ¬ "metadata" :: f :: p <+: ["metadata", g] := by
      intro g hg
      constructor
      · simp [List.cons_prefix_cons]; exact fun h => hg h.symm
      · simp [List.cons_prefix_cons]; intro h; exact absurd h hg
    rw [restore_free h2c (hfreeMeta f p h1 h2), mergeStrings_off h1c (hoff _ h4).1 (hoff _ h4).2, mergeStrings_off hcc (hoff _ h3).1 (hoff _ h3).2,
      hcmeta, hold f p (by simp [h1, h2])]

/-- **C46** (delete): a delete removes the object; deleting a missing object changes nothing and is no error. -/
theorem C46_delete (t : GVK) (s : Cluster) (hs : AMap.WF s) (new : SMap Json) :
    (updaterWrite t s .deleted new).get (t, objKey new) = none ∧
    (s.get (t, objKey new) = none → updaterWrite t s .deleted new = s) := by
  refine ⟨by simp [updaterWrite, AMap.get_erase hs], fun h => ?_⟩
  simp only [updaterWrite]
  clear hs
  induction s with
  | nil => rfl
  | cons p s ih =>
    obtain ⟨k, v⟩ := p
    rw [AMap.get] at h
    split at h
    · simp at h
    · rename_i hk
      rw [AMap.erase, if_neg hk, ih h]

/-- **C46** (frame): a write touches no other object. -/
theorem C46_frame (t : GVK) (s : Cluster) (hs : AMap.WF s) (ty : DeltaType) (new : SMap Json) (k : GVK × ObjKey) (hk : k ≠ (t, objKey new)) :
    (updaterWrite t s ty new).get k = s.get k := by
  have hk' : ¬ (t, objKey new) = k := fun h => hk h.symm
  cases ty with
  | deleted => simp [updaterWrite, AMap.get_erase hs, hk']
  | sync => rfl
  | _ =>
    simp only [updaterWrite]
    split <;> rw [AMap.get_set, if_neg hk']

/-- A label that disappears from the view object stays on the target (documented in `target.go:106-110`), and metadata other than labels and annotations,
like the owner references here, is not written. -/
theorem C46_metadata_not_replaced :
    let t : GVK := ⟨"", "v1", "Pod"⟩
    let old : SMap Json := [("metadata", .map [("labels", .map [("a", .str "1")]), ("name", .str "x")])]
    let new : SMap Json := [("metadata", .map [("labels", .map []), ("name", .str "x"), ("ownerReferences", .list [.str "o"])])]
    (updaterWrite t [((t, ("", "x")), old)] .upserted new).get (t, ("", "x")) =
      some [("apiVersion", .str "v1"), ("kind", .str "Pod"), ("metadata", .map [("labels", .map [("a", .str "1")]), ("name", .str "x")])] := by decide

/-- Non-trivial instance of the hypotheses of C46: an upsert that replaces `spec`, drops `status` and merges labels. -/
example :
    let t : GVK := ⟨"", "v1", "Pod"⟩
    let old : SMap Json := [("metadata", .map [("labels", .map [("a", .str "1")]), ("name", .str "x"), ("uid", .str "u")]), ("spec", .int 1), ("status", .int 2)]
    let new : SMap Json := [("metadata", .map [("labels", .map [("b", .str "2")]), ("name", .str "x")]), ("spec", .int 3)]
    (Json.map new).Canon ∧ (objKey new).2 ≠ "" ∧ (Json.map old).Canon ∧
    (updaterWrite t [((t, ("", "x")), old)] .upserted new).get (t, ("", "x")) =
      some [("apiVersion", .str "v1"), ("kind", .str "Pod"),
        ("metadata", .map [("labels", .map [("a", .str "1"), ("b", .str "2")]), ("name", .str "x"), ("uid", .str "u")]), ("spec", .int 3)] := by decide

/-! ## C61 -/

/-- The Patcher sees `cur`: it is the snapshot in the request, if there is one of this very object, and what is stored otherwise. -/
def Seen (t : GVK) (s : Cluster) (new : SMap Json) (orig : Option (SMap Json)) (cur : SMap Json) : Prop :=
  (orig = some cur ∧ objGVK cur = objGVK new ∧ objKey cur = objKey new) ∨
  ((∀ o, orig = some o → objGVK o ≠ objGVK new ∨ objKey o ≠ objKey new) ∧ s.get (t, objKey new) = some cur)

theorem seen_read {t : GVK} {s : Cluster} {new cur : SMap Json} {orig : Option (SMap Json)} (h : Seen t s new orig cur) :
    (useOriginal orig new).or (s.get (t, objKey new)) = some cur := by
  rcases h with ⟨rfl, h1, h2⟩ | ⟨h1, h2⟩
  · simp [useOriginal, h1, h2]
  · cases orig with
    | none => simpa [useOriginal] using h2
    | some o =>
      have : ¬ (objGVK o = objGVK new ∧ objKey o = objKey new) := by
        rcases h1 o rfl with h | h
        · exact fun x => h x.1
        · exact fun x => h x.2
      simpa [useOriginal, this] using h2

/-- **C61**: a Patcher neither creates nor removes objects, whatever it has read and whatever happened since. -/
theorem C61_never_creates (t : GVK) (s s' s'' : Cluster) (ty : DeltaType) (new : SMap Json) (orig : Option (SMap Json))
    (h : patcherWrite t s s' ty new orig = some s'') (k : GVK × ObjKey) : (s''.get k).isSome = (s'.get k).isSome := by
  have hu : ∀ r, (((clientUpdate s' t r).getD s').get k).isSome = (s'.get k).isSome := by
    intro r
    rw [clientUpdate]
    cases hr : s'.get (t, objKey r) with
    | none => rfl
    | some x =>
      simp only [Option.getD_some]
      rw [AMap.get_set]
      by_cases e : (t, objKey r) = k
      · rw [if_pos e, ← e, hr]; rfl
      · rw [if_neg e]
  generalize hx : (useOriginal orig new).or (s.get (t, objKey new)) = x at *
  cases ty <;> cases x <;> simp only [patcherWrite, hx, Option.some.injEq, reduceCtorEq] at h <;> subst h <;> first | rfl | exact hu _

/-- **C61**: a Patcher changes no other object than the one it is asked to patch. -/
theorem C61_others (t : GVK) (s s' s'' : Cluster) (ty : DeltaType) (new cur om : SMap Json) (orig : Option (SMap Json))
    (hn : (Json.map new).Canon) (hc : (Json.map cur).Canon) (hwm : ∃ wm, SMap.get new "metadata" = some (.map wm))
    (hom : SMap.get cur "metadata" = some (.map om)) (hseen : Seen t s new orig cur)
    (h : patcherWrite t s s' ty new orig = some s'') (k : GVK × ObjKey) (hk : k ≠ (t, objKey new)) : s''.get k = s'.get k := by
  have hread := seen_read hseen
  obtain ⟨wm, hwm⟩ := hwm
  have hup : objKey (patcherUpsert cur new) = objKey new := by
    have h2 := patch_at_both hc hn (p := ["metadata"]) (by rw [at_cons]; simp [Json.field, hwm, Json.at]; rfl) (by simp)
    have h3 : (Json.map cur).at ["metadata"] = some (.map om) := by rw [at_cons]; simp [Json.field, hom, Json.at]
    rw [h3] at h2
    simp only [patchObj_eq] at h2
    exact restore_key (patchObj_canon hc hn) (by rw [← nested_one]; exact h2)
  have hdel : objKey (patcherDelete cur new) = objKey new := (C26_identity cur new om hc hn ⟨wm, hwm⟩ hom).1
  have hu : ∀ r, objKey r = objKey new → ((clientUpdate s' t r).getD s').get k = s'.get k := by
    intro r hr
    rw [clientUpdate, hr]
    cases s'.get (t, objKey new) with
    | none => rfl
    | some x => simp only [Option.getD_some]; rw [AMap.get_set, if_neg (Ne.symm hk)]
  cases ty <;> simp only [patcherWrite, hread, Option.some.injEq, reduceCtorEq] at h <;> subst h <;> first | rfl | exact hu _ hup | exact hu _ hdel

/-- **C61**: a snapshot of another object, or of the same object under another kind, is not used. -/
theorem C61_foreign_snapshot (t : GVK) (s s' : Cluster) (ty : DeltaType) (new o : SMap Json)
    (h : objGVK o ≠ objGVK new ∨ objKey o ≠ objKey new) :
    patcherWrite t s s' ty new (some o) = patcherWrite t s s' ty new none := by
  have : useOriginal (some o) new = useOriginal none new := by
    have : ¬ (objGVK o = objGVK new ∧ objKey o = objKey new) := by
      rcases h with h | h
      · exact fun x => h x.1
      · exact fun x => h x.2
    simp [useOriginal, this]
  cases ty <;> simp only [patcherWrite, this]

/-- **C61** (partial): if nobody changed the object between the snapshot used by a Patcher and its write, the upsert changes no field the object does
not mention, and the delete changes none either. Missing: the claim for objects changed in between, which is false (`C61_lost_update`). -/
theorem C61_no_interference_partial (t : GVK) (s' : Cluster) (ty : DeltaType) (new cur wm : SMap Json) (orig : Option (SMap Json))
    (hn : (Json.map new).Canon) (hc : (Json.map cur).Canon) (hwm : SMap.get new "metadata" = some (.map wm))
    (s : Cluster) (hseen : Seen t s new orig cur) (hcur : s'.get (t, objKey new) = some cur)
    (hmeta : ∃ om, SMap.get cur "metadata" = some (.map om)) (hty : ty ≠ .sync) :
    ∃ s'' r, patcherWrite t s s' ty new orig = some s'' ∧ s''.get (t, objKey new) = some r ∧
      ∀ p, FreePath p → ¬ (Json.map new).Mentions p → nested r p = nested cur p := by
  have hread := seen_read hseen
  obtain ⟨om, hom⟩ := hmeta
  have hkey : ∀ m om : SMap Json, (Json.map m).Canon → SMap.get m "metadata" = some (.map om) → objKey (restore m (objGVK new) (objKey new)) = objKey new :=
    fun m om hm h => restore_key hm h
  have hup : objKey (patcherUpsert cur new) = objKey new := by
    have h2 := patch_at_both hc hn (p := ["metadata"]) (by rw [at_cons]; simp [Json.field, hwm, Json.at]; rfl) (by simp)
    have h3 : (Json.map cur).at ["metadata"] = some (.map om) := by rw [at_cons]; simp [Json.field, hom, Json.at]
    rw [h3] at h2
    simp only [patchObj_eq] at h2
    exact hkey _ _ (patchObj_canon hc hn) (by rw [← nested_one]; exact h2)
  have hdel : objKey (patcherDelete cur new) = objKey new := (C26_identity cur new om hc hn ⟨wm, hwm⟩ hom).1
  have hu : ∀ r, objKey r = objKey new → (clientUpdate s' t r).getD s' = s'.set (t, objKey new) r := by
    intro r hr; simp [clientUpdate, hr, hcur]
  have hupR : ∀ p, FreePath p → ¬ (Json.map new).Mentions p → nested (patcherUpsert cur new) p = nested cur p := by
    intro p hp hm
    rw [nested_patcherUpsert cur new hc hn hp, C25_untouched _ _ hc hn p hm]; rfl
  have hget : ∀ r, AMap.get (s'.set (t, objKey new) r) (t, objKey new) = some r := fun r => by rw [AMap.get_set, if_pos rfl]
  cases ty with
  | sync => exact absurd rfl hty
  | deleted =>
    refine ⟨_, _, by rw [patcherWrite, hread], ?_, fun p hp hm => C26_untouched cur new wm hc hn hwm p hp hm⟩
    rw [hu _ hdel, hget]
  | added =>
    refine ⟨_, _, by rw [patcherWrite, hread], ?_, hupR⟩
    rw [hu _ hup, hget]
  | updated =>
    refine ⟨_, _, by rw [patcherWrite, hread], ?_, hupR⟩
    rw [hu _ hup, hget]
  | replaced =>
    refine ⟨_, _, by rw [patcherWrite, hread], ?_, hupR⟩
    rw [hu _ hup, hget]
  | upserted =>
    refine ⟨_, _, by rw [patcherWrite, hread], ?_, hupR⟩
    rw [hu _ hup, hget]

/-- Not **C61**: a Patcher that sets a label reverts a change somebody else made to `spec` after the snapshot was taken, since the retry
after a conflict only reads the new resource version. -/
theorem C61_lost_update :
    let t : GVK := ⟨"", "v1", "Pod"⟩
    let obj : Int → SMap Json := fun i => [("apiVersion", .str "v1"), ("kind", .str "Pod"), ("metadata", .map [("name", .str "x")]), ("spec", .int i)]
    let new : SMap Json := [("apiVersion", .str "v1"), ("kind", .str "Pod"), ("metadata", .map [("labels", .map [("a", .str "1")]), ("name", .str "x")])]
    let now : Cluster := [((t, ("", "x")), obj 2)]
    ((patcherWrite t now now .upserted new (some (obj 1))).bind (·.get (t, ("", "x")))).bind (nested · ["spec"]) = some (.int 1) ∧
    ¬ (Json.map new).Mentions ["spec"] ∧ FreePath ["spec"] := by
  refine ⟨by decide, ?_, by decide⟩
  rw [mentions_cons]; simp [SMap.get]

/-- Non-trivial instance of the hypotheses of C61. -/
example :
    let t : GVK := ⟨"", "v1", "Pod"⟩
    let cur : SMap Json := [("apiVersion", .str "v1"), ("kind", .str "Pod"), ("metadata", .map [("name", .str "x")]), ("spec", .int 1)]
    let new : SMap Json := [("apiVersion", .str "v1"), ("kind", .str "Pod"), ("metadata", .map [("labels", .map [("a", .str "1")]), ("name", .str "x")])]
    let s : Cluster := [((t, ("", "x")), cur)]
    Seen t s new (some cur) cur ∧ s.get (t, objKey new) = some cur ∧ (Json.map new).Canon ∧ (Json.map cur).Canon := by
  refine ⟨.inl ⟨rfl, by decide, by decide⟩, by decide, by decide, by decide⟩

/-- A Patcher whose target is deleted between read and write, and one with a snapshot of another object. -/
example :
    let t : GVK := ⟨"", "v1", "Pod"⟩
    let pod : String → SMap Json := fun n => [("apiVersion", .str "v1"), ("kind", .str "Pod"), ("metadata", .map [("name", .str n)])]
    let s : Cluster := [((t, ("", "x")), pod "x")]
    patcherWrite t s [] .upserted (pod "x") none = some [] ∧ patcherWrite t [] s .upserted (pod "x") (some (pod "y")) = none ∧
    objKey (pod "y") ≠ objKey (pod "x") := by
  decide

end Dctl
