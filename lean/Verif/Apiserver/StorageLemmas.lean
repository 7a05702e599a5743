import Verif.Spec.Apiserver
import Verif.Apiserver.RegistryLemmas
import Verif.Props.Client
/-!
# Lemmas about the storage of the API server
-/
set_option autoImplicit false
set_option linter.unusedSectionVars false
namespace Dctl

variable {hash : String → String} {c : VCache}

/-- Keys in a proper namespace differ from those of plain keys elsewhere. -/
theorem cacheKey_ns {a k : ObjKey} (h0 : a.1 ≠ "") (ha : '/' ∉ a.1.toList) (hk : ObjKey.NoSlash k) (h : a.1 ≠ k.1) : cacheKey a ≠ cacheKey k := by
  obtain ⟨n, m⟩ := a
  obtain ⟨n', m'⟩ := k
  simp only [ObjKey.NoSlash] at *
  intro he
  simp only [cacheKey, h0, if_false] at he
  split at he
  · rw [← he] at hk
    simp [String.toList_append] at hk
  · exact h (ApiSrv.slash_both ha hk.1 he).1

theorem setGVK_key {o : Obj} (ho : Obj.Ok o) (t : GVK) : objKey (setGVK o t) = objKey o := by
  have h : SMap.get (setGVK o t) "metadata" = SMap.get o "metadata" := by
    rw [setGVK_get ho.sorted]; simp
  simp only [objKey, nestedString, nested, Json.at, Json.field, h]

theorem stoPrepare_ok {o : Obj} (ho : Obj.Ok o) (t : GVK) (ns : String) : Obj.Ok (stoPrepare t ns o) := setStr_canon (setGVK_canon ho)

theorem stoPrepare_key {o : Obj} (ho : Obj.Ok o) (hm : PlainMeta o) (t : GVK) (ns : String) : objKey (stoPrepare t ns o) = (ns, (objKey o).2) := by
  have hs : (setGVK o t).Sorted := setGVK_sorted ho.sorted t
  have hmeta : SMap.get (setGVK o t) "metadata" = SMap.get o "metadata" := by
    rw [setGVK_get ho.sorted]; simp
  rw [← setGVK_key ho t]
  rcases hm with h0 | ⟨m, h0⟩
  · rw [← hmeta] at h0
    unfold stoPrepare setStr
    split
    · next e =>
      subst e
      simp only [removeNested, h0, objKey, nestedString, nested, Json.at, Json.field]
    · have : setField (setGVK o t) ["metadata", "namespace"] (.str ns) = SMap.set (setGVK o t) "metadata" (.map (SMap.set [] "namespace" (.str ns))) := by
        simp [setField, setNested, h0]
      rw [this]
      simp only [objKey, nestedString, nested, Json.at, Json.field, SMap.get_set _ hs, h0]
      simp [SMap.set, SMap.get]
  · have hmm : SMap.Sorted m := (ho.val h0).sorted
    rw [← hmeta] at h0
    have : stoPrepare t ns o = SMap.set (setGVK o t) "metadata" (.map (if ns = "" then SMap.erase m "namespace" else SMap.set m "namespace" (.str ns))) :=
      setStr_two ns h0
    rw [this]
    simp only [objKey, nestedString, nested, Json.at, Json.field, SMap.get_set _ hs, h0]
    by_cases e : ns = ""
    · simp only [e, if_true, SMap.get_erase _ hmm]; simp
    · have h1 : SMap.get (SMap.set m "namespace" (.str ns)) "namespace" = some (.str ns) := by rw [SMap.get_set _ hmm]; simp
      have h2 : SMap.get (SMap.set m "namespace" (.str ns)) "name" = SMap.get m "name" := by rw [SMap.get_set _ hmm]; simp
      simp [e, h1, h2]

theorem gvString_parse {t : GVK} (hv : isViewKind t = true) (hs : '/' ∉ t.group.toList) : parseGroupVersion (gvString t) = some (t.group, t.version) := by
  have h0 := view_group_ne hv
  have hver : t.version = viewVersion := by simp only [isViewKind, Bool.and_eq_true, beq_iff_eq] at hv; exact hv.2
  have he : (gvString t).toList = t.group.toList ++ '/' :: viewVersion.toList := by
    simp only [gvString, h0, if_false, String.toList_append, hver]
    rw [show "/".toList = ['/'] from by decide]; simp
  have hne : t.group.toList ≠ [] := fun e => h0 (String.toList_injective (by rw [e]; rfl))
  unfold parseGroupVersion
  have hno : ¬ (gvString t = "" ∨ gvString t = "/") := by
    rintro (e | e)
    · rw [e] at he; simp at he
    · have := congrArg List.length he
      rw [e] at this
      rw [show "/".toList.length = 1 from by decide] at this
      simp only [List.length_append, List.length_cons] at this
      rw [show viewVersion.toList.length = 8 from by decide] at this
      omega
  have hc : (gvString t).toList.count '/' = 1 := by
    rw [he, List.count_append, List.count_cons, List.count_eq_zero.mpr hs, show viewVersion.toList.count '/' = 0 from by decide]; simp
  have htake : (gvString t).toList.takeWhile (fun c => decide (c ≠ '/')) = t.group.toList := by
    rw [he, List.takeWhile_append_of_pos]
    · simp
    · intro a ha; simp only [ne_eq, decide_not, Bool.not_eq_eq_eq_not, Bool.not_true, decide_eq_false_iff_not]; rintro rfl; exact hs ha
  have hdrop : (gvString t).toList.dropWhile (fun c => decide (c ≠ '/')) = '/' :: viewVersion.toList := by
    rw [he, List.dropWhile_append_of_pos]
    · simp
    · intro a ha; simp only [ne_eq, decide_not, Bool.not_eq_eq_eq_not, Bool.not_true, decide_eq_false_iff_not]; rintro rfl; exact hs ha
  rw [if_neg hno, hc]
  simp only [htake, hdrop, List.drop_succ_cons, List.drop_zero, String.ofList_toList, hver]

theorem objGVK_of_fields {o : Obj} {t : GVK} (hv : isViewKind t = true) (hs : '/' ∉ t.group.toList) (h1 : SMap.get o "apiVersion" = some (.str (gvString t)))
    (h2 : SMap.get o "kind" = some (.str t.kind)) : objGVK o = t := by
  have e1 : nestedString o ["apiVersion"] = gvString t := by simp only [nestedString, nested, Json.at, Json.field, h1]
  have e2 : nestedString o ["kind"] = t.kind := by simp only [nestedString, nested, Json.at, Json.field, h2]
  unfold objGVK
  rw [e1, gvString_parse hv hs, e2]

theorem setGVK_gvk {o : Obj} (ho : Obj.Ok o) {t : GVK} (hv : isViewKind t = true) (hs : '/' ∉ t.group.toList) : objGVK (setGVK o t) = t :=
  objGVK_of_fields hv hs (by rw [setGVK_get ho.sorted]; simp) (by rw [setGVK_get ho.sorted]; simp)

theorem setStr_meta_get {o : Obj} (ho : o.Sorted) (hm : PlainMeta o) (s k : String) (hk : k ≠ "metadata") :
    SMap.get (setStr o ["metadata", "namespace"] s) k = SMap.get o k := by
  rcases hm with h0 | ⟨m, h0⟩
  · unfold setStr
    split
    · simp only [removeNested, h0]
    · simp only [setField, setNested, h0, Option.map, Option.getD, SMap.get_set _ ho, Ne.symm hk, if_false]
  · rw [setStr_two s h0, SMap.get_set _ ho, if_neg (Ne.symm hk)]

theorem stoPrepare_gvk {o : Obj} (ho : Obj.Ok o) (hm : PlainMeta o) {t : GVK} (hv : isViewKind t = true) (hs : '/' ∉ t.group.toList) (ns : String) :
    objGVK (stoPrepare t ns o) = t := by
  have hmeta : SMap.get (setGVK o t) "metadata" = SMap.get o "metadata" := by rw [setGVK_get ho.sorted]; simp
  have hm' : PlainMeta (setGVK o t) := by unfold PlainMeta; rw [hmeta]; exact hm
  refine objGVK_of_fields hv hs ?_ ?_
  · rw [stoPrepare, setStr_meta_get (setGVK_sorted ho.sorted t) hm' _ _ (by decide), setGVK_get ho.sorted]; simp
  · rw [stoPrepare, setStr_meta_get (setGVK_sorted ho.sorted t) hm' _ _ (by decide), setGVK_get ho.sorted]; simp

theorem stoPrepare_get {o : Obj} (ho : Obj.Ok o) (hm : PlainMeta o) (t : GVK) (ns k : String) (hk : k ≠ "metadata") (hk1 : k ≠ "kind") (hk2 : k ≠ "apiVersion") :
    SMap.get (stoPrepare t ns o) k = SMap.get o k := by
  have hmeta : SMap.get (setGVK o t) "metadata" = SMap.get o "metadata" := by rw [setGVK_get ho.sorted]; simp
  have hm' : PlainMeta (setGVK o t) := by unfold PlainMeta; rw [hmeta]; exact hm
  rw [stoPrepare, setStr_meta_get (setGVK_sorted ho.sorted t) hm' _ _ hk, setGVK_get ho.sorted]; simp [hk1, hk2]

theorem objFromList_stoListKind {t : GVK} (hv : isViewKind t = true) : objFromList (stoListKind t) = t := by
  have : isViewListKind (stoListKind t) = true := by
    simp only [isViewListKind, stoListKind, endsList_append, Bool.and_true]
    exact hv
  simp only [objFromList, this, if_true]
  simp [stoListKind, trimList_append]

/-! ### frames -/

/-- The state after a client operation of the storage is that after an operation of the cache. -/
theorem create_step {o : Obj} : (c.clientCreate hash o).getD c = c.step hash (.add o) := rfl

theorem delete_step {o : Obj} : (c.clientDelete o).getD c = c.step hash (.delete o) := rfl

theorem create_frame (hc : c.Reachable hash) {o : Obj} (ho : Obj.Ok o) {c' : VCache} (h : c.clientCreate hash o = some c') :
    c'.Reachable hash ∧ ∀ g k, cacheKey (objKey o) ≠ cacheKey k → c'.get g k = c.get g k := by
  have e : c' = c.step hash (.add o) := by rw [← create_step, h]; rfl
  refine ⟨by rw [e]; exact hc.step hash (op := .add o) ho, ?_⟩
  intro g k hk
  rw [e, VCache.add_spec hc.inv hash ho, if_neg]
  exact fun x => hk x.2.1

theorem update_frame (hc : c.Reachable hash) {old o : Obj} (hold : Obj.Ok old) (ho : Obj.Ok o) {c' : VCache} (h : c.update hash old o = some c') :
    c'.Reachable hash ∧ ∀ g k, cacheKey (objKey o) ≠ cacheKey k → c'.get g k = c.get g k := by
  have e : c' = c.step hash (.update old o) := by rw [VCache.step, h]; rfl
  refine ⟨by rw [e]; exact hc.step hash (op := .update old o) ⟨hold, ho⟩, ?_⟩
  intro g k hk
  rw [e, VCache.update_spec hc.inv hash ho hold, if_neg]
  exact fun x => hk x.2.1

theorem clientUpdate_frame (hc : c.Reachable hash) {o : Obj} (ho : Obj.Ok o) {c' : VCache} (h : c.clientUpdate hash o = some c') :
    c'.Reachable hash ∧ ∀ g k, cacheKey (objKey o) ≠ cacheKey k → c'.get g k = c.get g k := by
  rw [clientUpdate_eq] at h
  cases hg : c.get (VCache.clientKind o) (objKey o) with
  | none => rw [hg] at h; cases h
  | some old =>
    rw [hg, Option.bind_some] at h
    split at h
    · cases h; exact ⟨hc, fun _ _ _ => rfl⟩
    · exact update_frame hc (hc.inv.get_key hg).2.2.1 ho h

theorem clientDelete_frame (hc : c.Reachable hash) {o : Obj} (ho : Obj.Ok o) :
    ((c.clientDelete o).getD c).Reachable hash ∧ ∀ g k, cacheKey (objKey o) ≠ cacheKey k → ((c.clientDelete o).getD c).get g k = c.get g k := by
  rw [delete_step (hash := hash)]
  refine ⟨hc.step hash (op := .delete o) ho, ?_⟩
  intro g k hk
  rw [VCache.delete_spec hc.inv hash ho, if_neg]
  exact fun x => hk x.2.1

theorem stoCreate_frame (hc : c.Reachable hash) (t : GVK) (ns : String) {o : Obj} (ho : Obj.Ok o) (hm : PlainMeta o) :
    (stoCreate hash c t ns o).1.Reachable hash ∧
    (∀ g k, cacheKey (ns, (objKey o).2) ≠ cacheKey k → (stoCreate hash c t ns o).1.get g k = c.get g k) ∧
    ∀ x, (stoCreate hash c t ns o).2 = some x → (objKey x).1 = ns := by
  unfold stoCreate
  have hk := stoPrepare_key ho hm t ns
  cases h : c.clientCreate hash (stoPrepare t ns o) with
  | none => exact ⟨hc, fun _ _ _ => rfl, fun _ h => by cases h⟩
  | some c' =>
    have hf := create_frame hc (stoPrepare_ok ho t ns) h
    rw [hk] at hf
    refine ⟨hf.1, hf.2, ?_⟩
    intro x hx
    simp only [Option.some.injEq] at hx
    rw [← hx, hk]

theorem stoGet_key (hc : c.Reachable hash) (hp : c.Plain) {t : GVK} {ns name : String} (hns : ObjKey.NoSlash (ns, name)) {o : Obj}
    (h : stoGet c t ns name = some o) : objKey o = (ns, name) := cacheKey_inj (hp _ _ _ h) hns (hc.inv.get_key h).2.1

theorem stoUpdate_frame (hc : c.Reachable hash) (t : GVK) (ns name : String) {q : StoReq} (hq : q.Checked ns name) :
    (∀ g k, (∀ m, cacheKey (ns, m) ≠ cacheKey k) → (stoUpdate hash c t ns name q).1.get g k = c.get g k) ∧
    ∀ x, (stoUpdate hash c t ns name q).2 = some x → (objKey x).1 = ns := by
  unfold stoUpdate
  cases hg : stoGet c t ns name with
  | none =>
    cases hu : q.allowCreate with
    | false => exact ⟨fun _ _ _ => rfl, fun _ h => by simp at h⟩
    | true =>
      simp only [if_true]
      cases hx : q.updated none with
      | none => exact ⟨fun _ _ _ => rfl, fun _ h => by cases h⟩
      | some o =>
        have hf := stoCreate_frame hc t ns (hq.updated _ _ hx).1 (hq.updated _ _ hx).2
        exact ⟨fun g k hk => hf.2.1 g k (hk _), hf.2.2⟩
  | some cur =>
    simp only
    cases hx : q.updated (some cur) with
    | none => exact ⟨fun _ _ _ => rfl, fun _ h => by cases h⟩
    | some o =>
      have ho := (hq.updated _ _ hx).1
      have hk := hq.keeps _ _ hx
      simp only
      cases h : c.clientUpdate hash (setGVK o t) with
      | none => exact ⟨fun _ _ _ => rfl, fun _ h => by cases h⟩
      | some c' =>
        have hf := clientUpdate_frame hc (setGVK_canon ho) h
        rw [setGVK_key ho, hk] at hf
        refine ⟨fun g k hk' => hf.2 g k (hk' _), ?_⟩
        intro x hx'
        simp only [Option.some.injEq] at hx'
        rw [← hx', setGVK_key ho, hk]

theorem stoDelete_frame (hc : c.Reachable hash) (t : GVK) (ns name : String) :
    (∀ g k, cacheKey (ns, name) ≠ cacheKey k → (stoDelete c t ns name).1.get g k = c.get g k) ∧
    ∀ x, (stoDelete c t ns name).2 = some x → stoGet c t ns name = some x := by
  unfold stoDelete
  cases hg : stoGet c t ns name with
  | none => exact ⟨fun _ _ _ => rfl, fun _ h => by cases h⟩
  | some o =>
    have hk := hc.inv.get_key hg
    have hf := clientDelete_frame hc hk.2.2.1
    rw [hk.2.1] at hf
    simp only
    cases h : c.clientDelete o with
    | none => exact ⟨fun _ _ _ => rfl, fun _ h => by cases h⟩
    | some c' =>
      rw [h] at hf
      exact ⟨hf.2, fun x hx => hx⟩

theorem stoDeleteEach_frame (l : List Obj) (hc : c.Reachable hash) (hl : ∀ o ∈ l, Obj.Ok o) (g : GVK) (k : ObjKey)
    (hk : ∀ o ∈ l, cacheKey (objKey o) ≠ cacheKey k) : (stoDeleteEach c l).get g k = c.get g k := by
  induction l generalizing c with
  | nil => rfl
  | cons o l ih =>
    have hf := clientDelete_frame hc (hl o (by simp))
    rw [stoDeleteEach, ih hf.1 (fun x hx => hl x (List.mem_cons_of_mem _ hx)) (fun x hx => hk x (List.mem_cons_of_mem _ hx)), hf.2 g k (hk o (by simp))]

theorem stoList_mem (hc : c.Reachable hash) {t : GVK} {ns : String} {q : StoReq} {l : List Obj} (h : stoList c t ns q = some l) {o : Obj} (ho : o ∈ l) :
    (stoSelect ns q).includes o = true ∧ ∃ k, c.get (objFromList (stoListKind t)) k = some o := ((C40_list hash hc _ _ l h).1 o).1 ho

theorem includes_ns {ns : String} {q : StoReq} {o : Obj} (h0 : ns ≠ "") (h : (stoSelect ns q).includes o = true) : (objKey o).1 = ns := by
  unfold Select.includes stoSelect at h
  simp only [Bool.and_eq_true, Bool.or_eq_true, beq_iff_eq] at h
  exact h.1.1.resolve_left h0

/-- Deleting objects that are stored, one by one. -/
theorem stoDeleteEach_eq (hc : c.Reachable hash) (g : GVK) (l : List Obj) (hl : ∀ o ∈ l, c.get g (objKey o) = some o)
    (hn : (l.map (fun o => cacheKey (objKey o))).Nodup) : c.deleteEach l = some (stoDeleteEach c l) := by
  induction l generalizing c with
  | nil => rfl
  | cons o l ih =>
    have ho := hl o (by simp)
    have hk := hc.inv.get_key ho
    obtain ⟨c1, h1, h1'⟩ := C44_delete hash hc o o hk.2.2.1 (by rw [hk.1]; exact ho)
    have hc1 : c1.Reachable hash := by
      have := (clientDelete_frame hc hk.2.2.1).1
      rw [h1] at this; exact this
    simp only [List.map_cons, List.nodup_cons] at hn
    have hne : ∀ x ∈ l, cacheKey (objKey o) ≠ cacheKey (objKey x) := fun x hx e => hn.1 (by rw [e]; exact List.mem_map.mpr ⟨x, hx, rfl⟩)
    rw [stoDeleteEach, h1, Option.getD_some, VCache.deleteEach, show c.delete o = some c1 from h1]
    exact ih hc1 (fun x hx => by rw [h1', if_neg (fun h => hne x hx h.2)]; exact hl x (List.mem_cons_of_mem _ hx)) hn.2

end Dctl
