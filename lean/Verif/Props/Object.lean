import Verif.Controller.TargetLemmas
import Verif.Controller.Secret
/-!
# UIDs of view objects and secrets (C28, C29, C62)
-/
set_option autoImplicit false
namespace Dctl

/-! ## C28 -/

/-- **C28** (function of the identity): view objects with the same kind, namespace and name that have no UID get the same one, whatever else they contain. -/
theorem C28_function (hash : String → String) (a b : SMap Json) (hv : isViewKind (objGVK a) = true) (hg : objGVK a = objGVK b) (hk : objKey a = objKey b)
    (ha : objUID a = "") (hb : objUID b = "") (ma mb : SMap Json) (hma : SMap.get a "metadata" = some (.map ma)) (hmb : SMap.get b "metadata" = some (.map mb))
    (hca : (Json.map a).Canon) (hcb : (Json.map b).Canon) : objUID (withUID hash a) = objUID (withUID hash b) ∧
      objUID (withUID hash a) = hash ((objGVK a).group ++ "/" ++ (objGVK a).version ++ "/" ++ (objGVK a).kind ++ "/" ++ (objKey a).1 ++ "/" ++ (objKey a).2) := by
  have key : ∀ (m md : SMap Json), (Json.map m).Canon → SMap.get m "metadata" = some (.map md) → isViewKind (objGVK m) = true → objUID m = "" →
      objUID (withUID hash m) = newUID hash (objGVK m) (objKey m).1 (objKey m).2 := by
    intro m md hm hmd h1 h2
    rw [withUID, h1, h2]
    simp only [Bool.not_true, bne_self_eq_false, Bool.or_self, Bool.false_eq_true, if_false]
    rw [setStr_two _ hmd, objUID, nestedString, nested_two (by rw [SMap.get_set _ hm.sorted, if_pos rfl])]
    by_cases e : newUID hash (objGVK m) (objKey m).1 (objKey m).2 = ""
    · rw [if_pos e, SMap.get_erase _ (hm.val hmd).sorted]; simp [e]
    · rw [if_neg e, SMap.get_set _ (hm.val hmd).sorted]; simp
  have h1 := key a ma hca hma hv ha
  have h2 := key b mb hcb hmb (hg ▸ hv) hb
  exact ⟨by rw [h1, h2, hg, hk], h1⟩

/-- **C28** (nothing else): attaching or removing a UID changes nothing except `metadata.uid`. -/
theorem C28_only_uid (hash : String → String) (m : SMap Json) (hm : (Json.map m).Canon) (p : List String) (h1 : ¬ ["metadata", "uid"] <+: p)
    (h2 : ¬ p <+: ["metadata", "uid"]) : nested (withUID hash m) p = nested m p ∧ nested (removeUID m) p = nested m p :=
  ⟨withUID_off hm h1 h2, removeUID_off hm h1 h2⟩

/-- **C28** (native objects): objects of other kinds are left alone. -/
theorem C28_native (hash : String → String) (m : SMap Json) (h : isViewKind (objGVK m) = false) : withUID hash m = m ∧ removeUID m = m := by
  simp [withUID, removeUID, h]

/-- **C28** (round trip): removing the UID that was attached gives the object back. -/
theorem C28_roundtrip (hash : String → String) (hh : ∀ s, hash s ≠ "") (m md : SMap Json) (hm : (Json.map m).Canon)
    (hmd : SMap.get m "metadata" = some (.map md)) (hu : SMap.get md "uid" = none) : removeUID (withUID hash m) = m := by
  have hmds : SMap.Sorted md := (hm.val hmd).sorted
  have huid : objUID m = "" := by rw [objUID, nestedString, nested_two hmd, hu]
  by_cases hv : isViewKind (objGVK m) = true
  · have e : withUID hash m = SMap.set m "metadata" (.map (SMap.set md "uid" (.str (newUID hash (objGVK m) (objKey m).1 (objKey m).2)))) := by
      rw [withUID, hv, huid]
      simp only [Bool.not_true, bne_self_eq_false, Bool.or_self, Bool.false_eq_true, if_false]
      rw [setStr_two _ hmd, if_neg (show newUID hash (objGVK m) (objKey m).1 (objKey m).2 ≠ "" from hh _)]
    have hg : objGVK (withUID hash m) = objGVK m :=
      objGVK_congr (by rintro k (rfl | rfl) <;> exact withUID_off hm (by decide) (by decide))
    have hu2 : objUID (withUID hash m) ≠ "" := by
      rw [e, objUID, nestedString, nested_two (by rw [SMap.get_set _ hm.sorted, if_pos rfl]), SMap.get_set _ hmds, if_pos rfl]
      exact hh _
    rw [removeUID, hg, hv]
    simp only [Bool.not_true, Bool.false_or, beq_iff_eq, if_neg hu2]
    rw [e, removeNested_two (by rw [SMap.get_set _ hm.sorted, if_pos rfl]), set_set hm.sorted]
    have : SMap.erase (SMap.set md "uid" (.str (newUID hash (objGVK m) (objKey m).1 (objKey m).2))) "uid" = md := by
      refine SMap.ext ((hmds.set _ _).erase _) hmds (fun k => ?_)
      rw [SMap.get_erase _ (hmds.set _ _), SMap.get_set _ hmds]
      by_cases e : "uid" = k
      · rw [if_pos e, ← e, hu]
      · rw [if_neg e, if_neg e]
    rw [this, set_get_self hm.sorted hmd]
  · have := C28_native hash m (by simpa using hv)
    rw [this.1, this.2]

theorem slash_split {a b c d : List Char} (ha : '/' ∉ a) (hc : '/' ∉ c) (h : a ++ '/' :: b = c ++ '/' :: d) : a = c ∧ b = d := by
  induction a generalizing c with
  | nil =>
    cases c with
    | nil => simpa using h
    | cons x c => simp at h; exact absurd h.1 (by rintro rfl; exact hc (by simp))
  | cons x a ih =>
    cases c with
    | nil => simp at h; exact absurd h.1 (by rintro rfl; exact ha (by simp))
    | cons y c =>
      simp only [List.cons_append, List.cons.injEq] at h
      obtain ⟨rfl, h⟩ := h
      obtain ⟨rfl, rfl⟩ := ih (by simp at ha; exact ha.2) (by simp at hc; exact hc.2) h
      exact ⟨rfl, rfl⟩

theorem slash_string {a b c d : String} (ha : '/' ∉ a.toList) (hc : '/' ∉ c.toList) (h : a ++ "/" ++ b = c ++ "/" ++ d) : a = c ∧ b = d := by
  have h' := congrArg String.toList h
  simp only [String.toList_append] at h'
  have e : "/".toList = ['/'] := by decide
  rw [e, List.append_assoc, List.append_assoc] at h'
  obtain ⟨h1, h2⟩ := slash_split ha hc h'
  exact ⟨String.toList_injective h1, String.toList_injective h2⟩

/-- **C28** (different objects): if the hash has no collisions, objects of different kind, namespace or name get different UIDs, provided that group,
version, kind and namespace contain no slash, as Kubernetes demands. -/
theorem C28_distinct (hash : String → String) (hh : ∀ a b, hash a = hash b → a = b) (t t' : GVK) (ns ns' n n' : String)
    (h1 : ∀ s ∈ [t.group, t.version, t.kind, ns], '/' ∉ s.toList) (h2 : ∀ s ∈ [t'.group, t'.version, t'.kind, ns'], '/' ∉ s.toList)
    (h : newUID hash t ns n = newUID hash t' ns' n') : t = t' ∧ ns = ns' ∧ n = n' := by
  have h := hh _ _ h
  simp only [List.mem_cons, List.not_mem_nil, or_false, forall_eq_or_imp, forall_eq] at h1 h2
  simp only [String.append_assoc] at h
  have assoc : ∀ a b : String, a ++ ("/" ++ b) = a ++ "/" ++ b := fun a b => by rw [String.append_assoc]
  rw [assoc t.group, assoc t'.group] at h
  obtain ⟨e1, h⟩ := slash_string h1.1 h2.1 h
  rw [assoc t.version, assoc t'.version] at h
  obtain ⟨e2, h⟩ := slash_string h1.2.1 h2.2.1 h
  rw [assoc t.kind, assoc t'.kind] at h
  obtain ⟨e3, h⟩ := slash_string h1.2.2.1 h2.2.2.1 h
  rw [assoc ns, assoc ns'] at h
  obtain ⟨e4, h⟩ := slash_string h1.2.2.2 h2.2.2.2 h
  refine ⟨?_, e4, h⟩
  cases t; cases t'; simp only at e1 e2 e3; rw [e1, e2, e3]

/-- A view object that already has a UID keeps it. -/
theorem C28_existing_kept (hash : String → String) (m : SMap Json) (h : objUID m ≠ "") : withUID hash m = m := by
  rw [withUID]; simp [h]

/-- Non-trivial instance of the hypotheses of C28. -/
example : let m : SMap Json := [("apiVersion", .str "op.view.dcontroller.io/v1alpha1"), ("kind", .str "V"), ("metadata", .map [("name", .str "a")]), ("spec", .int 1)]
    isViewKind (objGVK m) = true ∧ objUID m = "" ∧ (Json.map m).Canon ∧
    withUID (fun s => "#" ++ s) m = [("apiVersion", .str "op.view.dcontroller.io/v1alpha1"), ("kind", .str "V"),
      ("metadata", .map [("name", .str "a"), ("uid", .str "#op.view.dcontroller.io/v1alpha1/V//a")]), ("spec", .int 1)] := by decide

/-! ## C29 -/

/-- **C29** (data): in a Secret every string under `data` that is valid base64 becomes its decoded text; everything else under `data` stays. -/
theorem C29_data (b64 : String → Option String) (m d : SMap Json) (hm : (Json.map m).Canon) (hk : nestedString m ["kind"] = "Secret")
    (hd : SMap.get m "data" = some (.map d)) (k : String) :
    (∀ s t, nested m ["data", k] = some (.str s) → b64 s = some t → nested (decodeSecret b64 m) ["data", k] = some (.str t)) ∧
    (∀ s, nested m ["data", k] = some (.str s) → b64 s = none → nested (decodeSecret b64 m) ["data", k] = some (.str s)) ∧
    (∀ v, nested m ["data", k] = some v → (∀ s, v ≠ .str s) → nested (decodeSecret b64 m) ["data", k] = some v) ∧
    (nested m ["data", k] = none → nested (decodeSecret b64 m) ["data", k] = none) := by
  have : nested (decodeSecret b64 m) ["data", k] = (nested m ["data", k]).map (decodeVal b64) := by
    rw [decodeSecret, if_pos hk, hd]
    simp only
    rw [nested_two (by rw [SMap.get_set _ hm.sorted, if_pos rfl]), SMap.get_mapVal, nested_two hd]
  rw [this]
  refine ⟨fun s t h1 h2 => by rw [h1]; simp [decodeVal, h2], fun s h1 h2 => by rw [h1]; simp [decodeVal, h2], fun v h1 h2 => ?_, fun h => by rw [h]; rfl⟩
  rw [h1]
  cases v with
  | str s => exact absurd rfl (h2 s)
  | _ => rfl

/-- **C29** (other fields): nothing outside `data` changes, at any depth. -/
theorem C29_other (b64 : String → Option String) (m : SMap Json) (hm : (Json.map m).Canon) (k : String) (p : List String) (hk : k ≠ "data") :
    nested (decodeSecret b64 m) (k :: p) = nested m (k :: p) := by
  rw [decodeSecret]
  split
  · split
    · rw [nested_cons, nested_cons, SMap.get_set _ hm.sorted, if_neg (fun h => hk h.symm)]
    · rfl
  · rfl

/-- **C29** (other objects): objects that are no Secret do not change. -/
theorem C29_not_secret (b64 : String → Option String) (m : SMap Json) (hk : nestedString m ["kind"] ≠ "Secret") : decodeSecret b64 m = m := by
  rw [decodeSecret, if_neg hk]

theorem decodeSecret_canon (b64 : String → Option String) {m : SMap Json} (hm : (Json.map m).Canon) : (Json.map (decodeSecret b64 m)).Canon := by
  rw [decodeSecret]
  split
  · split
    · rename_i d hd
      refine hm.set ?_
      have hdc := Json.canon_map.mp (hm.val hd)
      rw [Json.canon_map]
      refine ⟨hdc.1.mapVal _, ?_⟩
      intro p hp
      simp only [SMap.mapVal, List.mem_map] at hp
      obtain ⟨q, hq, rfl⟩ := hp
      have := hdc.2 q hq
      obtain ⟨k, v⟩ := q
      cases v with
      | str s => simp only [decodeVal]; split <;> trivial
      | _ => exact this
    · exact hm
  · exact hm

/-- Non-trivial instance of the hypotheses of C29. -/
example : decodeSecret (fun s => if s = "aGk=" then some "hi" else none) [("data", .map [("a", .str "aGk="), ("b", .str "?"), ("c", .int 1)]), ("kind", .str "Secret")] =
    [("data", .map [("a", .str "hi"), ("b", .str "?"), ("c", .int 1)]), ("kind", .str "Secret")] := by decide

/-! ## C62 -/

/-- **C62** (partial): if no decoded value is valid base64 itself, the pipeline sees the Secret decoded exactly once on every attempt.
Missing: the claim for other Secrets, which is false (`C62_retry_decodes_again`). -/
theorem C62_decoded_once_partial (b64 : String → Option String) (m : SMap Json) (hm : (Json.map m).Canon)
    (h : ∀ s t, b64 s = some t → b64 t = none) (n : Nat) : pipelineObj b64 m n = decodeSecret b64 m := by
  have idem : decodeSecret b64 (decodeSecret b64 m) = decodeSecret b64 m := by
    by_cases hk : nestedString m ["kind"] = "Secret"
    · cases hd : SMap.get m "data" with
      | none =>
        have : decodeSecret b64 m = m := by rw [decodeSecret, if_pos hk, hd]
        rw [this, this]
      | some j =>
        by_cases hj : ∃ d, j = .map d
        · obtain ⟨d, rfl⟩ := hj
          have hkk : nestedString (decodeSecret b64 m) ["kind"] = "Secret" := by
            rw [nestedString_congr (C29_other b64 m hm "kind" [] (by decide)), hk]
          have hs : SMap.Sorted (decodeSecret b64 m) := (decodeSecret_canon b64 hm).sorted
          have e := decodeSecret.eq_def b64 m
          rw [if_pos hk, hd] at e
          simp only at e
          rw [decodeSecret.eq_def b64 (decodeSecret b64 m), if_pos hkk, e, SMap.get_set _ hm.sorted, if_pos rfl]
          simp only
          rw [set_set hm.sorted]
          congr 2
          simp only [SMap.mapVal, List.map_map]
          apply List.map_congr_left
          rintro ⟨k, v⟩ _
          simp only [Function.comp]
          cases v with
          | str s =>
            cases hb : b64 s with
            | none => simp [decodeVal, hb]
            | some t => simp [decodeVal, hb, h s t hb]
          | _ => rfl
        · have : decodeSecret b64 m = m := by
            rw [decodeSecret, if_pos hk, hd]
            cases j with
            | map d => exact absurd ⟨d, rfl⟩ hj
            | _ => rfl
          rw [this, this]
    · have : decodeSecret b64 m = m := C29_not_secret b64 m hk
      rw [this, this]
  have hreq : ∀ n, requestObj b64 m (n + 1) = decodeSecret b64 m := by
    intro n
    induction n with
    | zero => rfl
    | succ n ih => rw [requestObj, ih, idem]
  exact hreq n

/-- Not **C62**: after one failed attempt the data is decoded twice. The value is the base64 text of `aGkh`, which is the base64 text of `hi!`. -/
theorem C62_retry_decodes_again :
    let b64 : String → Option String := fun s => if s = "YUdraA==" then some "aGkh" else if s = "aGkh" then some "hi!" else none
    let m : SMap Json := [("data", .map [("k", .str "YUdraA==")]), ("kind", .str "Secret")]
    pipelineObj b64 m 0 = [("data", .map [("k", .str "aGkh")]), ("kind", .str "Secret")] ∧
    pipelineObj b64 m 1 = [("data", .map [("k", .str "hi!")]), ("kind", .str "Secret")] := by decide

/-- Not **C62**: a Patcher that labels the Secret it watches stores the decoded data in it. -/
theorem C62_patcher_writes_decoded :
    let b64 : String → Option String := fun s => if s = "aGkh" then some "hi!" else none
    let t : GVK := ⟨"", "v1", "Secret"⟩
    let m : SMap Json := [("apiVersion", .str "v1"), ("data", .map [("k", .str "aGkh")]), ("kind", .str "Secret"), ("metadata", .map [("name", .str "s")])]
    let d : SMap Json := [("metadata", .map [("labels", .map [("a", .str "1")]), ("name", .str "s")])]
    (reconcileWrite b64 t true [((t, ("", "s")), m)] m .upserted d).map (·.get (t, ("", "s"))) =
      some (some [("apiVersion", .str "v1"), ("data", .map [("k", .str "hi!")]), ("kind", .str "Secret"),
        ("metadata", .map [("labels", .map [("a", .str "1")]), ("name", .str "s")])]) := by decide

/-- Non-trivial instance of the hypotheses of C62. -/
example : (∀ s t, (fun s : String => if s = "aGk=" then some "hi" else none) s = some t → (fun s : String => if s = "aGk=" then some "hi" else none) t = none) := by
  intro s t h
  simp only at h
  split at h
  · simp at h; subst h; decide
  · simp at h

end Dctl
