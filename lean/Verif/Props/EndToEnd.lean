import Verif.Controller.EndLemmas
import Verif.Props.Pipeline
/-!
# C74, C75: from result documents to objects in the cluster
-/
set_option autoImplicit false
namespace Dctl
variable {J : Type} [DecidableEq J]

/-! ## C74 -/

/-- **C74** (which documents): a result document becomes an object exactly if it has a metadata map with a nonempty name and no namespace that is not a
string. -/
theorem C74_accepted_iff (t : GVK) (m : SMap Json) (hm : (Json.map m).Canon) :
    (∃ r, enforceDoc t m = .ok r) ↔ ∃ md name, SMap.get m "metadata" = some (.map md) ∧ SMap.get md "name" = some (.str name) ∧ name ≠ "" ∧
      ∀ v, SMap.get md "namespace" = some v → ∃ ns, v = .str ns := by
  constructor
  · rintro ⟨r, h⟩
    obtain ⟨md, name, h1, h2, h3, h4, _⟩ := (enforceDoc_ok hm).mp h
    refine ⟨md, name, h1, h2, h3, fun v hv => ?_⟩
    rcases h4 with h4 | ⟨ns, h4⟩
    · rw [h4] at hv; cases hv
    · rw [h4] at hv; exact ⟨ns, (Option.some.inj hv).symm⟩
  · rintro ⟨md, name, h1, h2, h3, h4⟩
    refine ⟨_, (enforceDoc_ok hm).mpr ⟨md, name, h1, h2, h3, ?_, rfl⟩⟩
    cases hv : SMap.get md "namespace" with
    | none => exact .inl rfl
    | some v => obtain ⟨ns, rfl⟩ := h4 v hv; exact .inr ⟨ns, rfl⟩

/-- **C74** (which object): the object has the kind and API version of the target, the name and namespace of the document, and the document's other
fields. -/
theorem C74_object (t : GVK) (m r : SMap Json) (hm : (Json.map m).Canon) (h : enforceDoc t m = .ok r) :
    SMap.get r "kind" = some (.str t.kind) ∧ SMap.get r "apiVersion" = some (.str (gvString t)) ∧
    (objKey r).2 ≠ "" ∧ objKey r = (nestedString m ["metadata", "namespace"], nestedString m ["metadata", "name"]) ∧
    (∀ k, k ≠ "kind" → k ≠ "apiVersion" → k ≠ "metadata" → SMap.get r k = SMap.get m k) ∧
    ∀ k p, k ≠ "namespace" → nested r ("metadata" :: k :: p) = nested m ("metadata" :: k :: p) := by
  obtain ⟨md, name, h1, h2, h3, h4, rfl⟩ := (enforceDoc_ok hm).mp h
  have hs := hm.sorted
  have hmd : SMap.Sorted md := (hm.val h1).sorted
  have hg := enforced_get (t := t) (md := md) hs
  have hmeta := hg "metadata"
  rw [if_pos rfl] at hmeta
  have hname : nestedString m ["metadata", "name"] = name := by
    simp only [nestedString, nested_cons, h1]; simp [Json.at, Json.field, h2]
  have hfields : ∀ k p, k ≠ "namespace" → nested (enforced t m md) ("metadata" :: k :: p) = nested m ("metadata" :: k :: p) := by
    intro k p hk
    rw [nested_cons, nested_cons, hmeta, h1]
    split
    · simp only [Option.bind_some, at_cons, Json.field]
      rw [SMap.get_erase _ hmd, if_neg (Ne.symm hk)]
    · rfl
  have hn : nestedString (enforced t m md) ["metadata", "name"] = name := by
    rw [nestedString, hfields "name" [] (by decide)]
    exact hname
  have hns : nestedString (enforced t m md) ["metadata", "namespace"] = nestedString m ["metadata", "namespace"] := by
    by_cases e : nestedString m ["metadata", "namespace"] = ""
    · rw [if_pos e] at hmeta
      rw [e, nestedString, nested_cons, hmeta]
      simp [at_cons, Json.field, SMap.get_erase _ hmd]
    · rw [if_neg e] at hmeta
      rw [nestedString, nested_cons, hmeta, nestedString, nested_cons, h1]
  refine ⟨?_, ?_, ?_, ?_, ?_, hfields⟩
  · rw [hg]; simp
  · rw [hg]; simp
  · simp only [objKey]; rw [hn]; exact h3
  · simp only [objKey]; rw [hn, hns, hname]
  · intro k a b c
    rw [hg, if_neg c, if_neg a, if_neg b]

theorem gv_round {t : GVK} (hg : '/' ∉ t.group.toList) (hv : '/' ∉ t.version.toList) : parseGroupVersion (gvString t) = some (t.group, t.version) := by
  by_cases he : t.group = ""
  · rw [gvString, if_pos he, parseGroupVersion]
    have hne : t.version ≠ "/" := by
      intro h; rw [h] at hv; exact hv (by decide)
    by_cases h0 : t.version = ""
    · simp [h0, he]
    · rw [if_neg (by simp [h0, hne]), List.count_eq_zero.mpr hv, he]
      rfl
  · have hl : (gvString t).toList = t.group.toList ++ '/' :: t.version.toList := by
      rw [gvString, if_neg he, String.toList_append, String.toList_append, List.append_assoc]; rfl
    have hc : (gvString t).toList.count '/' = 1 := by
      rw [hl, List.count_append, List.count_cons_self, List.count_eq_zero.mpr hg, List.count_eq_zero.mpr hv]
    have hgl : t.group.toList ≠ [] := fun h => he (String.toList_injective (by rw [h]; rfl))
    have htake : (gvString t).toList.takeWhile (· ≠ '/') = t.group.toList := by
      rw [hl, List.takeWhile_append_of_pos (fun a ha => by simpa using fun h : a = '/' => hg (h ▸ ha))]; simp
    have hdrop : (gvString t).toList.dropWhile (· ≠ '/') = '/' :: t.version.toList := by
      rw [hl, List.dropWhile_append_of_pos (fun a ha => by simpa using fun h : a = '/' => hg (h ▸ ha))]; simp
    have hn1 : gvString t ≠ "" := by
      intro h; rw [h] at hc; exact absurd hc (by decide)
    have hn2 : gvString t ≠ "/" := by
      intro h
      rw [h] at hl
      have := congrArg List.length hl
      have h1 := List.length_pos_iff.mpr hgl
      simp at this
      omega
    rw [parseGroupVersion, if_neg (by simp [hn1, hn2]), hc]
    simp only [htake, hdrop, List.drop_succ_cons, List.drop_zero, String.ofList_toList]

/-- **C74** (kinds): group, version and kind of the object are read back as those of the target. -/
theorem C74_kind (t : GVK) (hg : '/' ∉ t.group.toList) (hv : '/' ∉ t.version.toList) (m r : SMap Json) (hm : (Json.map m).Canon) (h : enforceDoc t m = .ok r) : objGVK r = t := by
  obtain ⟨a1, a2, _⟩ := C74_object t m r hm h
  have e1 : nestedString r ["apiVersion"] = gvString t := by simp only [nestedString, nested, Json.at, Json.field, a2]
  have e2 : nestedString r ["kind"] = t.kind := by simp only [nestedString, nested, Json.at, Json.field, a1]
  unfold objGVK
  rw [e1, gv_round hg hv, e2]

/-- **C74** (all writes): after any events and syncs, successful or not, everything ever written is an upsert or a delete of an object of the target kind
with a nonempty name. -/
theorem C74_writes (p0 : Pipe CDoc J) (hist : List (EvalOrder CDoc × Option (Delta CDoc))) (hω : ∀ e ∈ hist, e.1.Valid) :
    ∀ w ∈ emitted (runs (Pipe.step jsonOps) p0 hist).2, (w.type = .upserted ∨ w.type = .deleted) ∧ (objKey w.obj.1).2 ≠ "" ∧
      SMap.get w.obj.1 "kind" = some (.str p0.target.kind) ∧ SMap.get w.obj.1 "apiVersion" = some (.str (gvString p0.target)) := by
  intro w hw
  obtain ⟨h1, h2⟩ := runs_enforced jsonOps_lawful p0 hist hω w hw
  obtain ⟨a, b, c, _⟩ := C74_object p0.target w.obj.1 w.obj.1 w.obj.2 (jsonOps_enforce.mp h2)
  exact ⟨h1, c, a, b⟩

example : '/' ∉ viewK.group.toList ∧ '/' ∉ viewK.version.toList := by decide

-- a result document of kind Pod with an empty namespace, and the View object made of it
example : enforceDoc viewK [("kind", .str "Pod"), ("metadata", .map [("name", .str "a"), ("namespace", .str "")]), ("spec", .int 1)] =
    .ok [("apiVersion", .str "v1"), ("kind", .str "View"), ("metadata", .map [("name", .str "a")]), ("spec", .int 1)] := by rfl
example : (Json.map [("kind", .str "Pod"), ("metadata", .map [("name", .str "a"), ("namespace", .str "")]), ("spec", .int 1)]).Canon := by decide
-- no object: the namespace is a number
example : ¬ ∃ r, enforceDoc viewK [("metadata", .map [("name", .str "a"), ("namespace", .int 1)])] = .ok r := by
  rw [C74_accepted_iff _ _ (by decide)]
  rintro ⟨md, name, h1, _, _, h4⟩
  cases h1
  obtain ⟨ns, h⟩ := h4 (.int 1) (by decide)
  cases h

/-- A JSON pod, used in the examples. -/
def podDoc (n : String) (v : Int) : CDoc :=
  ⟨[("apiVersion", .str "v1"), ("kind", .str "Pod"), ("metadata", .map [("labels", .map [("app", .str n)]), ("name", .str n)]), ("spec", .int v)], by
    simp [SMap.Sorted, Json.Canon, Json.CanonM]⟩

/-- Pods except those with spec 1. -/
def exSelJson : List (PipeOp CDoc Nat) := [.select (fun d => .ok (if SMap.get d.1 "spec" = some (.int 1) then [] else [d]))]

/-- The pipeline over JSON pods. -/
def exJsonPipe : Pipe CDoc Nat :=
  match Pipe.new viewK [podK] exSelJson with
  | .ok p => p
  | .error _ => { sources := [], target := viewK, graph := {} }

/-- A history of JSON pods: added, updated, filtered out, deleted. -/
def exJsonHist : List (EvalOrder CDoc × Delta CDoc) :=
  [(ω0, ⟨.added, podDoc "a" 2⟩), (ω1, ⟨.added, podDoc "b" 5⟩), (ω0, ⟨.updated, podDoc "a" 3⟩), (ω1, ⟨.added, podDoc "c" 1⟩), (ω0, ⟨.deleted, podDoc "b" 5⟩)]

/-! ## C75 -/

/-- `obj` in the cluster is the image of the computed object `x`: same name, same content apart from the metadata, and all labels and annotations of `x`. -/
def IsImage (x obj : SMap Json) : Prop :=
  (∀ k, k ≠ "metadata" → SMap.get obj k = SMap.get x k) ∧ objKey obj = objKey x ∧
  ∀ f, f = "labels" ∨ f = "annotations" → ∀ l, getStrings x f = some l →
    ∃ l', getStrings obj f = some l' ∧ ∀ k v, SMap.get l k = some v → SMap.get l' k = some v

/-- The cluster after the writes of an Updater target, made one after the other without failures or interference. -/
def clusterAfter (t : GVK) (c : Cluster) (ws : List (Delta CDoc)) : Cluster :=
  ws.foldl (fun c w => (targetWrite t false c c w.type w.obj.1 none).getD c) c

/-- The cluster holds exactly images of the objects of `T`. -/
structure Images (t : GVK) (T : Target CDoc) (c : Cluster) : Prop where
  wf : AMap.WF c
  absent : ∀ k, T k = none → c.get (t, k) = none
  present : ∀ k x, T k = some x → objKey x.1 = k ∧ (objKey x.1).2 ≠ "" ∧ ∃ obj, c.get (t, k) = some obj ∧ (Json.map obj).Canon ∧ IsImage x.1 obj

theorem setGVK_fixed {t : GVK} {m : SMap Json} (hm : (Json.map m).Canon) (h1 : SMap.get m "kind" = some (.str t.kind))
    (h2 : SMap.get m "apiVersion" = some (.str (gvString t))) : setGVK m t = m := by
  rw [setGVK_eq, set_get_self hm.sorted h2, set_get_self hm.sorted h1]

theorem images_write {t : GVK} {T : Target CDoc} {c : Cluster} (h : Images t T c) {w : Delta CDoc} (hty : w.type = .upserted ∨ w.type = .deleted)
    (he : jsonOps.enforce t w.obj = .ok w.obj) :
    Images t (Target.write jsonOps T w) (updaterWrite t c w.type (setGVK w.obj.1 t)) ∧
    ∀ k, k.1 ≠ t → (updaterWrite t c w.type (setGVK w.obj.1 t)).get k = c.get k := by
  obtain ⟨ty, x⟩ := w
  obtain ⟨a1, a2, a3, _⟩ := C74_object t x.1 x.1 x.2 (jsonOps_enforce.mp he)
  simp only at a1 a2 a3 hty ⊢
  rw [setGVK_fixed x.2 a1 a2]
  have hframe := C46_frame t c h.wf ty x.1
  refine ⟨⟨?_, ?_, ?_⟩, fun k hk => hframe k (by rintro rfl; exact hk rfl)⟩
  · rcases hty with rfl | rfl
    · simp only [updaterWrite]; split <;> exact h.wf.set _ _
    · exact h.wf.erase _
  · intro k hk
    simp only [Target.write] at hk
    by_cases e : jsonOps.key x = k
    · rw [if_pos e] at hk
      rcases hty with rfl | rfl
      · simp at hk
      · rw [← e]; exact (C46_delete t c h.wf x.1).1
    · rw [if_neg e] at hk
      rw [hframe (t, k) (by intro x; exact e (congrArg Prod.snd x).symm)]
      exact h.absent k hk
  · intro k y hy
    simp only [Target.write] at hy
    by_cases e : jsonOps.key x = k
    · rw [if_pos e] at hy
      rcases hty with rfl | rfl
      · simp only [reduceCtorEq, if_false, Option.some.injEq] at hy
        subst hy
        have e' : objKey x.1 = k := e
        subst e'
        have hold : ∀ o, c.get (t, objKey x.1) = some o → (Json.map o).Canon ∧ ∃ y, SMap.get o "metadata" = some (.map y) := by
          intro o ho
          cases hT : T (objKey x.1) with
          | none => rw [h.absent _ hT] at ho; cases ho
          | some z =>
            obtain ⟨b1, b2, obj, b3, b4, b5⟩ := h.present _ z hT
            rw [ho] at b3
            cases b3
            exact ⟨b4, metadata_of_name (by rw [b5.2.1]; exact b2)⟩
        obtain ⟨r, r1, r2, r3, r4, r5, r6, _⟩ := C46_upsert t c .upserted x.1 (by simp) x.2 a3 hold
        refine ⟨rfl, a3, r, r1, ?_, ?_, r5, ?_⟩
        · simp only [updaterWrite] at r1
          split at r1
          · rw [AMap.get_set, if_pos rfl] at r1
            cases r1
            exact updaterMutate_canon x.2 (bareObj_canon _ _)
          · rename_i o ho
            rw [AMap.get_set, if_pos rfl] at r1
            cases r1
            exact updaterMutate_canon x.2 (hold o ho).1
        · intro k hk
          by_cases k1 : k = "kind"
          · subst k1; rw [r3, a1]
          · by_cases k2 : k = "apiVersion"
            · subst k2; rw [r4, a2]
            · exact r2 k hk k2 k1
        · intro f hf l hl
          obtain ⟨l', h1, h2⟩ := r6 f hf l hl
          exact ⟨l', h1, fun k v hv => by rw [h2, hv]; rfl⟩
      · simp at hy
    · rw [if_neg e] at hy
      obtain ⟨b1, b2, obj, b3, b4⟩ := h.present k y hy
      exact ⟨b1, b2, obj, by rw [hframe (t, k) (by intro x; exact e (congrArg Prod.snd x).symm)]; exact b3, b4⟩

theorem images_writes {t : GVK} {T : Target CDoc} {c : Cluster} (h : Images t T c) (ws : List (Delta CDoc))
    (hw : ∀ w ∈ ws, (w.type = .upserted ∨ w.type = .deleted) ∧ jsonOps.enforce t w.obj = .ok w.obj) :
    Images t (Target.writes jsonOps T ws) (clusterAfter t c ws) ∧ ∀ k, k.1 ≠ t → (clusterAfter t c ws).get k = c.get k := by
  induction ws generalizing T c with
  | nil => exact ⟨h, fun _ _ => rfl⟩
  | cons w ws ih =>
    obtain ⟨h1, h2⟩ := images_write h (hw w (by simp)).1 (hw w (by simp)).2
    obtain ⟨h3, h4⟩ := ih h1 (fun w' hw' => hw w' (List.mem_cons_of_mem _ hw'))
    exact ⟨h3, fun k hk => (h4 k hk).trans (h2 k hk)⟩

/-- **C75** (partial): a declarative controller with an Updater target, end to end. The sources deliver any watch history, the pipeline evaluates every event, and
its writes are applied to a cluster without objects of the target kind. Afterwards the cluster holds exactly the images of the objects the pipeline computes from the
live source objects, and all other kinds are untouched. Missing: what is missing in `C19_view_maintenance_partial`, and failing or reordered writes
(C23, C24). -/
theorem C75_cluster_partial {sources : List GVK} {target : GVK} {cfg : List (PipeOp CDoc J)}
    {p0 : Pipe CDoc J} (hn : (sources.map GVK.kind).Nodup) (hnew : Pipe.new target sources cfg = .ok p0)
    {hist : List (EvalOrder CDoc × Delta CDoc)} (hω : ∀ e ∈ hist, e.1.Valid) (hs : ∀ e ∈ hist, objGVK e.2.obj.1 ∈ sources)
    (hw : WatchOk jsonOps (hist.map Prod.snd))
    (hone : ∀ pre, pre <+: hist.map Prod.snd → ∀ ins o, LiveInputs jsonOps pre sources ins → PipelineSpec cfg ins o → OnePerName jsonOps target o)
    {wss : List (List (Delta CDoc))}
    (hr : (runs (fun p (e : EvalOrder CDoc × Delta CDoc) => p.evaluate jsonOps e.1 e.2) p0 hist).2 = wss.map Except.ok)
    (c0 : Cluster) (hc : AMap.WF c0) (h0 : ∀ k, c0.get (target, k) = none) :
    ∃ ins o, LiveInputs jsonOps (hist.map Prod.snd) sources ins ∧ PipelineSpec cfg ins o ∧
      (∀ k obj, (clusterAfter target c0 wss.flatten).get (target, k) = some obj →
        ∃ d x, 0 < ZSet.get o d ∧ enforceDoc target d.1 = .ok x ∧ objKey x = k ∧ IsImage x obj) ∧
      (∀ d x, 0 < ZSet.get o d → enforceDoc target d.1 = .ok x →
        ∃ obj, (clusterAfter target c0 wss.flatten).get (target, objKey x) = some obj ∧ IsImage x obj) ∧
      ∀ k, k.1 ≠ target → (clusterAfter target c0 wss.flatten).get k = c0.get k := by
  obtain ⟨ins, o, h1, h2, h3⟩ := C19_view_maintenance_partial jsonOps_lawful hn hnew hω hs hw hone hr
  have htgt : p0.target = target := by obtain ⟨g, _, rfl⟩ := pipe_new_ok hnew; rfl
  have hem : ∀ w ∈ wss.flatten, (w.type = .upserted ∨ w.type = .deleted) ∧ jsonOps.enforce target w.obj = .ok w.obj := by
    have hrun : ∀ (p : Pipe CDoc J) (hist : List (EvalOrder CDoc × Delta CDoc)),
        (runs (Pipe.step jsonOps) p (hist.map (fun e => (e.1, some e.2)))).2 =
        (runs (fun p (e : EvalOrder CDoc × Delta CDoc) => p.evaluate jsonOps e.1 e.2) p hist).2 := by
      intro p hist
      induction hist generalizing p with
      | nil => rfl
      | cons e t ih => simp only [List.map_cons, runs, Pipe.step, ih]
    have := runs_enforced jsonOps_lawful p0 (hist.map (fun e => (e.1, some e.2))) (by
      intro e he; obtain ⟨e', he', rfl⟩ := List.mem_map.mp he; exact hω e' he')
    rw [hrun, hr, htgt] at this
    intro w hw
    refine this w ?_
    simp only [emitted, List.flatMap_map, List.mem_flatMap]
    obtain ⟨l, hl, hwl⟩ := List.mem_flatten.mp hw
    exact ⟨l, hl, hwl⟩
  have hi : Images target (fun _ => none) c0 := ⟨hc, fun k _ => h0 k, fun k x hx => by cases hx⟩
  obtain ⟨h4, h5⟩ := images_writes hi wss.flatten hem
  refine ⟨ins, o, h1, h2, ?_, ?_, h5⟩
  · intro k obj hobj
    cases hT : Target.writes jsonOps (fun _ => none) wss.flatten k with
    | none => rw [h4.absent k hT] at hobj; cases hobj
    | some x =>
      obtain ⟨b1, b2, obj', b3, b4, b5⟩ := h4.present k x hT
      rw [hobj] at b3
      cases b3
      obtain ⟨d, d1, d2, d3⟩ := (h3 k x).mp hT
      exact ⟨d, x.1, d1, jsonOps_enforce.mp d2, b1, b5⟩
  · intro d x hd hx
    have hxc : (Json.map x).Canon := enforceDoc_canon d.2 hx
    have hT := (h3 (objKey x) ⟨x, hxc⟩).mpr ⟨d, hd, jsonOps_enforce.mpr hx, rfl⟩
    obtain ⟨_, _, obj, b3, _, b5⟩ := h4.present _ _ hT
    exact ⟨obj, b3, b5⟩

/-- The snapshot form of the example pipeline. -/
def exJsonSnap : Graph CDoc Nat := match exJsonPipe.graph.toSnapshot with | .ok s => s | .error _ => {}

theorem exJsonHist_names : ∀ pre, pre <+: exJsonHist.map Prod.snd → ∀ ins o, LiveInputs jsonOps pre [podK] ins → PipelineSpec exSelJson ins o →
    OnePerName jsonOps viewK o := by
  intro pre hp ins o hl hs
  obtain ⟨n, hn, rfl⟩ : ∃ n, n < 6 ∧ pre = (exJsonHist.map Prod.snd).take n :=
    ⟨pre.length, Nat.lt_succ_of_le hp.length_le, List.prefix_iff_eq_take.mp hp⟩
  refine (oneName_of_snapshot jsonOps_lawful (by decide) (g := exJsonPipe.graph) (s := exJsonSnap) rfl rfl rfl _ ?_ hl hs).1
  have : ∀ n < 6, oneNameB jsonOps viewK [podK] exJsonSnap ((exJsonHist.map Prod.snd).take n) = true := by decide +kernel
  exact this n hn

/-- A View object of the example. -/
def viewDoc (n : String) (v : Int) : CDoc :=
  ⟨[("apiVersion", .str "v1"), ("kind", .str "View"), ("metadata", .map [("labels", .map [("app", .str n)]), ("name", .str n)]), ("spec", .int v)], by
    simp [SMap.Sorted, Json.Canon, Json.CanonM]⟩

/-- The writes for the example history. -/
def exJsonWrites : List (List (Delta CDoc)) :=
  [[⟨.upserted, viewDoc "a" 2⟩], [⟨.upserted, viewDoc "b" 5⟩], [⟨.upserted, viewDoc "a" 3⟩], [], [⟨.deleted, viewDoc "b" 5⟩]]

-- all hypotheses of C75 hold for the example, with a pod already in the cluster
example := C75_cluster_partial (p0 := exJsonPipe) (sources := [podK]) (target := viewK) (cfg := exSelJson) (by decide) rfl (hist := exJsonHist)
  (by intro e he
      simp only [exJsonHist, List.mem_cons, List.not_mem_nil, or_false] at he
      rcases he with rfl | rfl | rfl | rfl | rfl <;> first | exact ω0_valid | exact ω1_valid)
  (by decide) (watchOk_of_check jsonOps_lawful (by decide +kernel)) exJsonHist_names (wss := exJsonWrites) (by rfl)
  [((podK, ("", "a")), (podDoc "a" 3).1)] (by simp [AMap.WF]) (by intro k; simp [AMap.get, podK, viewK])

-- the cluster afterwards: the pod, and a View
example : clusterAfter viewK [((podK, ("", "a")), (podDoc "a" 3).1)] exJsonWrites.flatten =
    [((podK, ("", "a")), (podDoc "a" 3).1), ((viewK, ("", "a")), (viewDoc "a" 3).1)] := by decide +kernel

end Dctl
