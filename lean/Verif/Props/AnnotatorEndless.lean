import Verif.Operator.AnnotatorEndlessLemmas
import Verif.Props.Annotator
/-!
# C120: examples, and an operator that works for ever
-/
set_option autoImplicit false
set_option linter.unusedSectionVars false
namespace Dctl

/-! ### Examples -/

/-- A Service with a type. -/
def typedSvc (n ty : String) : CDoc :=
  ⟨[("apiVersion", .str "v1"), ("kind", .str "Service"), ("metadata", .map [("name", .str n), ("namespace", .str "d")]), ("spec", .map [("type", .str ty)])], by
    simp [SMap.Sorted, Json.Canon, Json.CanonM]⟩

def noteMap (t sn : String) (a : SMap Json) : SMap Json :=
  [("addressType", .str t), ("apiVersion", .str "discovery.k8s.io/v1"), ("kind", .str "EndpointSlice"),
   ("metadata", .map [("annotations", .map a), ("labels", .map [("kubernetes.io/service-name", .str sn)]), ("name", .str "s"), ("namespace", .str "d")])]

/-- An EndpointSlice with the label and the annotation. -/
def noteSlice (t sn : String) (v : Option String) : CDoc :=
  ⟨noteMap t sn (match v with | none => [] | some v => [(svcTypeKey, .str v)]), by cases v <;> simp [noteMap, SMap.Sorted, Json.Canon, Json.CanonM]⟩

/-- The operator. -/
def slicePipe : Pipe CDoc AnyVal :=
  match newSpecPipe (fieldEnv sliceBase) id sliceRef.tgt sliceRef.sources [.join (refCond "Service" "EndpointSlice" ofServiceQuery), .project sliceRefProj] with
  | .ok p => p
  | .error _ => { sources := [], target := sliceK, graph := {} }

/-- A user makes a Service and an EndpointSlice, the operator works on them; before it sends the patch, the user changes the EndpointSlice, and then the Service. -/
def sliceActs : List (LoopAct CDoc) :=
  [.user ⟨.upserted, typedSvc "a" "ClusterIP"⟩, .user ⟨.upserted, noteSlice "IPv4" "a" none⟩, .work 0 sliceK ω0, .work 0 sliceRef.src ω1, .user ⟨.upserted, noteSlice "IPv6" "a" none⟩,
   .send 0 0, .user ⟨.upserted, typedSvc "a" "NodePort"⟩]

def sliceW : PWorld CDoc AnyVal := ((PWorld.init [slicePipe]).acts jsonOps jsonPatching sliceActs).getD (PWorld.init [])

theorem sliceW_run : (PWorld.init [slicePipe]).acts jsonOps jsonPatching sliceActs = some sliceW := by
  have h : ((PWorld.init [slicePipe]).acts jsonOps jsonPatching sliceActs).isSome = true := by decide +kernel
  obtain ⟨W, hW⟩ := Option.isSome_iff_exists.mp h
  rw [sliceW, hW]; rfl

theorem ref_ordinary {R : RefSpec} {m : SMap Json} (h : ∀ p ∈ [namePath, nsPath, R.val, R.ref], ((nested m p).elim true (fun v => match v with
    | .str s => s ≠ "@now" && s.toList.head? ≠ some '$' | _ => true)) = true) :
    ∀ p ∈ [namePath, nsPath, R.val, R.ref], ∀ v, nested m p = some v → v.Ordinary := by
  intro p hp v hv s hs
  have := h p hp
  rw [hv, hs] at this
  simpa using this

theorem typedSvc_good {U : ObjKey → Option Json} {n ty : String} (hn : n ≠ "") (hk : objGVK (typedSvc n ty).1 = sliceRef.src) (h : ∀ p ∈ [namePath, nsPath, sliceRef.val, sliceRef.ref],
    ((nested (typedSvc n ty).1 p).elim true (fun v => match v with | .str s => s ≠ "@now" && s.toList.head? ≠ some '$' | _ => true)) = true) : sliceRef.Good U (typedSvc n ty) :=
  ⟨⟨⟨⟨_, rfl, hn⟩, by intro v hv; cases hv; exact ⟨_, rfl⟩⟩, ref_ordinary h⟩, ⟨"d", by decide, rfl⟩, fun _ => ⟨_, rfl, trivial⟩, fun e => absurd e (by
    rw [hk]; decide)⟩

theorem noteSlice_good {U : ObjKey → Option Json} {t sn : String} {v : Option String} (hU : U ("d", "s") = some (.str sn)) (hk : objGVK (noteSlice t sn v).1 = sliceRef.tgt) (h : ∀ p ∈ [namePath, nsPath, sliceRef.val, sliceRef.ref],
    ((nested (noteSlice t sn v).1 p).elim true (fun v => match v with | .str s => s ≠ "@now" && s.toList.head? ≠ some '$' | _ => true)) = true) : sliceRef.Good U (noteSlice t sn v) :=
  ⟨⟨⟨⟨_, rfl, by decide⟩, by intro v hv; cases hv; exact ⟨_, rfl⟩⟩, ref_ordinary h⟩, ⟨"d", by decide, rfl⟩, fun e => absurd e (by
    rw [hk]; decide), fun _ => by rw [show objKey (noteSlice t sn v).1 = ("d", "s") from rfl, hU]; rfl⟩

theorem sliceActs_polite : (PWorld.init [slicePipe]).PoliteRun jsonOps jsonPatching [sliceRef.tgt] (sliceRef.Good (fun _ => some (.str "a"))) (fieldAt sliceRef.fld) none sliceActs := by
  refine politeRun_of_check (by decide +kernel) ?_ ?_
  · intro w hw
    simp only [sliceActs, List.mem_cons, List.not_mem_nil, or_false, LoopAct.user.injEq, reduceCtorEq, false_or] at hw
    rcases hw with rfl | rfl | rfl | rfl <;> first | exact typedSvc_good (by decide) (by decide +kernel) (by decide +kernel) | exact noteSlice_good (U := fun _ => some (.str "a")) rfl (by decide +kernel) (by decide +kernel)
  · intro i g ω hw
    simp only [sliceActs, List.mem_cons, List.not_mem_nil, or_false, LoopAct.work.injEq, reduceCtorEq, false_or] at hw
    rcases hw with ⟨_, _, rfl⟩ | ⟨_, _, rfl⟩ <;> first | exact ω0_valid | exact ω1_valid

-- all hypotheses hold for the example; there, the patch has been made, and two events are queued
example := C120_slices_partial sliceBase sliceBase_reads (fieldEnv_canon sliceBase_canon) id _ (C120_read_slices _) (p0 := slicePipe) rfl sliceActs_polite sliceW_run
example : sliceW.store sliceK ("d", "s") = some (noteSlice "IPv6" "a" (some "ClusterIP")) ∧ (sliceW.stations.map (fun s => (s.base.out.length, sliceRef.sources.map (fun g =>
    (s.base.pending g).length)))) = [(0, [1, 2])] := by decide +kernel
-- and when the operator has done all it can
example : (sliceW.acts jsonOps jsonPatching [.work 0 sliceK ω1, .work 0 sliceRef.src ω0, .work 0 sliceK ω0, .send 0 0, .work 0 sliceK ω0]).map (fun W =>
    (W.store sliceK ("d", "s"), (W.stations.map (fun s => (s.base.out.length, sliceRef.sources.map (fun g => (s.base.pending g).length)))))) =
    some (some (noteSlice "IPv6" "a" (some "NodePort")), [(0, [0, 0])]) := by decide +kernel

/-- An implementation of the query for Deployments. -/
def relatedBase : Env := { healthBase with
  jget := fun q j => match j with
    | .map m => if q = relatedQuery then .ok ((nested m ("Deployment" :: relatedPath)).getD .null) else .error .err
    | _ => .error .err }

theorem relatedBase_canon : relatedBase.Canon := by
  refine ⟨fun q j v hj h => ?_, fun _ _ _ _ _ _ h => by cases h⟩
  cases j with
  | map m =>
    simp only [relatedBase] at h
    split at h
    · cases h; exact valueAt_canon ⟨m, hj⟩ ("Deployment" :: relatedPath)
    · cases h
  | _ => cases h

/-- A Deployment that names the ConfigMap. -/
def relatedDep (r : Int) : CDoc :=
  ⟨[("apiVersion", .str "apps/v1"), ("kind", .str "Deployment"), ("metadata", .map [("annotations", .map [("dcontroller.io/related-configmap", .str "cfg")]), ("name", .str "web"),
    ("namespace", .str "d")]), ("spec", .map [("replicas", .int r)])], by simp [SMap.Sorted, Json.Canon, Json.CanonM]⟩

def relatedPipe : Pipe CDoc AnyVal :=
  match newSpecPipe (fieldEnv relatedBase) id deployRef.tgt deployRef.sources [.join (refCond "ConfigMap" "Deployment" relatedQuery), .project deployRefProj] with
  | .ok p => p
  | .error _ => { sources := [], target := deploymentK, graph := {} }

def relatedActs : List (LoopAct CDoc) :=
  [.user ⟨.upserted, cmObj "cfg" "7"⟩, .user ⟨.upserted, relatedDep 1⟩, .work 0 deploymentK ω0, .work 0 configMapK ω1, .send 0 0]

def relatedW : PWorld CDoc AnyVal := ((PWorld.init [relatedPipe]).acts jsonOps jsonPatching relatedActs).getD (PWorld.init [])

theorem relatedW_run : (PWorld.init [relatedPipe]).acts jsonOps jsonPatching relatedActs = some relatedW := by
  have h : ((PWorld.init [relatedPipe]).acts jsonOps jsonPatching relatedActs).isSome = true := by decide +kernel
  obtain ⟨W, hW⟩ := Option.isSome_iff_exists.mp h
  rw [relatedW, hW]; rfl

theorem relatedActs_polite :
    (PWorld.init [relatedPipe]).PoliteRun jsonOps jsonPatching [deployRef.tgt] (deployRef.Good (fun _ => some (.str "cfg"))) (fieldAt deployRef.fld) none relatedActs := by
  refine politeRun_of_check (by decide +kernel) ?_ ?_
  · intro w hw
    simp only [relatedActs, List.mem_cons, List.not_mem_nil, or_false, LoopAct.user.injEq, reduceCtorEq] at hw
    rcases hw with rfl | rfl <;>
      refine ⟨⟨⟨⟨_, rfl, by decide⟩, by intro v hv; cases hv; exact ⟨_, rfl⟩⟩, ref_ordinary (by decide +kernel)⟩, ⟨"d", by decide, rfl⟩, ?_, ?_⟩ <;>
      first | exact fun _ => ⟨_, rfl, trivial⟩ | exact fun e => absurd e (by decide +kernel) | exact fun _ => rfl
  · intro i g ω hw
    simp only [relatedActs, List.mem_cons, List.not_mem_nil, or_false, LoopAct.work.injEq, reduceCtorEq, false_or] at hw
    rcases hw with ⟨_, _, rfl⟩ | ⟨_, _, rfl⟩ <;> first | exact ω0_valid | exact ω1_valid

example := C120_deployments_partial relatedBase (fun _ => rfl) (fieldEnv_canon relatedBase_canon) id _ (C120_read_deployments _) (p0 := relatedPipe) rfl relatedActs_polite relatedW_run
example : (relatedW.store deploymentK ("d", "web")).bind (fieldAt versionPath) = some (.str "7") := by decide +kernel

/-! ### A change of the label -/

/-- Two Services, and the EndpointSlice when it names the one or the other; the patches. -/
def noteA (f : Bool) : CDoc := if f then typedSvc "a" "ClusterIP" else typedSvc "b" "NodePort"
def noteB (f : Bool) : CDoc := if f then noteSlice "IPv4" "a" (some "ClusterIP") else noteSlice "IPv4" "b" (some "NodePort")
def noteX (f : Bool) : CDoc :=
  ⟨[("apiVersion", .str "discovery.k8s.io/v1"), ("kind", .str "EndpointSlice"),
    ("metadata", .map [("annotations", .map [(svcTypeKey, .str (if f then "ClusterIP" else "NodePort"))]), ("name", .str "s"), ("namespace", .str "d")])], by
    simp [SMap.Sorted, Json.Canon, Json.CanonM]⟩

theorem note_swing : Swing sliceRef sliceDoc noteA noteB noteX where
  srcs := by decide +kernel
  tgts := by decide +kernel
  key := by decide +kernel
  okA := by
    intro f
    cases f
    · exact (typedSvc_good (U := fun _ => none) (n := "b") (ty := "NodePort") (by decide) (by decide +kernel) (by decide +kernel)).1
    · exact (typedSvc_good (U := fun _ => none) (n := "a") (ty := "ClusterIP") (by decide) (by decide +kernel) (by decide +kernel)).1
  okB := by
    intro f
    cases f
    · exact (noteSlice_good (U := fun _ => some (.str "b")) (t := "IPv4") (sn := "b") (v := some "NodePort") rfl (by decide +kernel) (by decide +kernel)).1
    · exact (noteSlice_good (U := fun _ => some (.str "a")) (t := "IPv4") (sn := "a") (v := some "ClusterIP") rfl (by decide +kernel) (by decide +kernel)).1
  uid := by decide +kernel
  refers := by
    intro f g
    constructor
    · rintro ⟨⟨v, _, h1, h2⟩, _⟩
      cases f <;> cases g <;> first | rfl | exact absurd (h1.trans h2.symm) (by decide +kernel)
    · rintro rfl
      cases f <;> exact ⟨⟨_, by simp, rfl, rfl⟩, ⟨_, by simp, rfl, rfl⟩⟩
  enf := by
    intro f
    have h : ∀ f, (jsonOps.enforce sliceRef.tgt (sliceDoc (noteA f) (noteB f))).toOption = some (noteX f) := by decide +kernel
    have := h f
    cases he : jsonOps.enforce sliceRef.tgt (sliceDoc (noteA f) (noteB f)) with
    | error e => rw [he] at this; cases this
    | ok x => rw [he] at this; cases this; rfl
  keyX := by decide +kernel
  diff := by decide +kernel
  diffB := by decide +kernel
  patch := by decide +kernel

/-- What happens: users make two Services and an EndpointSlice that names the first one; after the operator has evaluated it, and before it sends the patch, a user changes
the label, once, so that it names the second one. -/
def swingActs : List (LoopAct CDoc) :=
  [.user ⟨.upserted, typedSvc "a" "ClusterIP"⟩, .user ⟨.upserted, typedSvc "b" "NodePort"⟩, .work 0 sliceRef.src ω0, .work 0 sliceRef.src ω0,
   .user ⟨.upserted, noteSlice "IPv4" "a" none⟩, .work 0 sliceK ω0, .user ⟨.upserted, noteSlice "IPv4" "b" none⟩, .send 0 0, .work 0 sliceK ω0, .send 0 0, .work 0 sliceK ω0]

def swingW : PWorld CDoc AnyVal := ((PWorld.init [slicePipe]).acts jsonOps jsonPatching swingActs).getD (PWorld.init [])

theorem swingW_run : (PWorld.init [slicePipe]).acts jsonOps jsonPatching swingActs = some swingW := by
  have h : ((PWorld.init [slicePipe]).acts jsonOps jsonPatching swingActs).isSome = true := by decide +kernel
  obtain ⟨W, hW⟩ := Option.isSome_iff_exists.mp h
  rw [swingW, hW]; rfl

/-- The events the operator has evaluated by then. -/
def swingHist : List (Delta CDoc) :=
  [⟨.added, noteA true⟩, ⟨.added, noteA false⟩, ⟨.added, noteSlice "IPv4" "a" none⟩, ⟨.updated, noteSlice "IPv4" "b" none⟩, ⟨.updated, noteB true⟩]

theorem liveObj_one {hist : List (Delta CDoc)} {δ : Delta CDoc} {g : GVK} {d : CDoc} (hg : objGVK δ.obj.1 = g) (ht : δ.type ≠ .sync) (ht' : δ.type ≠ .deleted)
    (hu : jsonOps.removeUID δ.obj = δ.obj) : LiveObj (hist ++ [δ]) g d ↔ d = δ.obj ∨ (objKey d.1 ≠ objKey δ.obj.1 ∧ LiveObj hist g d) := by
  by_cases hk : objKey d.1 = objKey δ.obj.1
  · have hc : Concerns jsonOps g (objKey d.1) δ := ⟨hg, hk.symm, ht⟩
    constructor
    · intro h
      exact .inl (((liveAs_snoc_of hc).mp h.2).2.symm.trans hu)
    · rintro (rfl | h)
      · exact ⟨hg, (liveAs_snoc_of hc).mpr ⟨ht', hu⟩⟩
      · exact absurd hk h.1
  · rw [liveObj_snoc (fun h' => hk h'.2.symm)]
    constructor
    · exact fun h => .inr ⟨hk, h⟩
    · rintro (rfl | h)
      · exact absurd rfl hk
      · exact h.2

theorem liveObj_nil {g : GVK} {d : CDoc} : ¬ LiveObj [] g d := fun h => liveAs_nil h.2

theorem swingHist_src (d : CDoc) : LiveObj swingHist sliceRef.src d ↔ ∃ f, d = noteA f := by
  have h : ∀ {h : List (Delta CDoc)} {δ : Delta CDoc}, objGVK δ.obj.1 = sliceK → (LiveObj (h ++ [δ]) sliceRef.src d ↔ LiveObj h sliceRef.src d) := by
    intro h δ e
    exact liveObj_snoc (fun h' => absurd (e.symm.trans h'.1) (by decide))
  show LiveObj ((((([] ++ [_]) ++ [_]) ++ [_]) ++ [_]) ++ [_]) _ _ ↔ _
  rw [h (by decide +kernel), h (by decide +kernel), h (by decide +kernel), liveObj_one (by decide +kernel) (by decide) (by decide) (by decide +kernel),
    liveObj_one (by decide +kernel) (by decide) (by decide) (by decide +kernel)]
  constructor
  · rintro (rfl | ⟨_, rfl | ⟨_, h⟩⟩)
    · exact ⟨false, rfl⟩
    · exact ⟨true, rfl⟩
    · exact absurd h liveObj_nil
  · rintro ⟨f, rfl⟩
    cases f
    · exact .inl rfl
    · exact .inr ⟨by decide +kernel, .inl rfl⟩

theorem swingHist_tgt (d : CDoc) : LiveObj swingHist sliceRef.tgt d ↔ d = noteB true := by
  show LiveObj ((((([] ++ [_]) ++ [_]) ++ [_]) ++ [_]) ++ [_]) _ _ ↔ _
  rw [liveObj_one (by decide +kernel) (by decide) (by decide) (by decide +kernel), liveObj_one (by decide +kernel) (by decide) (by decide) (by decide +kernel),
    liveObj_one (by decide +kernel) (by decide) (by decide) (by decide +kernel), liveObj_snoc (fun h => absurd h.1 (by decide +kernel)),
    liveObj_snoc (fun h => absurd h.1 (by decide +kernel))]
  constructor
  · rintro (h | ⟨hk, rfl | ⟨_, rfl | ⟨_, h⟩⟩⟩)
    · exact h
    · exact absurd (by decide +kernel) hk
    · exact absurd (by decide +kernel) hk
    · exact absurd h liveObj_nil
  · exact .inl

theorem swingHist_watch : WatchOk jsonOps swingHist := by
  have n : WatchOk jsonOps [] := by intro pre δ post e; simp at e
  have add : ∀ {h : List (Delta CDoc)} {x : CDoc}, WatchOk jsonOps h → (∀ δ ∈ h, ¬ (objGVK δ.obj.1 = objGVK x.1 ∧ objKey δ.obj.1 = objKey x.1)) → WatchOk jsonOps (h ++ [⟨.added, x⟩]) := by
    intro h x hw hno pre δ post e
    rcases snoc_split e with ⟨_, rfl, rfl⟩ | ⟨post', _, rfl⟩
    · refine ⟨fun _ d hd => ?_, fun h => by simp at h, by simp⟩
      obtain ⟨pre, ε, post, rfl, hc, _⟩ := hd
      exact hno ε (by simp) ⟨hc.1, hc.2.1⟩
    · exact hw pre δ post' rfl
  exact watchOk_updated (watchOk_updated (add (add (add n (by simp)) (by decide +kernel)) (by decide +kernel)) _) _

theorem swingW_busy : SwingBusy sliceRef noteA noteB noteX slicePipe swingW := by
  obtain ⟨s, h1, h2, h3, h4, h5⟩ := pacts_done (p0 := slicePipe) swingActs (by
    intro i g ω hw
    simp only [swingActs, List.mem_cons, List.not_mem_nil, or_false, LoopAct.work.injEq, reduceCtorEq, false_or] at hw
    rcases hw with ⟨_, _, rfl⟩ | ⟨_, _, rfl⟩ | ⟨_, _, rfl⟩ | ⟨_, _, rfl⟩ | ⟨_, _, rfl⟩ <;> exact ω0_valid)
    ⟨_, rfl, by simp, rfl, rfl, rfl⟩ swingW_run
  have key : ∀ s ∈ swingW.stations, s.base.done.map Prod.snd = swingHist ∧ s.base.pending sliceRef.src = [] ∧ s.base.pending sliceK = [⟨.updated, noteB false⟩] ∧
      s.base.out = [⟨.upserted, noteX true⟩] ∧ s.snaps = [noteB true] := by decide +kernel
  obtain ⟨k1, k2, k3, k4, k5⟩ := key s (by rw [h1]; simp)
  refine ⟨false, s, .inr (.inl ⟨h1, h3, h4.trans rfl, h5.trans rfl, ⟨h2, ?_, ?_, ?_, ?_, ?_⟩, k2, k3, k4, k5, by decide +kernel⟩)⟩
  · intro e he
    have : e.2 ∈ swingHist := by rw [← k1]; exact List.mem_map.mpr ⟨e, he, rfl⟩
    revert this
    have : ∀ δ ∈ swingHist, objGVK δ.obj.1 ∈ sliceRef.sources := by decide +kernel
    exact this e.2
  · rw [k1]; exact swingHist_watch
  · intro e he
    have : e.2 ∈ swingHist := by rw [← k1]; exact List.mem_map.mpr ⟨e, he, rfl⟩
    simp only [swingHist, List.mem_cons, List.not_mem_nil, or_false] at this
    rcases this with h | h | h | h | h <;> rw [h]
    · exact note_swing.okA true
    · exact note_swing.okA false
    · exact (noteSlice_good (U := fun _ => some (.str "a")) rfl (by decide +kernel) (by decide +kernel)).1
    · exact (noteSlice_good (U := fun _ => some (.str "b")) rfl (by decide +kernel) (by decide +kernel)).1
    · exact note_swing.okB true
  · rw [k1]; exact swingHist_src
  · rw [k1]; exact swingHist_tgt

/-- Not **C120** in general (the operator of `test/endpointslice_annotator.yaml`): users never touch the annotation, but one of them changes the label of an EndpointSlice, once, between
an evaluation and its patch. From then on the operator never comes to rest, in whatever order it evaluates and sends, although nobody else does anything: the patch restores
the old label, since it is made from the EndpointSlice in the request (`pkg/reconciler/target.go:190-207`), and the events for the two versions chase each other. -/
theorem C120_endless : ∃ W, (PWorld.init [slicePipe]).acts jsonOps jsonPatching swingActs = some W ∧
    newSpecPipe (fieldEnv sliceBase) id sliceRef.tgt sliceRef.sources [.join (refCond "Service" "EndpointSlice" ofServiceQuery), .project sliceRefProj] = .ok slicePipe ∧
    (PWorld.init [slicePipe]).PoliteRun jsonOps jsonPatching [sliceRef.tgt] (fun d => ∃ U, sliceRef.Good U d) (fieldAt sliceRef.fld) none swingActs ∧
    ¬ Acc (PatchStep jsonOps jsonPatching) W ∧
    ∀ bs W', (∀ b ∈ bs, b.Own) → W.acts jsonOps jsonPatching bs = some W' → ∃ W'', PatchStep jsonOps jsonPatching W'' W' := by
  have hp := slice_refPipe sliceBase sliceBase_reads
  have hnew : newSpecPipe (fieldEnv sliceBase) id sliceRef.tgt sliceRef.sources [.join (refCond "Service" "EndpointSlice" ofServiceQuery), .project sliceRefProj] = .ok slicePipe := rfl
  have hall := swingBusy_endless hp (fieldEnv_canon sliceBase_canon) id hnew note_swing ω0_valid
  have hno : ∀ W : PWorld CDoc AnyVal, Acc (PatchStep jsonOps jsonPatching) W → ¬ SwingBusy sliceRef noteA noteB noteX slicePipe W := by
    intro W h
    induction h with
    | intro W _ ih =>
      intro hb
      obtain ⟨W', a, ha, hact⟩ := swingBusy_next hp (fieldEnv_canon sliceBase_canon) id hnew note_swing hb ω0_valid
      exact ih W' ⟨a, ha, hact⟩ (swingBusy_act hp (fieldEnv_canon sliceBase_canon) id hnew note_swing hb ha hact)
  refine ⟨swingW, swingW_run, hnew, politeRun_of_check (by decide +kernel) ?_ ?_, fun h => hno _ h swingW_busy, fun bs W' hbs h => (hall bs _ _ swingW_busy hbs h).2⟩
  · intro w hw
    simp only [swingActs, List.mem_cons, List.not_mem_nil, or_false, LoopAct.user.injEq, reduceCtorEq, false_or] at hw
    rcases hw with rfl | rfl | rfl | rfl
    · exact ⟨fun _ => none, typedSvc_good (by decide) (by decide +kernel) (by decide +kernel)⟩
    · exact ⟨fun _ => none, typedSvc_good (by decide) (by decide +kernel) (by decide +kernel)⟩
    · exact ⟨fun _ => some (.str "a"), noteSlice_good (U := fun _ => some (.str "a")) rfl (by decide +kernel) (by decide +kernel)⟩
    · exact ⟨fun _ => some (.str "b"), noteSlice_good (U := fun _ => some (.str "b")) rfl (by decide +kernel) (by decide +kernel)⟩
  · intro i g ω hw
    simp only [swingActs, List.mem_cons, List.not_mem_nil, or_false, LoopAct.work.injEq, reduceCtorEq, false_or] at hw
    rcases hw with ⟨_, _, rfl⟩ | ⟨_, _, rfl⟩ | ⟨_, _, rfl⟩ | ⟨_, _, rfl⟩ | ⟨_, _, rfl⟩ <;> exact ω0_valid

end Dctl
