import Verif.Operator.PodEndlessLemmas
import Verif.Props.PodAnnotator
import Verif.Props.AnnotatorEndless
/-!
# C121: examples, and the operator of the README working for ever
-/
set_option autoImplicit false
set_option linter.unusedSectionVars false
namespace Dctl

/-! ### Examples -/

def notedMap (K node : String) (cs : List Json) (v : Option String) : SMap Json :=
  [("apiVersion", .str "v1"), ("kind", .str "Pod"),
   ("metadata", .map [("annotations", .map (match v with | none => [] | some v => [(K, .str v)])), ("name", .str "p"), ("namespace", .str "default")]),
   ("spec", .map [("containers", .list cs), ("nodeName", .str node)])]

/-- A Pod with some containers, on a node, and the annotation. -/
def notedPod (K node : String) (n : Nat) (v : Option String) : CDoc :=
  ⟨notedMap K node (List.replicate n (.str "c")) v, by
    have h : Json.CanonL (List.replicate n (.str "c")) := by
      induction n with
      | zero => trivial
      | succ n ih => exact ⟨trivial, ih⟩
    cases v <;> simp [notedMap, SMap.Sorted, Json.Canon, Json.CanonM, h]⟩

/-- The operator of `README.md`. -/
def containersPipe : Pipe CDoc AnyVal :=
  match newSpecPipe (fieldEnv sliceBase) id containersOwn.kind [containersOwn.kind] [.project (annProj containersKey containersE)] with
  | .ok p => p
  | .error _ => { sources := [], target := podK, graph := {} }

/-- A user makes a Pod, the operator works on it; before it sends the patch, the Pod gets a node. -/
def containersActs : List (LoopAct CDoc) :=
  [.user ⟨.upserted, notedPod containersKey "" 2 none⟩, .work 0 podK ω0, .user ⟨.upserted, notedPod containersKey "n1" 2 none⟩, .send 0 0]

def containersW : PWorld CDoc AnyVal := ((PWorld.init [containersPipe]).acts jsonOps jsonPatching containersActs).getD (PWorld.init [])

theorem containersW_run : (PWorld.init [containersPipe]).acts jsonOps jsonPatching containersActs = some containersW := by
  have h : ((PWorld.init [containersPipe]).acts jsonOps jsonPatching containersActs).isSome = true := by decide +kernel
  obtain ⟨W, hW⟩ := Option.isSome_iff_exists.mp h
  rw [containersW, hW]; rfl

theorem notedPod_ordinary (K node : String) (n : Nat) (v : Option String) : ∀ p ∈ [namePath, nsPath], ∀ w, nested (notedPod K node n v).1 p = some w → w.Ordinary := by
  intro p hp w hw s hs
  simp only [List.mem_cons, List.not_mem_nil, or_false] at hp
  subst hs
  rcases hp with rfl | rfl <;> cases hw <;> decide

theorem notedPod_ok {K node : String} {n : Nat} {v : Option String} : containersOwn.Ok (notedPod K node n v) :=
  ⟨⟨⟨_, rfl, by decide⟩, by intro v hv; cases hv; exact ⟨_, rfl⟩⟩, ⟨"default", by decide, rfl⟩, notedPod_ordinary K node n v, ⟨_, rfl⟩⟩

theorem notedPod_good {K node : String} {n : Nat} {v : Option String} : containersOwn.Good (fun _ => .str (toString n)) (notedPod K node n v) := by
  refine ⟨notedPod_ok, ?_⟩
  show Json.str (toString (List.replicate n (Json.str "c")).length) = _
  rw [List.length_replicate]

theorem containersActs_polite :
    (PWorld.init [containersPipe]).PoliteRun jsonOps jsonPatching [containersOwn.kind] (containersOwn.Good (fun _ => .str "2")) (fieldAt containersOwn.fld) none containersActs := by
  refine politeRun_of_check (by decide +kernel) ?_ ?_
  · intro w hw
    simp only [containersActs, List.mem_cons, List.not_mem_nil, or_false, LoopAct.user.injEq, reduceCtorEq, false_or] at hw
    rcases hw with rfl | rfl <;> exact notedPod_good (n := 2)
  · intro i g ω hw
    simp only [containersActs, List.mem_cons, List.not_mem_nil, or_false, LoopAct.work.injEq, reduceCtorEq, false_or] at hw
    obtain ⟨_, _, rfl⟩ := hw
    exact ω0_valid

-- all hypotheses hold for the example; there, the patch has been made, and the Pod is without its node
example := C121_containers_partial sliceBase (fieldEnv_canon sliceBase_canon) id _ (C121_read_containers _) (p0 := containersPipe) rfl containersActs_polite containersW_run
example : containersW.store podK ("default", "p") = some (notedPod containersKey "" 2 (some "2")) ∧
    (containersW.stations.map (fun s => (s.base.out.length, (s.base.pending podK).length))) = [(0, 2)] := by decide +kernel
-- and when the operator has done all it can
example : (containersW.acts jsonOps jsonPatching [.work 0 podK ω1, .work 0 podK ω0]).map (fun W =>
    (W.store podK ("default", "p"), (W.stations.map (fun s => (s.base.out.length, (s.base.pending podK).length))))) =
    some (some (notedPod containersKey "" 2 (some "2")), [(0, 0)]) := by decide +kernel

/-- The operator of `doc/getting-started.md`. -/
def managedPipe : Pipe CDoc AnyVal :=
  match newSpecPipe (fieldEnv sliceBase) id managedOwn.kind [managedOwn.kind] [.project (annProj managedKey (strE "true"))] with
  | .ok p => p
  | .error _ => { sources := [], target := podK, graph := {} }

/-- Here the user changes the containers. -/
def managedActs : List (LoopAct CDoc) :=
  [.user ⟨.upserted, notedPod managedKey "" 2 none⟩, .work 0 podK ω0, .user ⟨.upserted, notedPod managedKey "n1" 3 none⟩, .work 0 podK ω1, .send 0 0]

def managedW : PWorld CDoc AnyVal := ((PWorld.init [managedPipe]).acts jsonOps jsonPatching managedActs).getD (PWorld.init [])

theorem managedW_run : (PWorld.init [managedPipe]).acts jsonOps jsonPatching managedActs = some managedW := by
  have h : ((PWorld.init [managedPipe]).acts jsonOps jsonPatching managedActs).isSome = true := by decide +kernel
  obtain ⟨W, hW⟩ := Option.isSome_iff_exists.mp h
  rw [managedW, hW]; rfl

theorem managedActs_polite : (PWorld.init [managedPipe]).PoliteRun jsonOps jsonPatching [managedOwn.kind] managedOwn.Ok (fieldAt managedOwn.fld) none managedActs := by
  refine politeRun_of_check (by decide +kernel) ?_ ?_
  · intro w hw
    simp only [managedActs, List.mem_cons, List.not_mem_nil, or_false, LoopAct.user.injEq, reduceCtorEq, false_or] at hw
    rcases hw with rfl | rfl <;> exact ⟨notedPod_ok.1, notedPod_ok.2.1, notedPod_ok.2.2.1, trivial⟩
  · intro i g ω hw
    simp only [managedActs, List.mem_cons, List.not_mem_nil, or_false, LoopAct.work.injEq, reduceCtorEq, false_or] at hw
    rcases hw with ⟨_, _, rfl⟩ | ⟨_, _, rfl⟩ <;> first | exact ω0_valid | exact ω1_valid

example := C121_managed_partial sliceBase (fieldEnv_canon sliceBase_canon) id (C121_read_managed _) (p0 := managedPipe) rfl managedActs_polite managedW_run
example : managedW.store podK ("default", "p") = some (notedPod managedKey "" 2 (some "true")) := by decide +kernel
example := C121_no_containers sliceBase (d := rowView "a" 2) (by decide +kernel)

/-! ### A change of the number of containers -/

/-- The Pod with one container and with two, and the patches. -/
def numB (f : Bool) : CDoc := if f then notedPod containersKey "" 1 (some "1") else notedPod containersKey "" 2 (some "2")
def numX (f : Bool) : CDoc :=
  ⟨[("apiVersion", .str "v1"), ("kind", .str "Pod"),
    ("metadata", .map [("annotations", .map [(containersKey, .str (if f then "1" else "2"))]), ("name", .str "p"), ("namespace", .str "default")])], by
    simp [SMap.Sorted, Json.Canon, Json.CanonM]⟩

theorem num_swing : OwnSwing containersOwn (annDoc containersKey containersText) numB numX where
  tgts := by decide +kernel
  key := by decide +kernel
  okB := by
    intro f
    cases f <;> exact notedPod_ok
  uid := by decide +kernel
  enf := by
    intro f
    have h : ∀ f, (jsonOps.enforce containersOwn.kind (annDoc containersKey containersText (numB f))).toOption = some (numX f) := by decide +kernel
    have := h f
    cases he : jsonOps.enforce containersOwn.kind (annDoc containersKey containersText (numB f)) with
    | error e => rw [he] at this; cases this
    | ok x => rw [he] at this; cases this; rfl
  keyX := by decide +kernel
  diff := by decide +kernel
  diffB := by decide +kernel
  patch := by decide +kernel

/-- What happens: a user makes a Pod with one container; after the operator has evaluated it, and before it sends the patch, the user writes it with two containers, once. -/
def numActs : List (LoopAct CDoc) :=
  [.user ⟨.upserted, notedPod containersKey "" 1 none⟩, .work 0 podK ω0, .user ⟨.upserted, notedPod containersKey "" 2 none⟩, .send 0 0, .work 0 podK ω0, .send 0 0, .work 0 podK ω0]

def numW : PWorld CDoc AnyVal := ((PWorld.init [containersPipe]).acts jsonOps jsonPatching numActs).getD (PWorld.init [])

theorem numW_run : (PWorld.init [containersPipe]).acts jsonOps jsonPatching numActs = some numW := by
  have h : ((PWorld.init [containersPipe]).acts jsonOps jsonPatching numActs).isSome = true := by decide +kernel
  obtain ⟨W, hW⟩ := Option.isSome_iff_exists.mp h
  rw [numW, hW]; rfl

/-- The events the operator has evaluated by then. -/
def numHist : List (Delta CDoc) :=
  [⟨.added, notedPod containersKey "" 1 none⟩, ⟨.updated, notedPod containersKey "" 2 none⟩, ⟨.updated, numB true⟩]

theorem numHist_live (d : CDoc) : LiveObj numHist containersOwn.kind d ↔ d = numB true := by
  show LiveObj ((([] ++ [_]) ++ [_]) ++ [_]) _ _ ↔ _
  rw [liveObj_one (by decide +kernel) (by decide) (by decide) (by decide +kernel), liveObj_one (by decide +kernel) (by decide) (by decide) (by decide +kernel),
    liveObj_one (by decide +kernel) (by decide) (by decide) (by decide +kernel)]
  constructor
  · rintro (h | ⟨hk, rfl | ⟨_, rfl | ⟨_, h⟩⟩⟩)
    · exact h
    · exact absurd (by decide +kernel) hk
    · exact absurd (by decide +kernel) hk
    · exact absurd h liveObj_nil
  · exact .inl

theorem numHist_watch : WatchOk jsonOps numHist := by
  have n : WatchOk jsonOps [⟨.added, notedPod containersKey "" 1 none⟩] := by
    intro pre δ post e
    cases pre with
    | nil =>
      simp only [List.nil_append, List.cons.injEq] at e
      obtain ⟨rfl, rfl⟩ := e
      exact ⟨fun _ d hd => liveAs_nil hd, fun h => by simp at h, by simp⟩
    | cons a pre => simp at e
  exact watchOk_updated (watchOk_updated n _) _

theorem numW_busy : OwnBusy containersOwn numB numX containersPipe numW := by
  obtain ⟨s, h1, h2, h3, h4, h5⟩ := pacts_done (p0 := containersPipe) numActs (by
    intro i g ω hw
    simp only [numActs, List.mem_cons, List.not_mem_nil, or_false, LoopAct.work.injEq, reduceCtorEq, false_or] at hw
    rcases hw with ⟨_, _, rfl⟩ | ⟨_, _, rfl⟩ | ⟨_, _, rfl⟩ <;> exact ω0_valid)
    ⟨_, rfl, by simp, rfl, rfl, rfl⟩ numW_run
  have key : ∀ s ∈ numW.stations, s.base.done.map Prod.snd = numHist ∧ s.base.pending podK = [⟨.updated, numB false⟩] ∧
      s.base.out = [⟨.upserted, numX true⟩] ∧ s.snaps = [numB true] := by decide +kernel
  obtain ⟨k1, k3, k4, k5⟩ := key s (by rw [h1]; simp)
  refine ⟨false, s, .inr (.inl ⟨h1, h3, h4.trans rfl, h5.trans rfl, ⟨h2, ?_, ?_, ?_, ?_⟩, k3, k4, k5, by decide +kernel⟩)⟩
  · intro e he
    have : e.2 ∈ numHist := by rw [← k1]; exact List.mem_map.mpr ⟨e, he, rfl⟩
    revert this
    have : ∀ δ ∈ numHist, objGVK δ.obj.1 ∈ [containersOwn.kind] := by decide +kernel
    exact this e.2
  · rw [k1]; exact numHist_watch
  · intro e he
    have : e.2 ∈ numHist := by rw [← k1]; exact List.mem_map.mpr ⟨e, he, rfl⟩
    simp only [numHist, List.mem_cons, List.not_mem_nil, or_false] at this
    rcases this with h | h | h <;> rw [h] <;> exact notedPod_ok
  · rw [k1]; exact numHist_live

/-- Not **C121** in general (the operator of `README.md`): users never touch the annotation, but one of them changes the number of containers of a Pod, once, between an evaluation
and its patch. From then on the operator never comes to rest, in whatever order it evaluates and sends, although nobody else does anything: the patch restores the
old containers, since it is made from the Pod in the request (`pkg/reconciler/target.go:190-207`), and the events for the two versions chase each other. The README says: whenever the
container number is updated, the annotation will be updated too. (An API server that refuses changes of the containers, as that of Kubernetes does, prevents this run.) -/
theorem C121_endless : ∃ W, (PWorld.init [containersPipe]).acts jsonOps jsonPatching numActs = some W ∧
    newSpecPipe (fieldEnv sliceBase) id containersOwn.kind [containersOwn.kind] [.project (annProj containersKey containersE)] = .ok containersPipe ∧
    (PWorld.init [containersPipe]).PoliteRun jsonOps jsonPatching [containersOwn.kind] containersOwn.Ok (fieldAt containersOwn.fld) none numActs ∧
    ¬ Acc (PatchStep jsonOps jsonPatching) W ∧
    ∀ bs W', (∀ b ∈ bs, b.Own) → W.acts jsonOps jsonPatching bs = some W' → ∃ W'', PatchStep jsonOps jsonPatching W'' W' := by
  have hp := containers_ownPipe sliceBase
  have hnew : newSpecPipe (fieldEnv sliceBase) id containersOwn.kind [containersOwn.kind] [.project (annProj containersKey containersE)] = .ok containersPipe := rfl
  have hall := ownBusy_endless hp (fieldEnv_canon sliceBase_canon) id hnew num_swing ω0_valid
  have hno : ∀ W : PWorld CDoc AnyVal, Acc (PatchStep jsonOps jsonPatching) W → ¬ OwnBusy containersOwn numB numX containersPipe W := by
    intro W h
    induction h with
    | intro W _ ih =>
      intro hb
      obtain ⟨W', a, ha, hact⟩ := ownBusy_next hp (fieldEnv_canon sliceBase_canon) id hnew num_swing hb ω0_valid
      exact ih W' ⟨a, ha, hact⟩ (ownBusy_act hp (fieldEnv_canon sliceBase_canon) id hnew num_swing hb ha hact)
  refine ⟨numW, numW_run, hnew, politeRun_of_check (by decide +kernel) ?_ ?_, fun h => hno _ h numW_busy, fun bs W' hbs h => (hall bs _ _ numW_busy hbs h).2⟩
  · intro w hw
    simp only [numActs, List.mem_cons, List.not_mem_nil, or_false, LoopAct.user.injEq, reduceCtorEq, false_or] at hw
    rcases hw with rfl | rfl <;> exact notedPod_ok
  · intro i g ω hw
    simp only [numActs, List.mem_cons, List.not_mem_nil, or_false, LoopAct.work.injEq, reduceCtorEq, false_or] at hw
    rcases hw with ⟨_, _, rfl⟩ | ⟨_, _, rfl⟩ | ⟨_, _, rfl⟩ <;> exact ω0_valid

end Dctl
