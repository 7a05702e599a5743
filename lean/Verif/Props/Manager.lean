import Verif.Manager.Manager
import Verif.Props.Client
/-!
# C104: operators that share a cache
-/
set_option autoImplicit false
set_option linter.unusedSectionVars false
namespace Dctl

/-- The caches an operator is given by `main.go` and the examples: the composite cache of the API bundle for operators with a configuration, a view cache for headless
ones. -/
def Shares (n : Nat) (config : Bool) : CacheRef → Prop
  | .composite _ (.direct i) => config = true ∧ i = n
  | .view (.direct i) => config = false ∧ i = n
  | _ => False

/-- **C104** (partial): an operator given a shared cache is created, its client writes every view to the shared storage, and its client and its cache read it there; with
a configuration all other objects are read from and written to the cluster, without one they are errors. Missing: a composite cache without a configuration is refused
(`C104_headless_composite`), and a view cache with a configuration makes every write of a view panic (`C104_view_with_config`). -/
theorem C104_wiring_partial (fresh n : Nat) (config : Bool) (shared : CacheRef) (h : Shares n config shared) :
    ∃ m, newManager fresh config (some shared) = some m ∧
      (∀ t, isViewKind t = true → m.client.write t = .store n ∧ m.client.read t = .store n ∧ m.cache.read t = .store n) ∧
      (∀ t, isViewKind t = false → m.client.write t = (if config then .cluster else .error) ∧ m.client.read t = (if config then .cluster else .error) ∧
        m.cache.read t = (if config then .cluster else .error)) := by
  match shared, h with
  | .composite nat (.direct i), h =>
    obtain ⟨rfl, rfl⟩ := h
    refine ⟨_, rfl, ?_, ?_⟩ <;> intro t ht <;> simp [ClientRef.write, ClientRef.read, CacheRef.read, setCache, ViewRef.store, ht]
  | .view (.direct i), h =>
    obtain ⟨rfl, rfl⟩ := h
    refine ⟨_, rfl, ?_, ?_⟩ <;> intro t ht <;> simp [ClientRef.write, ClientRef.read, CacheRef.read, ViewRef.store, ht]

example : Shares 4 true (.composite true (.direct 4)) ∧ Shares 4 false (.view (.direct 4)) := ⟨⟨rfl, rfl⟩, rfl, rfl⟩

theorem write_notView (hash : String → String) (c : VCache) (w : ViewWrite) (hc : (Json.map w.obj).Canon) (h : isViewKind (objGVK w.obj) = false) : c.write hash w = c := by
  cases w with
  | create o =>
    have h' : isViewKind (objGVK o) = false := h
    have e : c.add hash o = none := by simp only [VCache.add, h']; rfl
    simp only [VCache.write, VCache.clientCreate, e, Option.getD_none]
  | update o =>
    have h' : isViewKind (objGVK o) = false := h
    have hc' : (Json.map o).Canon := hc
    have h2 : isViewKind (objGVK (withUID hash (copyObj o))) = false := by
      rw [withUID_gvk (copyObj_canon hc')]
      cases hk : isViewKind (objGVK (copyObj o)) with
      | false => rfl
      | true => rw [copyObj_not_view hc' hk] at h'; cases h'
    have e : ∀ old, c.update hash old o = none := by
      intro old
      rw [VCache.update]
      exact if_neg (by rw [h2]; exact Bool.false_ne_true)
    have e2 : c.clientUpdate hash o = some c ∨ c.clientUpdate hash o = none := by
      rw [clientUpdate_eq]
      cases c.get (VCache.clientKind o) (objKey o) with
      | none => right; rw [Option.bind_none]
      | some old =>
        rw [Option.bind_some]
        by_cases ho : old = o
        · left; rw [if_pos ho]
        · right; rw [if_neg ho, e old]
    rw [VCache.write]
    rcases e2 with e2 | e2 <;> rw [e2]
    · exact Option.getD_some
    · exact Option.getD_none
  | delete o =>
    have h' : isViewKind (objGVK o) = false := h
    have e : c.delete o = none := by simp only [VCache.delete, h']; rfl
    simp only [VCache.write, VCache.clientDelete, e, Option.getD_none]

theorem storesWrite_eq (hash : String → String) (s : Nat → VCache) {n fresh : Nat} {config : Bool} {shared : CacheRef} (h : Shares n config shared) {m : MgrRef}
    (hm : newManager fresh config (some shared) = some m) (w : ViewWrite)
    (hc : (Json.map w.obj).Canon) :
    storesWrite hash s m w = fun i => if i = n then (s n).write hash w else s i := by
  obtain ⟨m', hm', hv, hn⟩ := C104_wiring_partial fresh n config shared h
  rw [hm] at hm'
  cases hm'
  cases hk : isViewKind (objGVK w.obj) with
  | true => rw [storesWrite, (hv _ hk).1]
  | false =>
    have hw : storesWrite hash s m w = s := by
      rw [storesWrite, (hn _ hk).1]
      cases config <;> rfl
    rw [hw, write_notView hash _ _ hc hk]
    funext i
    by_cases hi : i = n
    · simp [hi]
    · simp [hi]

/-- **C104** (partial): any number of operators that share storage `n`, in any order of their writes: the storage is what the same writes on one view cache give, no other
storage changes, and every operator reads every view from it. Missing: as in `C104_wiring_partial`. -/
theorem C104_shared_partial (hash : String → String) (n : Nat) :
    ∀ (l : List ((Nat × Bool × CacheRef) × MgrRef × ViewWrite)) (s : Nat → VCache),
      (∀ e ∈ l, Shares n e.1.2.1 e.1.2.2 ∧ newManager e.1.1 e.1.2.1 (some e.1.2.2) = some e.2.1 ∧ (Json.map e.2.2.obj).Canon) →
      (storesRun hash s (l.map (·.2)) n = (l.map (·.2.2)).foldl (VCache.write hash) (s n) ∧
        (∀ i, i ≠ n → storesRun hash s (l.map (·.2)) i = s i)) ∧
      ∀ fresh config shared m, Shares n config shared → newManager fresh config (some shared) = some m → ∀ t k, isViewKind t = true →
        m.cache.get (storesRun hash s (l.map (·.2))) t k = ((l.map (·.2.2)).foldl (VCache.write hash) (s n)).get t k := by
  intro l
  induction l with
  | nil =>
    intro s _
    refine ⟨⟨rfl, fun _ _ => rfl⟩, fun fresh config shared m h hm t k ht => ?_⟩
    obtain ⟨m', hm', hv, _⟩ := C104_wiring_partial fresh n config shared h
    rw [hm] at hm'
    cases hm'
    rw [CacheRef.get, (hv t ht).2.2]
    rfl
  | cons e l ih =>
    intro s h
    obtain ⟨h1, h2, h3⟩ := h e (by simp)
    have hw := storesWrite_eq hash s h1 h2 e.2.2 h3
    obtain ⟨⟨a, b⟩, c⟩ := ih (storesWrite hash s e.2.1 e.2.2) (fun x hx => h x (by simp [hx]))
    have hn : storesWrite hash s e.2.1 e.2.2 n = (s n).write hash e.2.2 := by rw [hw]; simp
    rw [hn] at a c
    exact ⟨⟨a, fun i hi => (b i hi).trans (by rw [hw]; simp [hi])⟩, c⟩

/-- **C104** (no sharing): without a shared cache the operator has the new storage to itself. -/
theorem C104_own (fresh : Nat) (config : Bool) : ∃ m, newManager fresh config none = some m ∧ ∀ t, isViewKind t = true →
    m.client.write t = .store fresh ∧ m.client.read t = .store fresh ∧ m.cache.read t = .store fresh := by
  cases config <;> refine ⟨_, rfl, fun t ht => ?_⟩ <;> simp [ClientRef.write, ClientRef.read, CacheRef.read, setCache, ViewRef.store, ht]

/-- **C104** fails as stated: a headless operator cannot share the composite cache. -/
theorem C104_headless_composite (fresh n : Nat) (nat : Bool) : newManager fresh false (some (.composite nat (.direct n))) = none := rfl

/-- **C104** fails as stated: an operator with a configuration that shares a bare view cache is created, but writing a view panics, and native objects cannot be read. -/
theorem C104_view_with_config (fresh n : Nat) : ∃ m, newManager fresh true (some (.view (.direct n))) = some m ∧
    (∀ t, isViewKind t = true → m.client.write t = .panic ∧ m.cache.read t = .store n) ∧ ∀ t, isViewKind t = false → m.client.read t = .error := by
  refine ⟨_, rfl, ?_, ?_⟩ <;> intro t ht <;> simp [ClientRef.write, ClientRef.read, CacheRef.read, setCache, ViewRef.store, ht]

/-- A view object. -/
def exShared : Obj := [("apiVersion", .str "a.view.dcontroller.io/v1alpha1"), ("kind", .str "V"), ("metadata", .map [("name", .str "x"), ("namespace", .str "n")])]

-- an operator with a configuration writes a view, another one reads it
example : ∃ m m', newManager 7 true (some (.composite true (.direct 4))) = some m ∧ newManager 8 true (some (.composite true (.direct 4))) = some m' ∧
    m'.cache.get (storesRun id (fun _ => VCache.init) [(m, .create exShared)]) (viewGVK "a" "V") ("n", "x") ≠ none ∧
    m'.cache.get (storesRun id (fun _ => VCache.init) [(m, .create exShared), (m', .delete exShared)]) (viewGVK "a" "V") ("n", "x") = none :=
  ⟨_, _, rfl, rfl, by decide +kernel, by decide +kernel⟩

example (m : MgrRef) (h : newManager 7 true (some (.composite true (.direct 4))) = some m) :=
  C104_shared_partial id 4 [((7, true, .composite true (.direct 4)), m, .create exShared), ((7, true, .composite true (.direct 4)), m, .delete exShared)]
    (fun _ => VCache.init) (by simp only [List.mem_cons, List.not_mem_nil, or_false]; rintro e (rfl | rfl) <;> exact ⟨⟨rfl, rfl⟩, h, by
      simp [ViewWrite.obj, exShared, SMap.Sorted, Json.Canon, Json.CanonM]⟩)

end Dctl
