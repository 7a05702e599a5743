import Verif.Spec.Apiserver
import Verif.Cache.ViewLemmas
import Verif.Cache.GroupLemmas
/-!
# Lemmas about registration
-/
set_option autoImplicit false
set_option linter.unusedSectionVars false
namespace Dctl

/-- The resource of a kind. -/
def gvrOf (t : GVK) : GVR := ⟨t.group, t.version, lower t.kind⟩

theorem findAPIResource_some {t : GVK} (h : isViewKind t = true) : findAPIResource t = some ⟨lower t.kind, t.kind, t.group, t.version⟩ := by
  simp [findAPIResource, h]

theorem findAPIResource_none {t : GVK} (h : isViewKind t = false) : findAPIResource t = none := by
  simp [findAPIResource, h]

namespace ApiSrv

theorem addStorage_other (l : List GVK) (s : ApiSrv) : (s.addStorage l).groupGVKs = s.groupGVKs ∧ (s.addStorage l).groupH = s.groupH ∧
    (s.addStorage l).versionH = s.versionH ∧ (s.addStorage l).discV1 = s.discV1 ∧ (s.addStorage l).discV2 = s.discV2 := by
  induction l generalizing s with
  | nil => simp [addStorage]
  | cons t l ih =>
    unfold addStorage
    cases findAPIResource t with
    | none => exact ih s
    | some r => simpa using ih { s with storage := upd s.storage (gvrFor t r) (some t) }

theorem addStorage_storage (l : List GVK) (s : ApiSrv) (r : GVR) :
    ((s.addStorage l).storage r = s.storage r ∧ ∀ t ∈ l, isViewKind t = true → r ≠ gvrOf t) ∨
    ∃ t ∈ l, isViewKind t = true ∧ r = gvrOf t ∧ (s.addStorage l).storage r = some t := by
  induction l generalizing s with
  | nil => left; simp [addStorage]
  | cons t l ih =>
    unfold addStorage
    cases h : isViewKind t with
    | false =>
      rw [findAPIResource_none h]
      rcases ih s with ⟨h1, h2⟩ | ⟨t', h1, h2⟩
      · left
        refine ⟨h1, ?_⟩
        intro t' ht' hv
        rcases List.mem_cons.1 ht' with e | e
        · subst e; simp [h] at hv
        · exact h2 t' e hv
      · right; exact ⟨t', List.mem_cons_of_mem _ h1, h2⟩
    | true =>
      rw [findAPIResource_some h]
      simp only
      have hg : gvrFor t ⟨lower t.kind, t.kind, t.group, t.version⟩ = gvrOf t := rfl
      rw [hg]
      rcases ih { s with storage := upd s.storage (gvrOf t) (some t) } with ⟨h1, h2⟩ | ⟨t', h1, h2⟩
      · by_cases e : r = gvrOf t
        · right
          refine ⟨t, by simp, h, e, ?_⟩
          rw [h1]; simp [e, upd_same]
        · left
          refine ⟨by rw [h1]; simp [upd_other _ _ e], ?_⟩
          intro t' ht' hv
          rcases List.mem_cons.1 ht' with e' | e'
          · subst e'; exact e
          · exact h2 t' e' hv
      · right; exact ⟨t', List.mem_cons_of_mem _ h1, h2⟩

theorem removeStorage_other (l : List GVK) (s : ApiSrv) : (s.removeStorage l).groupGVKs = s.groupGVKs ∧ (s.removeStorage l).groupH = s.groupH ∧
    (s.removeStorage l).versionH = s.versionH ∧ (s.removeStorage l).discV1 = s.discV1 ∧ (s.removeStorage l).discV2 = s.discV2 := by
  induction l generalizing s with
  | nil => simp [removeStorage]
  | cons t l ih =>
    unfold removeStorage
    cases findAPIResource t with
    | none => exact ih s
    | some r => simpa using ih { s with storage := upd s.storage (gvrFor t r) none }

theorem removeStorage_storage (l : List GVK) (s : ApiSrv) (r : GVR) (x : GVK) :
    (s.removeStorage l).storage r = some x ↔ s.storage r = some x ∧ ∀ t ∈ l, isViewKind t = true → r ≠ gvrOf t := by
  induction l generalizing s with
  | nil => simp [removeStorage]
  | cons t l ih =>
    unfold removeStorage
    cases h : isViewKind t with
    | false =>
      rw [findAPIResource_none h]
      simp [ih, h]
    | true =>
      rw [findAPIResource_some h]
      have hg : gvrFor t ⟨lower t.kind, t.kind, t.group, t.version⟩ = gvrOf t := rfl
      simp only [ih, hg, List.mem_cons, forall_eq_or_imp, h, true_implies, ne_eq]
      by_cases e : r = gvrOf t
      · simp [e, upd_same]
      · simp [e, upd_other _ _ e]

theorem removeVersions_other (l : List GVK) (s : ApiSrv) : (s.removeVersions l).groupGVKs = s.groupGVKs ∧ (s.removeVersions l).groupH = s.groupH ∧
    (s.removeVersions l).storage = s.storage ∧ (s.removeVersions l).discV1 = s.discV1 ∧ (s.removeVersions l).discV2 = s.discV2 := by
  induction l generalizing s with
  | nil => simp [removeVersions]
  | cons t l ih => simpa [removeVersions] using ih { s with versionH := upd s.versionH (t.group ++ "/" ++ t.version) none }

theorem removeVersions_versionH (l : List GVK) (s : ApiSrv) (k : String) (x : List ApiResource) :
    (s.removeVersions l).versionH k = some x ↔ s.versionH k = some x ∧ ∀ t ∈ l, k ≠ t.group ++ "/" ++ t.version := by
  induction l generalizing s with
  | nil => simp [removeVersions]
  | cons t l ih =>
    simp only [removeVersions, ih, List.mem_cons, forall_eq_or_imp]
    by_cases e : k = t.group ++ "/" ++ t.version
    · simp [e, upd_same]
    · simp [e, upd_other _ _ e]

theorem addVersions_other (g : String) (l : List GVK) (vs : List String) (s : ApiSrv) : (s.addVersions g l vs).groupGVKs = s.groupGVKs ∧
    (s.addVersions g l vs).groupH = s.groupH ∧ (s.addVersions g l vs).storage = s.storage ∧ (s.addVersions g l vs).discV1 = s.discV1 := by
  induction vs generalizing s with
  | nil => simp [addVersions]
  | cons v vs ih =>
    simpa [addVersions] using ih { s with versionH := upd s.versionH (g ++ "/" ++ v) (some (resourcesOf l v)),
                                          discV2 := upd s.discV2 (g, v) (some (resourcesOf l v)) }

theorem slash_right {g v w : String} : g ++ "/" ++ v = g ++ "/" ++ w ↔ v = w := by
  constructor
  · intro h
    have := congrArg String.toList h
    simp only [String.toList_append, List.append_assoc, List.append_cancel_left_eq] at this
    exact String.toList_injective this
  · rintro rfl; rfl

theorem slash_both {g g' v v' : String} (hg : '/' ∉ g.toList) (hg' : '/' ∉ g'.toList) (h : g ++ "/" ++ v = g' ++ "/" ++ v') : g = g' ∧ v = v' := by
  have h1 := congrArg String.toList h
  simp only [String.toList_append, List.append_assoc] at h1
  have key : ∀ (a b c d : List Char), '/' ∉ a → '/' ∉ b → a ++ ['/'] ++ c = b ++ ['/'] ++ d → a = b := by
    intro a
    induction a with
    | nil =>
      intro b c d _ hb he
      cases b with
      | nil => rfl
      | cons x b => simp at he hb; exact absurd he.1 hb.1
    | cons y a ih =>
      intro b c d ha hb he
      cases b with
      | nil => simp at he ha; exact absurd he.1.symm ha.1
      | cons x b =>
        simp only [List.cons_append, List.cons.injEq] at he
        rw [he.1, ih b c d (fun h => ha (List.mem_cons_of_mem _ h)) (fun h => hb (List.mem_cons_of_mem _ h)) he.2]
  have e : g = g' := String.toList_injective (key _ _ v.toList v'.toList hg hg' (by simpa using h1))
  subst e
  exact ⟨rfl, slash_right.1 h⟩

theorem addVersions_versionH (g : String) (l : List GVK) (vs : List String) (s : ApiSrv) (k : String) :
    (∃ v ∈ vs, k = g ++ "/" ++ v ∧ (s.addVersions g l vs).versionH k = some (resourcesOf l v)) ∨
    ((∀ v ∈ vs, k ≠ g ++ "/" ++ v) ∧ (s.addVersions g l vs).versionH k = s.versionH k) := by
  induction vs generalizing s with
  | nil => right; simp [addVersions]
  | cons v vs ih =>
    unfold addVersions
    rcases ih { s with versionH := upd s.versionH (g ++ "/" ++ v) (some (resourcesOf l v)),
                       discV2 := upd s.discV2 (g, v) (some (resourcesOf l v)) } with ⟨w, h1, h2⟩ | ⟨h1, h2⟩
    · left; exact ⟨w, List.mem_cons_of_mem _ h1, h2⟩
    · by_cases e : k = g ++ "/" ++ v
      · left
        exact ⟨v, by simp, e, by rw [h2]; simp [e, upd_same]⟩
      · right
        refine ⟨by simpa using ⟨e, h1⟩, by rw [h2]; simp [upd_other _ _ e]⟩

theorem addVersions_discV2 (g : String) (l : List GVK) (vs : List String) (s : ApiSrv) (k : String × String) :
    (∃ v ∈ vs, k = (g, v) ∧ (s.addVersions g l vs).discV2 k = some (resourcesOf l v)) ∨
    ((∀ v ∈ vs, k ≠ (g, v)) ∧ (s.addVersions g l vs).discV2 k = s.discV2 k) := by
  induction vs generalizing s with
  | nil => right; simp [addVersions]
  | cons v vs ih =>
    unfold addVersions
    rcases ih { s with versionH := upd s.versionH (g ++ "/" ++ v) (some (resourcesOf l v)),
                       discV2 := upd s.discV2 (g, v) (some (resourcesOf l v)) } with ⟨w, h1, h2⟩ | ⟨h1, h2⟩
    · left; exact ⟨w, List.mem_cons_of_mem _ h1, h2⟩
    · by_cases e : k = (g, v)
      · left
        exact ⟨v, by simp, e, by rw [h2]; simp [e, upd_same]⟩
      · right
        refine ⟨by simpa using ⟨e, h1⟩, by rw [h2]; simp [upd_other _ _ e]⟩

end ApiSrv

/-- The kinds of a group are registered and served. -/
def LiveGroup (f : String → List GVK) (g : String) : Prop := isViewGroup g = true ∧ f g ≠ []

/-- The state of the server for registered kinds `f`. -/
structure SrvInv (f : String → List GVK) (s : ApiSrv) : Prop where
  own : ∀ g, ∀ t ∈ f g, t.group = g
  kinds : ∀ g, LiveGroup f g → s.groupGVKs g = some (f g)
  kinds' : ∀ g, ¬ LiveGroup f g → s.groupGVKs g = none
  stored : ∀ r t, s.storage r = some t → ServedBy f t r
  served : ∀ r t, ServedBy f t r → ∃ t', s.storage r = some t'
  group : ∀ g, LiveGroup f g → ∃ vs, VersionsOf (f g) vs ∧ s.groupH g = some vs ∧ s.discV1 g = some vs
  group' : ∀ g, ¬ LiveGroup f g → s.groupH g = none ∧ s.discV1 g = none
  agg : ∀ g v rs, s.discV2 (g, v) = some rs ↔ LiveGroup f g ∧ (∃ t ∈ f g, t.version = v) ∧ rs = ApiSrv.resourcesOf (f g) v

/-- The state of the version handlers for registered kinds `f`. -/
def VerInv (f : String → List GVK) (s : ApiSrv) : Prop := ∀ g v, '/' ∉ g.toList → ∀ rs, s.versionH (g ++ "/" ++ v) = some rs ↔
    LiveGroup f g ∧ (∃ t ∈ f g, t.version = v) ∧ rs = ApiSrv.resourcesOf (f g) v

theorem SrvInv.init : SrvInv (fun _ => []) ApiSrv.init := by
  constructor <;> simp [LiveGroup, ServedBy, ApiSrv.init]

theorem VerInv.init : VerInv (fun _ => []) ApiSrv.init := by
  intro g v _ rs
  simp [LiveGroup, ApiSrv.init]

/-- Registering a group. -/
theorem SrvInv.register {f : String → List GVK} {s : ApiSrv} (h : SrvInv f s) (g : String) (l : List GVK) (vs : List String) (hl : l ≠ [])
    (hg : ∀ t ∈ l, t.group = g) (hvs : VersionsOf l vs) (hgrow : isViewGroup g = true → ∀ t ∈ f g, t ∈ l) :
    ∃ s', s.registerGroup g l vs = some s' ∧ SrvInv (upd f g l) s' := by
  unfold ApiSrv.registerGroup
  cases hv : isViewGroup g with
  | false =>
    refine ⟨s, by simp, ?_⟩
    have hlive : ∀ g', LiveGroup (upd f g l) g' ↔ LiveGroup f g' := by
      intro g'
      unfold LiveGroup
      by_cases e : g' = g
      · subst e; simp [hv]
      · rw [upd_other _ _ e]
    have hf : ∀ g', isViewGroup g' = true → upd f g l g' = f g' := by
      intro g' hg'
      rw [upd_other]
      rintro rfl; simp [hv] at hg'
    have hsv : ∀ r t, ServedBy (upd f g l) t r ↔ ServedBy f t r := by
      intro r t
      unfold ServedBy
      by_cases ht : isViewKind t = true
      · rw [hf]
        unfold isViewKind at ht
        simp at ht
        exact ht.1
      · simp [ht]
    constructor
    · intro g' t ht
      by_cases e : g' = g
      · subst e; rw [upd_same] at ht; exact hg t ht
      · rw [upd_other _ _ e] at ht; exact h.own g' t ht
    · intro g' hl'; rw [hf g' hl'.1]; exact h.kinds g' ((hlive g').1 hl')
    · intro g' hl'; exact h.kinds' g' (fun x => hl' ((hlive g').2 x))
    · intro r t ht; exact (hsv r t).2 (h.stored r t ht)
    · intro r t ht; exact h.served r t ((hsv r t).1 ht)
    · intro g' hl'; rw [hf g' hl'.1]; exact h.group g' ((hlive g').1 hl')
    · intro g' hl'; exact h.group' g' (fun x => hl' ((hlive g').2 x))
    · intro g' v rs
      rw [h.agg, hlive]
      by_cases hg' : isViewGroup g' = true
      · rw [hf g' hg']
      · simp [LiveGroup, hg']
  | true =>
    have hlen : l.length ≠ 0 := by simpa using hl
    simp only [Bool.not_true, Bool.false_eq_true, if_false, ApiSrv.registerDiscovery, hlen]
    refine ⟨_, rfl, ?_⟩
    have hlive : ∀ g', LiveGroup (upd f g l) g' ↔ g' = g ∨ LiveGroup f g' := by
      intro g'
      unfold LiveGroup
      by_cases e : g' = g
      · subst e; simp [hv, upd_same, hl]
      · rw [upd_other _ _ e]; simp [e]
    have hgrow := hgrow hv
    have oth := ApiSrv.addStorage_other l s
    constructor
    · intro g' t ht
      by_cases e : g' = g
      · subst e; rw [upd_same] at ht; exact hg t ht
      · rw [upd_other _ _ e] at ht; exact h.own g' t ht
    · intro g' hl'
      by_cases e : g' = g
      · subst e; simp [upd_same]
      · simp only [upd_other _ _ e, (ApiSrv.addVersions_other ..).1, oth]
        exact h.kinds g' (((hlive g').1 hl').resolve_left e)
    · intro g' hl'
      rw [hlive] at hl'
      have e : g' ≠ g := fun e => hl' (Or.inl e)
      simp only [upd_other _ _ e, (ApiSrv.addVersions_other ..).1, oth]
      exact h.kinds' g' (fun x => hl' (Or.inr x))
    · intro r t ht
      simp only [(ApiSrv.addVersions_other ..).2.2.1] at ht
      rcases ApiSrv.addStorage_storage l s r with ⟨h1, h2⟩ | ⟨t', h1, h2, h3, h4⟩
      · rw [h1] at ht
        obtain ⟨a, b, c⟩ := h.stored r t ht
        refine ⟨?_, b, c⟩
        by_cases e : t.group = g
        · rw [e, upd_same]; exact hgrow t (by rw [← e]; exact a)
        · rw [upd_other _ _ e]; exact a
      · rw [h4] at ht
        cases ht
        refine ⟨?_, h2, h3⟩
        rw [hg t h1, upd_same]; exact h1
    · intro r t ht
      simp only [(ApiSrv.addVersions_other ..).2.2.1]
      rcases ApiSrv.addStorage_storage l s r with ⟨h1, h2⟩ | ⟨t', h1, h2, h3, h4⟩
      · rw [h1]
        obtain ⟨a, b, c⟩ := ht
        by_cases e : t.group = g
        · rw [e, upd_same] at a
          exact absurd c (h2 t a b)
        · rw [upd_other _ _ e] at a
          exact h.served r t ⟨a, b, c⟩
      · exact ⟨t', h4⟩
    · intro g' hl'
      simp only [(ApiSrv.addVersions_other ..).2.1, (ApiSrv.addVersions_other ..).2.2.2, oth]
      by_cases e : g' = g
      · subst e; simp only [upd_same]; exact ⟨vs, hvs, rfl, rfl⟩
      · simp only [upd_other _ _ e]; exact h.group g' (((hlive g').1 hl').resolve_left e)
    · intro g' hl'
      rw [hlive] at hl'
      have e : g' ≠ g := fun e => hl' (Or.inl e)
      simp only [(ApiSrv.addVersions_other ..).2.1, (ApiSrv.addVersions_other ..).2.2.2, oth, upd_other _ _ e]
      exact h.group' g' (fun x => hl' (Or.inr x))
    · intro g' v rs
      rw [hlive]
      rcases ApiSrv.addVersions_discV2 g l vs
        { s.addStorage l with groupH := upd (s.addStorage l).groupH g (some vs), discV1 := upd (s.addStorage l).discV1 g (some vs) } (g', v)
        with ⟨w, h1, h2, h3⟩ | ⟨h1, h2⟩
      · cases h2
        rw [h3, upd_same]
        have := (hvs.2 v).1 h1
        simp only [this, true_and, true_or, Option.some.injEq]
        exact eq_comm
      · rw [h2]
        simp only [oth, h.agg]
        by_cases e : g' = g
        · subst e
          have hno : ¬ ∃ t ∈ l, t.version = v := fun x => h1 v ((hvs.2 v).2 x) rfl
          have hno' : ¬ ∃ t ∈ f g', t.version = v := fun ⟨t, ht, htv⟩ => hno ⟨t, hgrow t ht, htv⟩
          simp only [upd_same, hno, hno', false_and, and_false]
        · simp [e, upd_other _ _ e]

/-- Unregistering a group. -/
theorem SrvInv.unregister {f : String → List GVK} {s : ApiSrv} (h : SrvInv f s) (g : String) : SrvInv (upd f g []) (s.unregisterGroup g) := by
  have hlive : ∀ g', LiveGroup (upd f g []) g' ↔ g' ≠ g ∧ LiveGroup f g' := by
    intro g'
    unfold LiveGroup
    by_cases e : g' = g
    · subst e; simp [upd_same]
    · rw [upd_other _ _ e]; simp [e]
  have hown : ∀ g', ∀ t ∈ upd f g [] g', t.group = g' := by
    intro g' t ht
    by_cases e : g' = g
    · subst e; rw [upd_same] at ht; simp at ht
    · rw [upd_other _ _ e] at ht; exact h.own g' t ht
  have hsv : ∀ r t, ServedBy (upd f g []) t r ↔ t.group ≠ g ∧ ServedBy f t r := by
    intro r t
    unfold ServedBy
    by_cases e : t.group = g
    · rw [e, upd_same]; simp
    · rw [upd_other _ _ e]; simp [e]
  unfold ApiSrv.unregisterGroup
  by_cases hl : LiveGroup f g
  · rw [h.kinds g hl]
    have o1 := ApiSrv.removeStorage_other (f g) s
    constructor
    · exact hown
    · intro g' hl'
      obtain ⟨e, hl'⟩ := (hlive g').1 hl'
      simp only [upd_other _ _ e, (ApiSrv.removeVersions_other ..).1, o1]
      exact h.kinds g' hl'
    · intro g' hl'
      by_cases e : g' = g
      · subst e; simp [upd_same]
      · simp only [upd_other _ _ e, (ApiSrv.removeVersions_other ..).1, o1]
        exact h.kinds' g' (fun x => hl' ((hlive g').2 ⟨e, x⟩))
    · intro r t ht
      simp only [(ApiSrv.removeVersions_other ..).2.2.1, ApiSrv.removeStorage_storage] at ht
      have hs := h.stored r t ht.1
      refine (hsv r t).2 ⟨?_, hs⟩
      rintro rfl
      exact ht.2 t hs.1 hs.2.1 hs.2.2
    · intro r t ht
      obtain ⟨e, hs⟩ := (hsv r t).1 ht
      obtain ⟨t', ht'⟩ := h.served r t hs
      refine ⟨t', ?_⟩
      simp only [(ApiSrv.removeVersions_other ..).2.2.1, ApiSrv.removeStorage_storage]
      refine ⟨ht', ?_⟩
      intro t'' ht'' _ he
      rw [hs.2.2] at he
      have := congrArg GVR.group he
      simp only [gvrOf] at this
      exact e (by rw [this]; exact h.own g t'' ht'')
    · intro g' hl'
      obtain ⟨e, hl'⟩ := (hlive g').1 hl'
      simp only [upd_other _ _ e, (ApiSrv.removeVersions_other ..).2.1, (ApiSrv.removeVersions_other ..).2.2.2.1, o1]
      exact h.group g' hl'
    · intro g' hl'
      by_cases e : g' = g
      · subst e; simp [upd_same, (ApiSrv.removeVersions_other ..).2.1]
      · simp only [upd_other _ _ e, (ApiSrv.removeVersions_other ..).2.1, (ApiSrv.removeVersions_other ..).2.2.2.1, o1]
        exact h.group' g' (fun x => hl' ((hlive g').2 ⟨e, x⟩))
    · intro g' v rs
      rw [hlive]
      by_cases e : g' = g
      · simp [e]
      · simp only [e, if_false, (ApiSrv.removeVersions_other ..).2.2.2.2, o1, h.agg, upd_other _ _ e]
        simp [e]
  · rw [h.kinds' g hl]
    have hsv' : ∀ r t, ServedBy f t r → t.group ≠ g := by
      rintro r t ⟨a, b, c⟩ rfl
      refine hl ⟨?_, ?_⟩
      · unfold isViewKind at b; simp at b; exact b.1
      · intro x; rw [x] at a; simp at a
    constructor
    · exact hown
    · intro g' hl'
      obtain ⟨e, hl'⟩ := (hlive g').1 hl'
      rw [upd_other _ _ e]; exact h.kinds g' hl'
    · intro g' hl'
      by_cases e : g' = g
      · subst e; exact h.kinds' g' hl
      · exact h.kinds' g' (fun x => hl' ((hlive g').2 ⟨e, x⟩))
    · intro r t ht
      have := h.stored r t ht
      exact (hsv r t).2 ⟨hsv' r t this, this⟩
    · intro r t ht; exact h.served r t ((hsv r t).1 ht).2
    · intro g' hl'
      obtain ⟨e, hl'⟩ := (hlive g').1 hl'
      rw [upd_other _ _ e]; exact h.group g' hl'
    · intro g' hl'
      by_cases e : g' = g
      · subst e; exact h.group' g' hl
      · exact h.group' g' (fun x => hl' ((hlive g').2 ⟨e, x⟩))
    · intro g' v rs
      rw [hlive]
      by_cases e : g' = g
      · subst e; simp [h.agg, hl]
      · simp only [h.agg, upd_other _ _ e]; simp [e]

theorem VerInv.register {f : String → List GVK} {s : ApiSrv} (h : VerInv f s) (g : String) (l : List GVK) (vs : List String) (hl : l ≠ [])
    (hvs : VersionsOf l vs) (hgrow : isViewGroup g = true → ∀ t ∈ f g, t ∈ l)
    (hsl : '/' ∉ g.toList) {s' : ApiSrv} (hs' : s.registerGroup g l vs = some s') : VerInv (upd f g l) s' := by
  unfold ApiSrv.registerGroup at hs'
  intro g' v hg' rs
  cases hv : isViewGroup g with
  | false =>
    simp only [hv, Bool.not_false, if_true, Option.some.injEq] at hs'
    subst hs'
    rw [h g' v hg' rs]
    by_cases e : g' = g
    · subst e; simp [LiveGroup, hv]
    · unfold LiveGroup; rw [upd_other _ _ e]
  | true =>
    have hlen : l.length ≠ 0 := by simpa using hl
    simp only [hv, Bool.not_true, Bool.false_eq_true, if_false, ApiSrv.registerDiscovery, hlen, Option.some.injEq] at hs'
    subst hs'
    have oth := ApiSrv.addStorage_other l s
    simp only
    rcases ApiSrv.addVersions_versionH g l vs
        { s.addStorage l with groupH := upd (s.addStorage l).groupH g (some vs), discV1 := upd (s.addStorage l).discV1 g (some vs) } (g' ++ "/" ++ v)
        with ⟨w, h1, h2, h3⟩ | ⟨h1, h2⟩
    · obtain ⟨rfl, rfl⟩ := ApiSrv.slash_both hg' hsl h2
      rw [h3]
      have := (hvs.2 v).1 h1
      simp only [LiveGroup, hv, upd_same, hl, this, true_and, ne_eq, not_false_eq_true, Option.some.injEq]
      exact eq_comm
    · rw [h2]
      simp only [oth, h g' v hg']
      by_cases e : g' = g
      · subst e
        have hno : ¬ ∃ t ∈ l, t.version = v := fun x => h1 v ((hvs.2 v).2 x) rfl
        have hno' : ¬ ∃ t ∈ f g', t.version = v := fun ⟨t, ht, htv⟩ => hno ⟨t, hgrow hv t ht, htv⟩
        simp only [upd_same, hno, hno', false_and, and_false]
      · simp [LiveGroup, upd_other _ _ e]

theorem VerInv.unregister {f : String → List GVK} {s : ApiSrv} (hi : SrvInv f s) (h : VerInv f s) (g : String) (hsl : '/' ∉ g.toList) :
    VerInv (upd f g []) (s.unregisterGroup g) := by
  intro g' v hg' rs
  unfold ApiSrv.unregisterGroup
  by_cases hl : LiveGroup f g
  · rw [hi.kinds g hl]
    simp only [ApiSrv.removeVersions_versionH, ApiSrv.removeStorage_other, h g' v hg']
    by_cases e : g' = g
    · subst e
      simp only [upd_same, LiveGroup, ne_eq, not_true, and_false, false_and, iff_false]
      rintro ⟨⟨-, ⟨t, ht, rfl⟩, -⟩, hall⟩
      exact hall t ht (by rw [hi.own g' t ht])
    · simp only [LiveGroup, upd_other _ _ e, and_iff_left_iff_imp]
      intro _ t ht he
      rw [hi.own g t ht] at he
      exact e (ApiSrv.slash_both hg' hsl he).1
  · rw [hi.kinds' g hl]
    simp only [h g' v hg']
    by_cases e : g' = g
    · subst e
      simp only [hl, false_and, false_iff]
      simp [LiveGroup, upd_same]
    · simp [LiveGroup, upd_other _ _ e]

/-! ### Calls -/

theorem SrvInv.registerGroups (gvks : List GVK) (vs : String → List String) (gs : List String) {f : String → List GVK} {s : ApiSrv} (h : SrvInv f s)
    (hnd : gs.Nodup) (hgs : ∀ g ∈ gs, ∃ t ∈ gvks, t.group = g)
    (hvs : ∀ g, (vs g).Nodup ∧ ∀ v, v ∈ vs g ↔ ∃ t ∈ gvks, t.group = g ∧ t.version = v)
    (hgrow : ∀ g ∈ gs, ∀ t ∈ f g, t ∈ gvks) :
    ∃ s', s.registerGroups gvks vs gs = some s' ∧
      SrvInv (fun g => if g ∈ gs then gvks.filter (fun t => t.group == g) else f g) s' ∧
      ((∀ g ∈ gs, '/' ∉ g.toList) → VerInv f s → VerInv (fun g => if g ∈ gs then gvks.filter (fun t => t.group == g) else f g) s') := by
  induction gs generalizing f s with
  | nil => exact ⟨s, rfl, by simpa using h, fun _ hv => by simpa using hv⟩
  | cons g gs ih =>
    have hl : gvks.filter (fun t => t.group == g) ≠ [] := by
      obtain ⟨t, ht, e⟩ := hgs g (by simp)
      intro h0
      have : t ∈ gvks.filter (fun t => t.group == g) := by simp [ht, e]
      rw [h0] at this; simp at this
    have hver : VersionsOf (gvks.filter (fun t => t.group == g)) (vs g) := by
      refine ⟨(hvs g).1, ?_⟩
      intro v
      rw [(hvs g).2 v]
      simp only [List.mem_filter, beq_iff_eq, and_assoc]
    have hgr : isViewGroup g = true → ∀ t ∈ f g, t ∈ gvks.filter (fun t => t.group == g) := by
      intro _ t ht
      simp only [List.mem_filter, beq_iff_eq]
      exact ⟨hgrow g (by simp) t ht, h.own g t ht⟩
    obtain ⟨s1, hs1, h1⟩ := h.register g (gvks.filter (fun t => t.group == g)) (vs g) hl (by simp) hver hgr
    have hnd' := List.nodup_cons.1 hnd
    obtain ⟨s2, hs2, h2, h3⟩ := ih h1 hnd'.2 (fun g' hg' => hgs g' (by simp [hg'])) (by
      intro g' hg' t ht
      have e : g' ≠ g := by rintro rfl; exact hnd'.1 hg'
      rw [upd_other _ _ e] at ht
      exact hgrow g' (by simp [hg']) t ht)
    have hfe : (fun g' => if g' ∈ gs then gvks.filter (fun t => t.group == g') else upd f g (gvks.filter (fun t => t.group == g)) g') =
        (fun g' => if g' ∈ g :: gs then gvks.filter (fun t => t.group == g') else f g') := by
      funext g'
      by_cases e : g' = g
      · subst e; simp [hnd'.1, upd_same]
      · simp [e, upd_other _ _ e]
    rw [hfe] at h2 h3
    refine ⟨s2, by simp [ApiSrv.registerGroups, hs1, hs2], h2, ?_⟩
    intro hsl hvi
    exact h3 (fun g' hg' => hsl g' (by simp [hg'])) (hvi.register g _ _ hl hver hgr (hsl g (by simp)) hs1)

theorem SrvInv.unregisterGroups (gs : List String) {f : String → List GVK} {s : ApiSrv} (h : SrvInv f s) :
    SrvInv (fun g => if g ∈ gs then [] else f g) (s.unregisterGroups gs) ∧
      ((∀ g ∈ gs, '/' ∉ g.toList) → VerInv f s → VerInv (fun g => if g ∈ gs then [] else f g) (s.unregisterGroups gs)) := by
  induction gs generalizing f s with
  | nil => exact ⟨by simpa [ApiSrv.unregisterGroups] using h, fun _ hv => by simpa [ApiSrv.unregisterGroups] using hv⟩
  | cons g gs ih =>
    obtain ⟨h2, h3⟩ := ih (h.unregister g)
    have hfe : (fun g' => if g' ∈ gs then [] else upd f g [] g') = (fun g' => if g' ∈ g :: gs then [] else f g') := by
      funext g'
      by_cases e : g' = g
      · subst e; simp [upd_same]
      · simp [e, upd_other _ _ e]
    rw [hfe] at h2 h3
    refine ⟨h2, ?_⟩
    intro hsl hvi
    exact h3 (fun g' hg' => hsl g' (by simp [hg'])) (VerInv.unregister h hvi g (hsl g (by simp)))

/-- The kinds mentioned in a call. -/
def ApiOp.mentions : ApiOp → List GVK
  | .register gvks _ _ => gvks
  | .unregister gvks _ => gvks

theorem SrvInv.step {f : String → List GVK} {s : ApiSrv} (h : SrvInv f s) (op : ApiOp) (hop : op.Valid) (hgrow : op.Grows f) :
    ∃ s', s.step op = some s' ∧ SrvInv (op.apply f) s' ∧ ((∀ t ∈ op.mentions, '/' ∉ t.group.toList) → VerInv f s → VerInv (op.apply f) s') := by
  have hany : ∀ (gvks : List GVK) (gs : List String), (∀ g, g ∈ gs ↔ ∃ t ∈ gvks, t.group = g) → ∀ g,
      (gvks.any (fun t => t.group == g) = true ↔ g ∈ gs) := by
    intro gvks gs hh g
    rw [hh]; simp
  cases op with
  | register gvks gs vs =>
    obtain ⟨hnd, hgs, hvs⟩ := hop
    obtain ⟨s', h1, h2, h3⟩ := h.registerGroups gvks vs gs hnd (fun g hg => (hgs g).1 hg) hvs (by
      intro g hg t ht
      obtain ⟨t', ht', e⟩ := (hgs g).1 hg
      exact hgrow t' ht' t (by rw [e]; exact ht))
    have hfe : (ApiOp.register gvks gs vs).apply f = fun g => if g ∈ gs then gvks.filter (fun t => t.group == g) else f g := by
      funext g
      simp only [ApiOp.apply, hany gvks gs hgs]
    refine ⟨s', h1, by rw [hfe]; exact h2, ?_⟩
    intro hsl hv
    rw [hfe]
    refine h3 ?_ hv
    intro g hg
    obtain ⟨t', ht', e⟩ := (hgs g).1 hg
    rw [← e]; exact hsl t' ht'
  | unregister gvks gs =>
    obtain ⟨hnd, hgs⟩ := hop
    obtain ⟨h2, h3⟩ := h.unregisterGroups gs
    have hfe : (ApiOp.unregister gvks gs).apply f = fun g => if g ∈ gs then [] else f g := by
      funext g
      simp only [ApiOp.apply, hany gvks gs hgs]
    refine ⟨_, rfl, by rw [hfe]; exact h2, ?_⟩
    intro hsl hv
    rw [hfe]
    refine h3 ?_ hv
    intro g hg
    obtain ⟨t', ht', e⟩ := (hgs g).1 hg
    rw [← e]; exact hsl t' ht'

theorem ApiSrv.run_append (ops : List ApiOp) (op : ApiOp) (s : ApiSrv) : s.run (ops ++ [op]) = (s.run ops).bind (fun s => s.step op) := by
  induction ops generalizing s with
  | nil =>
    simp only [List.nil_append, ApiSrv.run, Option.bind_some]
    cases s.step op <;> rfl
  | cons o ops ih =>
    simp only [List.cons_append, ApiSrv.run]
    cases s.step o with
    | none => rfl
    | some s' => exact ih s'

theorem registeredAfter_append (ops : List ApiOp) (op : ApiOp) : registeredAfter (ops ++ [op]) = op.apply (registeredAfter ops) := by
  simp [registeredAfter]

theorem GrowingFrom.append (ops : List ApiOp) (op : ApiOp) (f : String → List GVK) :
    GrowingFrom f (ops ++ [op]) ↔ GrowingFrom f ops ∧ op.Grows (ops.foldl ApiOp.apply f) := by
  induction ops generalizing f with
  | nil => simp [GrowingFrom]
  | cons o ops ih => simp [GrowingFrom, ih, and_assoc]

theorem Growing.init {ops : List ApiOp} {op : ApiOp} (h : Growing (ops ++ [op])) : Growing ops ∧ op.Grows (registeredAfter ops) :=
  (GrowingFrom.append ops op _).1 h

theorem SrvInv.run (ops : List ApiOp) (hv : ∀ op ∈ ops, op.Valid) (hg : Growing ops) :
    ∃ s, ApiSrv.init.run ops = some s ∧ SrvInv (registeredAfter ops) s ∧
      ((∀ op ∈ ops, ∀ t ∈ op.mentions, '/' ∉ t.group.toList) → VerInv (registeredAfter ops) s) := by
  induction ops using rev_induct with
  | h0 => exact ⟨_, rfl, SrvInv.init, fun _ => VerInv.init⟩
  | h1 ops op ih =>
    obtain ⟨s, h1, h2, h3⟩ := ih (fun o ho => hv o (by simp [ho])) hg.init.1
    obtain ⟨s', h4, h5, h6⟩ := h2.step op (hv op (by simp)) hg.init.2
    refine ⟨s', by rw [ApiSrv.run_append, h1]; exact h4, by rw [registeredAfter_append]; exact h5, ?_⟩
    intro hsl
    rw [registeredAfter_append]
    exact h6 (hsl op (by simp)) (h3 (fun o ho => hsl o (by simp [ho])))

/-! ### Nothing panics -/

theorem ApiSrv.registerGroup_some (s : ApiSrv) (g : String) (l : List GVK) (vs : List String) (hl : l ≠ []) : ∃ s', s.registerGroup g l vs = some s' := by
  unfold ApiSrv.registerGroup
  split
  · exact ⟨_, rfl⟩
  · have hlen : l.length ≠ 0 := by simpa using hl
    simp only [ApiSrv.registerDiscovery, hlen, if_false]
    exact ⟨_, rfl⟩

theorem ApiSrv.registerGroups_some (gvks : List GVK) (vs : String → List String) (gs : List String) (s : ApiSrv) (h : ∀ g ∈ gs, ∃ t ∈ gvks, t.group = g) :
    ∃ s', s.registerGroups gvks vs gs = some s' := by
  induction gs generalizing s with
  | nil => exact ⟨s, rfl⟩
  | cons g gs ih =>
    have hl : gvks.filter (fun t => t.group == g) ≠ [] := by
      obtain ⟨t, ht, e⟩ := h g (by simp)
      intro h0
      have : t ∈ gvks.filter (fun t => t.group == g) := by simp [ht, e]
      rw [h0] at this; simp at this
    obtain ⟨s', hs'⟩ := s.registerGroup_some g (gvks.filter (fun t => t.group == g)) (vs g) hl
    obtain ⟨s'', hs''⟩ := ih s' (fun g' hg' => h g' (by simp [hg']))
    exact ⟨s'', by simp [ApiSrv.registerGroups, hs', hs'']⟩

theorem ApiSrv.run_some (ops : List ApiOp) (s : ApiSrv) (h : ∀ op ∈ ops, op.Valid) : ∃ s', s.run ops = some s' := by
  induction ops generalizing s with
  | nil => exact ⟨s, rfl⟩
  | cons op ops ih =>
    have hs : ∃ s', s.step op = some s' := by
      have hv := h op (by simp)
      cases op with
      | register gvks gs vs => exact s.registerGroups_some gvks vs gs (fun g hg => (hv.2.1 g).1 hg)
      | unregister gvks gs => exact ⟨_, rfl⟩
    obtain ⟨s', hs'⟩ := hs
    obtain ⟨s'', hs''⟩ := ih s' (fun o ho => h o (by simp [ho]))
    exact ⟨s'', by simp [ApiSrv.run, hs', hs'']⟩

theorem resourcesOf_exact (f : String → List GVK) (g v : String) (hown : ∀ t ∈ f g, t.group = g) : ListsExactly f g v (ApiSrv.resourcesOf (f g) v) := by
  intro r
  simp only [ApiSrv.resourcesOf, List.mem_filterMap, List.mem_filter, beq_iff_eq, findAPIResource]
  constructor
  · rintro ⟨t, ⟨ht, hv⟩, hr⟩
    split at hr
    · next hk =>
      simp only [Option.some.injEq] at hr
      refine ⟨t, ht, hv, hk, ?_⟩
      rw [← hr, hv, hown t ht]
    · cases hr
  · rintro ⟨t, ht, hv, hk, hr⟩
    refine ⟨t, ⟨ht, hv⟩, ?_⟩
    rw [if_pos hk, hr, hv, hown t ht]

/-! ### Paths -/

theorem splitSlash_plain (l : List Char) (h : '/' ∉ l) : splitSlash l = [l] := by
  induction l with
  | nil => rfl
  | cons c l ih =>
    simp only [List.mem_cons, not_or] at h
    have hc : c ≠ '/' := fun e => h.1 e.symm
    simp only [splitSlash, ih h.2, hc, if_false]

theorem splitSlash_append (a b : List Char) (h : '/' ∉ a) : splitSlash (a ++ '/' :: b) = a :: splitSlash b := by
  induction a with
  | nil =>
    have : ∀ l, splitSlash l ≠ [] := by
      intro l
      cases l with
      | nil => simp [splitSlash]
      | cons c l => simp only [splitSlash]; split <;> (try split) <;> simp
    simp only [List.nil_append, splitSlash]
    split
    · next h' => exact absurd h' (this b)
    · next w ws h' => simp [h']
  | cons c a ih =>
    simp only [List.mem_cons, not_or] at h
    have hc : c ≠ '/' := fun e => h.1 e.symm
    simp only [List.cons_append, splitSlash, ih h.2, hc, if_false]

theorem trimSlash_path (c : Char) (y : List Char) (hc : c ≠ '/') (hl : (c :: y).getLast? ≠ some '/') : trimSlash ('/' :: (c :: y)) = c :: y := by
  have h1 : ('/' :: (c :: y)).dropWhile (· == '/') = c :: y := by simp [hc]
  unfold trimSlash
  rw [h1]
  have hne : (c :: y).reverse ≠ [] := by simp
  cases hr : (c :: y).reverse with
  | nil => exact absurd hr hne
  | cons d z =>
    have hd : d ≠ '/' := by
      rintro rfl
      apply hl
      rw [List.getLast?_eq_head?_reverse, hr]; rfl
    have : (d :: z).dropWhile (· == '/') = d :: z := by simp [hd]
    rw [this, ← hr]; simp

theorem getLast_plain {v : String} (h : v ≠ "") (hs : '/' ∉ v.toList) (pre : List Char) : (pre ++ v.toList).getLast? ≠ some '/' := by
  have hne : v.toList ≠ [] := fun e => h (String.toList_injective (by rw [e]; rfl))
  intro he
  rw [List.getLast?_append] at he
  cases hv : v.toList.getLast? with
  | none => exact hne (by simpa using hv)
  | some c =>
    rw [hv] at he
    simp only [Option.some_or, Option.some.injEq] at he
    subst he
    exact hs (List.mem_of_getLast? hv)

theorem splitPath_version {g v : String} (hg : '/' ∉ g.toList) (hv : '/' ∉ v.toList) (h0 : v ≠ "") : splitPath ("/apis/" ++ g ++ "/" ++ v) = ["apis", g, v] := by
  have e : ("/apis/" ++ g ++ "/" ++ v).toList = '/' :: ('a' :: ("pis/".toList ++ g.toList ++ '/' :: v.toList)) := by
    simp [String.toList_append]
  have hl : ('a' :: ("pis/".toList ++ g.toList ++ '/' :: v.toList)).getLast? ≠ some '/' := by
    have := getLast_plain h0 hv ('a' :: ("pis/".toList ++ g.toList ++ ['/']))
    simpa using this
  have ht := trimSlash_path 'a' _ (by decide) hl
  have e2 : 'a' :: ("pis/".toList ++ g.toList ++ '/' :: v.toList) = "apis".toList ++ '/' :: (g.toList ++ '/' :: v.toList) := by simp
  unfold splitPath
  rw [e, ht, e2, splitSlash_append _ _ (by decide), splitSlash_append _ _ hg, splitSlash_plain _ hv]
  simp

theorem splitPath_group {g : String} (hg : '/' ∉ g.toList) (h0 : g ≠ "") : splitPath ("/apis/" ++ g) = ["apis", g] := by
  have e : ("/apis/" ++ g).toList = '/' :: ('a' :: ("pis/".toList ++ g.toList)) := by
    simp [String.toList_append]
  have hl : ('a' :: ("pis/".toList ++ g.toList)).getLast? ≠ some '/' := by
    have := getLast_plain h0 hg ('a' :: ("pis/".toList))
    simpa using this
  have ht := trimSlash_path 'a' _ (by decide) hl
  have e2 : 'a' :: ("pis/".toList ++ g.toList) = "apis".toList ++ '/' :: g.toList := by simp
  unfold splitPath
  rw [e, ht, e2, splitSlash_append _ _ (by decide), splitSlash_plain _ hg]
  simp

end Dctl
