import Verif.Reconciler.OneShot
import Verif.Props.Source
import Verif.Props.Cache
import Verif.Apiserver.StorageLemmas
/-!
# One-shot sources (C99)
-/
set_option autoImplicit false
set_option linter.unusedSectionVars false
namespace Dctl

/-- The key of the trigger object. -/
def triggerKey : ObjKey := ("", "one-shot-trigger")

theorem oneShotObj_eq (g : GVK) (now : String) : oneShotObj g now = [("apiVersion", .str (gvString g)), ("kind", .str g.kind),
    ("metadata", .map [("labels", .map [("dcontroller.io/last-triggered", .str now)]), ("name", .str "one-shot-trigger")])] := by rfl

theorem oneShotObj_ok (g : GVK) (now : String) : Obj.Ok (oneShotObj g now) := by
  rw [oneShotObj_eq]; simp [Obj.Ok, SMap.Sorted, Json.Canon, Json.CanonM]

theorem oneShotObj_key (g : GVK) (now : String) : objKey (oneShotObj g now) = triggerKey := by
  rw [oneShotObj_eq]; rfl

theorem oneShotObj_gvk {g : GVK} (hv : isViewKind g = true) (hs : '/' ∉ g.group.toList) (now : String) : objGVK (oneShotObj g now) = g :=
  objGVK_of_fields hv hs (by rw [oneShotObj_eq]; rfl) (by rw [oneShotObj_eq]; rfl)

/-- No other key is stored where the trigger is. -/
theorem cacheKey_trigger {k : ObjKey} (h : cacheKey k = cacheKey triggerKey) : k = triggerKey := by
  obtain ⟨a, b⟩ := k
  simp only [cacheKey, triggerKey, if_true] at h
  split at h
  · next e => rw [triggerKey, e, h]
  · exfalso
    have := congrArg String.toList h
    have hm : '/' ∈ (a ++ "/" ++ b).toList := by simp [String.toList_append]
    rw [this] at hm
    revert hm; decide

section
variable {hash : String → String}

/-- An operation that does not concern the trigger leaves it. -/
theorem trigger_frame {c : VCache} (hi : c.Inv) {op : VOp} (hok : op.Ok) {g : GVK} (hn : ¬ op.Concerns g triggerKey) :
    (c.step hash op).get g triggerKey = c.get g triggerKey := by
  cases op with
  | add o =>
    rw [VCache.add_spec hi hash hok, if_neg]
    rintro ⟨h1, h2, -⟩; exact hn ⟨h1, cacheKey_trigger h2⟩
  | update old o =>
    rw [VCache.update_spec hi hash hok.2 hok.1, if_neg]
    rintro ⟨h1, h2, -⟩; exact hn ⟨h1, cacheKey_trigger h2⟩
  | delete o =>
    rw [VCache.delete_spec hi hash hok, if_neg]
    rintro ⟨h1, h2, -⟩; exact hn ⟨h1, cacheKey_trigger h2⟩
  | _ => exact VCache.other_get hash _ (by simp) (by simp) (by simp) g _

theorem trigger_frame_run {c : VCache} (hi : c.Inv) {ops : List VOp} (hok : ∀ op ∈ ops, op.Ok) {g : GVK} (hn : ∀ op ∈ ops, ¬ op.Concerns g triggerKey) :
    (c.run hash ops).get g triggerKey = c.get g triggerKey := by
  induction ops generalizing c with
  | nil => rfl
  | cons op ops ih =>
    rw [VCache.run_cons, ih (hi.step hash (hok op (by simp))) (fun o h => hok o (by simp [h])) (fun o h => hn o (by simp [h])),
      trigger_frame hi (hok op (by simp)) (hn op (by simp))]

/-- An operation that does not concern the trigger makes no event about it. -/
theorem trigger_events {c : VCache} (hi : c.Inv) {op : VOp} (hok : op.Ok) {g : GVK} (hn : ¬ op.Concerns g triggerKey) :
    ∀ e ∈ op.events hash c g, objKey e.obj ≠ triggerKey := by
  intro e he hk
  cases op with
  | add o =>
    simp only [VOp.events] at he
    split at he
    · next h =>
      simp only [List.mem_singleton] at he
      subst he
      exact hn ⟨h.2, by rw [← hk]; exact (written_key hok).symm⟩
    · cases he
  | update old o =>
    simp only [VOp.events] at he
    split at he
    · next h =>
      simp only [List.mem_singleton] at he
      subst he
      exact hn ⟨h.2.1, by rw [← hk]; exact (written_key hok.2).symm⟩
    · cases he
  | delete o =>
    simp only [VOp.events] at he
    split at he
    · next h =>
      split at he
      · next x hx =>
        simp only [List.mem_singleton] at he
        subst he
        have := (hi.get_key hx).2.1
        simp only [CEv.obj] at hk
        rw [hk] at this
        exact hn ⟨h.2, cacheKey_trigger this.symm⟩
      · cases he
    · cases he
  | _ => cases he

/-- The handler `h` of the informer `i` is there, and the informer is one for kind `g`. -/
def Handles (c : VCache) (g : GVK) (i h : Nat) : Prop := i < c.next ∧ h ∈ c.live i ∧ c.kindOf i = g

theorem Handles.congr {c c' : VCache} {g : GVK} {i h : Nat} (hh : Handles c g i h) (h1 : c.next ≤ c'.next) (h2 : c'.live i = c.live i) (h3 : c'.kindOf i = c.kindOf i) :
    Handles c' g i h := ⟨Nat.lt_of_lt_of_le hh.1 h1, by rw [h2]; exact hh.2.1, by rw [h3]; exact hh.2.2⟩

theorem Handles.getShared {c c' : VCache} {g g' : GVK} {i h j : Nat} (hh : Handles c g i h) (hx : c.getShared g' = some (c', j)) : Handles c' g i h := by
  have ho := VCache.getShared_old hx hh.1
  refine hh.congr ?_ ho.2.1 ho.2.2
  simp only [VCache.getShared] at hx
  split at hx
  · split at hx
    · cases hx; exact Nat.le_refl _
    · cases hx; exact Nat.le_succ _
  · cases hx

theorem Handles.notify {c c' : VCache} {g g' : GVK} {i h : Nat} {e : CEv} (hh : Handles c g i h) (hx : c.notify g' e = some c') : Handles c' g i h := by
  simp only [VCache.notify] at hx
  split at hx
  · next c1 j h1 =>
    cases hx
    have h0 := hh.getShared h1
    have : ∀ (L : List Nat) (c : VCache), Handles c g i h → Handles (L.foldl (fun c i => c.trigger e i) c) g i h := by
      intro L
      induction L with
      | nil => intro c hc; exact hc
      | cons a L ih => intro c hc; rw [List.foldl_cons]; exact ih _ ⟨hc.1, hc.2.1, hc.2.2⟩
    exact this _ _ ⟨h0.1, h0.2.1, h0.2.2⟩
  · cases hx

theorem Handles.getD {c : VCache} {g : GVK} {i h : Nat} {o : Option VCache} (hh : Handles c g i h) (hx : ∀ c', o = some c' → Handles c' g i h) : Handles (o.getD c) g i h := by
  cases o with
  | none => exact hh
  | some c' => exact hx c' rfl

theorem Handles.getLocal {c c' : VCache} {g g' : GVK} {n i h j : Nat} (hh : Handles c g i h) (hx : c.getLocal n g' = some (c', j)) : Handles c' g i h := by
  have hne : i ≠ c.next := Nat.ne_of_lt hh.1
  simp only [VCache.getLocal] at hx
  split at hx
  · split at hx
    · cases hx; exact hh
    · cases hx
      exact hh.congr (Nat.le_succ _) (by simp [VCache.registerDelegating, VCache.newInformer, upd, hne]) (by simp [VCache.registerDelegating, VCache.newInformer, upd, hne])
  · cases hx

/-- Handlers stay, unless they are removed. -/
theorem Handles.step {c : VCache} {g : GVK} {op : VOp} {i h : Nat} (hh : Handles c g i h) (hne : op ≠ .removeHandler i h) : Handles (c.step hash op) g i h := by
  have hset : ∀ s, Handles { c with stored := s } g i h := fun _ => ⟨hh.1, hh.2.1, hh.2.2⟩
  cases op with
  | add o =>
    rw [VCache.step]
    refine hh.getD (o := c.add hash o) fun c' hx => ?_
    simp only [VCache.add] at hx
    split at hx
    · exact (hset _).notify hx
    · cases hx
  | update old o =>
    rw [VCache.step]
    refine hh.getD (o := c.update hash old o) fun c' hx => ?_
    simp only [VCache.update] at hx
    split at hx
    · split at hx
      · rw [← Option.some.inj hx]; exact hh
      · exact (hset _).notify hx
    · cases hx
  | delete o =>
    rw [VCache.step]
    refine hh.getD (o := c.delete o) fun c' hx => ?_
    simp only [VCache.delete] at hx
    split at hx
    · split at hx
      · cases hx
      · exact (hset _).notify hx
    · cases hx
  | getShared g' =>
    refine hh.getD fun c' hx => ?_
    simp only [Option.map_eq_some_iff] at hx
    obtain ⟨⟨a, b⟩, hx, rfl⟩ := hx
    exact hh.getShared hx
  | removeShared g' => exact ⟨hh.1, hh.2.1, hh.2.2⟩
  | getLocal n g' =>
    refine hh.getD fun c' hx => ?_
    simp only [Option.map_eq_some_iff] at hx
    obtain ⟨⟨a, b⟩, hx, rfl⟩ := hx
    exact hh.getLocal hx
  | removeLocal n g' =>
    simp only [VCache.step, VCache.removeLocal]
    split <;> exact ⟨hh.1, hh.2.1, hh.2.2⟩
  | stop n => exact ⟨hh.1, hh.2.1, hh.2.2⟩
  | addHandler j order =>
    refine ⟨hh.1, ?_, hh.2.2⟩
    simp only [VCache.step, VCache.addHandler, upd]
    split
    · next e => subst e; exact List.mem_cons_of_mem _ hh.2.1
    · exact hh.2.1
  | removeHandler j h' =>
    refine ⟨hh.1, ?_, hh.2.2⟩
    simp only [VCache.step, VCache.removeHandler, upd]
    split
    · next e =>
      subst e
      have : h ≠ h' := fun e => hne (by rw [e])
      exact (List.mem_erase_of_ne this).mpr hh.2.1
    · exact hh.2.1

/-- Of the events that satisfy `p`, a handler gets none from operations that make none. -/
theorem log_filter_run (p : CEv → Bool) {c : VCache} (hi : c.Inv) {ops : List VOp} {g : GVK} {i h : Nat} (hh : Handles c g i h) (hok : ∀ op ∈ ops, op.Ok)
    (hne : ∀ op ∈ ops, op ≠ .removeHandler i h) (hp : ∀ op ∈ ops, ∀ c : VCache, c.Inv → ∀ e ∈ op.events hash c g, p e = false) :
    ((c.run hash ops).log i h).filter p = (c.log i h).filter p := by
  induction ops generalizing c with
  | nil => rfl
  | cons op ops ih =>
    have ho := hok op (by simp)
    rw [VCache.run_cons, ih (hi.step hash ho) (hh.step (hne op (by simp))) (fun o h => hok o (by simp [h])) (fun o h => hne o (by simp [h]))
      (fun o h => hp o (by simp [h])), VCache.step_log hi hash ho hh.1 hh.2.1, List.filter_append]
    have : (if c.Registered (c.kindOf i) i then op.events hash c (c.kindOf i) else []).filter p = [] := by
      rw [hh.2.2]
      split
      · exact List.filter_eq_nil_iff.mpr (fun e he => by simp [hp op (by simp) c hi e he])
      · rfl
    rw [this, List.append_nil]

end

/-- In a map with distinct keys, one entry is under the key of a stored object. -/
theorem filter_key {s : Indexer} (hw : AMap.WF s) (hk : ∀ p ∈ s, p.1 = cacheKey (objKey p.2)) {o : Obj} (h : s.get (cacheKey triggerKey) = some o) :
    s.filter (fun p => objKey p.2 == triggerKey) = [(cacheKey triggerKey, o)] := by
  induction s with
  | nil => cases h
  | cons p s ih =>
    obtain ⟨k0, x⟩ := p
    have hw' : AMap.WF s := (List.nodup_cons.mp hw).2
    have hk0 := hk (k0, x) (by simp)
    simp only at hk0
    have hks := fun q hq => hk q (List.mem_cons_of_mem _ hq)
    simp only [AMap.get] at h
    by_cases e : k0 = cacheKey triggerKey
    · rw [if_pos e] at h
      cases h
      have hx : objKey o = triggerKey := cacheKey_trigger (by rw [← hk0, e])
      rw [List.filter_cons_of_pos (by simp [hx]), e]
      refine congrArg _ (List.filter_eq_nil_iff.mpr fun q hq => ?_)
      have hne : q.1 ≠ k0 := fun c => (List.nodup_cons.mp hw).1 (List.mem_map.mpr ⟨q, hq, c⟩)
      intro c
      simp only [beq_iff_eq] at c
      exact hne (by rw [hks q hq, c, e])
    · rw [if_neg e] at h
      rw [List.filter_cons_of_neg, ih hw' hks h]
      simp only [beq_iff_eq]
      intro c; exact e (by rw [hk0, c])

section
variable {hash : String → String}

/-- What a handler has got when it has just been added by `kindStart`. -/
theorem kindStart_log {c c' : VCache} (hi : c.Inv) {n : Nat} {g : GVK} {order : Indexer → Indexer} (ho : ∀ l, (order l).Perm l) {i h : Nat}
    (hs : kindStart c n g order = some (c', i, h)) :
    c'.Inv ∧ Handles c' g i h ∧ c'.log i h = (order (c.stored g)).map (fun p => .add (copyObj p.2)) := by
  simp only [kindStart] at hs
  split at hs
  · next c1 j h1 =>
    simp only [Option.some.injEq, Prod.mk.injEq] at hs
    obtain ⟨rfl, rfl, rfl⟩ := hs
    have hi1 := hi.getLocal h1
    have hk : c1.kindOf j = g ∧ j < c1.next ∧ c1.stored = c.stored := by
      simp only [VCache.getLocal] at h1
      split at h1
      · split at h1
        · next hl =>
          cases h1
          exact ⟨(hi.locals n g _ hl).2.1, (hi.locals n g _ hl).1, rfl⟩
        · cases h1
          exact ⟨by simp [VCache.registerDelegating, VCache.newInformer, upd], Nat.lt_succ_self _, rfl⟩
      · cases h1
    refine ⟨hi1.addHandler j ho, ⟨hk.2.1, by simp [VCache.addHandler, upd], hk.1⟩, ?_⟩
    simp [VCache.addHandler, upd, hk.1, hk.2.2]
  · cases hs

/-- **C99** (in part): the handler of a one-shot source gets exactly one event about the trigger object, its addition, however the other controllers and operators
read and write in between and later, if they leave the trigger object of this kind alone; also when the operator is started again. Missing: a kind with two one-shot
sources (`C99_shared`). -/
theorem C99_once_partial {c : VCache} (hc : c.Reachable hash) (n : Nat) (g : GVK) (hs : '/' ∉ g.group.toList) (now : String) (c1 : VCache)
    (hget : oneShotGet hash c g now = some c1) (mid : List VOp) (hmid : ∀ op ∈ mid, op.Ok ∧ ¬ op.Concerns g triggerKey)
    (order : Indexer → Indexer) (ho : ∀ l, (order l).Perm l) (c2 : VCache) (i h : Nat) (hstart : kindStart (c1.run hash mid) n g order = some (c2, i, h))
    (post : List VOp) (hpost : ∀ op ∈ post, op.Ok ∧ ¬ op.Concerns g triggerKey ∧ op ≠ .removeHandler i h) :
    ((c2.run hash post).log i h).filter (fun e => objKey e.obj == triggerKey) = [.add (withUID hash (copyObj (oneShotObj g now)))] := by
  have hv : isViewKind g = true := by
    simp only [kindStart, VCache.getLocal] at hstart
    by_cases hv : isViewKind g = true
    · exact hv
    · rw [if_neg hv] at hstart; cases hstart
  have hoo := oneShotObj_ok g now
  have hg := oneShotObj_gvk hv hs now
  have hstep : c.step hash (.add (oneShotObj g now)) = c1 := by
    simp only [oneShotGet, VCache.clientCreate] at hget
    rw [VCache.step, hget]; rfl
  have hi1 : c1.Inv := by rw [← hstep]; exact hc.inv.step hash hoo
  have hget1 : c1.get g triggerKey = some (written hash (oneShotObj g now)) := by
    rw [← hstep, VCache.add_spec hc.inv hash hoo, if_pos ⟨hg, by rw [oneShotObj_key], hv⟩]
  have hi2 : (c1.run hash mid).Inv := hi1.run hash (fun op hm => (hmid op hm).1)
  have hget2 := trigger_frame_run (hash := hash) hi1 (fun op hm => (hmid op hm).1) (fun op hm => (hmid op hm).2)
  rw [hget1, hi2.get] at hget2
  obtain ⟨hi3, hh, hlog⟩ := kindStart_log hi2 ho hstart
  rw [log_filter_run _ hi3 hh (fun op hm => (hpost op hm).1) (fun op hm => (hpost op hm).2.2)
    (fun op hm c hi e he => by simpa using trigger_events hi (hpost op hm).1 (hpost op hm).2.1 e he), hlog, List.filter_map]
  have hkey : ∀ p ∈ (c1.run hash mid).stored g, p.1 = cacheKey (objKey p.2) := fun p hp => (hi2.ent g p hp).1
  have hcopy : ∀ p ∈ order ((c1.run hash mid).stored g), copyObj p.2 = p.2 := fun p hp =>
    have := hi2.ent g p ((ho _).mem_iff.mp hp)
    this.2.1.copy this.2.2.1
  have hf : (order ((c1.run hash mid).stored g)).filter ((fun e => objKey e.obj == triggerKey) ∘ fun p => CEv.add (copyObj p.2)) =
      (order ((c1.run hash mid).stored g)).filter (fun p => objKey p.2 == triggerKey) :=
    List.filter_congr (fun p hp => by simp only [Function.comp, CEv.obj, hcopy p hp])
  have hone := filter_key (hi2.wf g) hkey hget2
  have hperm := (ho ((c1.run hash mid).stored g)).filter (fun p => objKey p.2 == triggerKey)
  rw [hone] at hperm
  rw [hf, List.perm_singleton.mp hperm, List.map_singleton, written_copy hoo (by rw [hg]; exact hv)]
  rfl

/-- **C99** (a one-shot source starts): for a view kind, creating the trigger and starting the source cannot fail. -/
theorem C99_starts (c : VCache) (g : GVK) (hv : isViewKind g = true) (hs : '/' ∉ g.group.toList) (now : String) (n : Nat) (order : Indexer → Indexer) :
    (∃ c1, oneShotGet hash c g now = some c1) ∧ ∃ r, kindStart c n g order = some r := by
  constructor
  · simp only [oneShotGet, VCache.clientCreate, VCache.add, oneShotObj_gvk hv hs now, hv, if_true]
    exact VCache.notify_some hv _
  · simp only [kindStart, VCache.getLocal, hv, if_true]
    cases c.locals n g <;> exact ⟨_, rfl⟩

/-- The operation writes or deletes an object of the kind. -/
def VOp.Writes (g : GVK) (op : VOp) : Prop := ∃ k, op.Concerns g k

theorem quiet_get {c : VCache} (hi : c.Inv) {op : VOp} (hok : op.Ok) {g : GVK} (hn : ¬ op.Writes g) (k : ObjKey) : (c.step hash op).get g k = c.get g k := by
  cases op with
  | add o =>
    rw [VCache.add_spec hi hash hok, if_neg]
    rintro ⟨h1, -, -⟩; exact hn ⟨_, h1, rfl⟩
  | update old o =>
    rw [VCache.update_spec hi hash hok.2 hok.1, if_neg]
    rintro ⟨h1, -, -⟩; exact hn ⟨_, h1, rfl⟩
  | delete o =>
    rw [VCache.delete_spec hi hash hok, if_neg]
    rintro ⟨h1, -, -⟩; exact hn ⟨_, h1, rfl⟩
  | _ => exact VCache.other_get hash _ (by simp) (by simp) (by simp) g _

theorem quiet_run {c : VCache} (hi : c.Inv) {ops : List VOp} (hok : ∀ op ∈ ops, op.Ok) {g : GVK} (hn : ∀ op ∈ ops, ¬ op.Writes g) (k : ObjKey) :
    (c.run hash ops).get g k = c.get g k := by
  induction ops generalizing c with
  | nil => rfl
  | cons op ops ih =>
    rw [VCache.run_cons, ih (hi.step hash (hok op (by simp))) (fun o h => hok o (by simp [h])) (fun o h => hn o (by simp [h])), quiet_get hi (hok op (by simp)) (hn op (by simp))]

theorem quiet_events {c : VCache} {op : VOp} {g : GVK} (hn : ¬ op.Writes g) : op.events hash c g = [] := by
  cases op with
  | add o => exact if_neg (fun h => hn ⟨_, h.2, rfl⟩)
  | update old o => exact if_neg (fun h => hn ⟨_, h.2.1, rfl⟩)
  | delete o => exact if_neg (fun h => hn ⟨_, h.2, rfl⟩)
  | _ => rfl

/-- **C99** (nothing but the trigger): if there are no other objects of the kind and nobody writes the kind, the addition of the trigger is the only event the source
ever gets: the controller is triggered exactly once. -/
theorem C99_only {c : VCache} (hc : c.Reachable hash) (n : Nat) (g : GVK) (hs : '/' ∉ g.group.toList) (now : String) (c1 : VCache)
    (hempty : ∀ k, k ≠ triggerKey → c.get g k = none)
    (hget : oneShotGet hash c g now = some c1) (mid : List VOp) (hmid : ∀ op ∈ mid, op.Ok ∧ ¬ op.Writes g)
    (order : Indexer → Indexer) (ho : ∀ l, (order l).Perm l) (c2 : VCache) (i h : Nat) (hstart : kindStart (c1.run hash mid) n g order = some (c2, i, h))
    (post : List VOp) (hpost : ∀ op ∈ post, op.Ok ∧ ¬ op.Writes g ∧ op ≠ .removeHandler i h) :
    (c2.run hash post).log i h = [.add (withUID hash (copyObj (oneShotObj g now)))] := by
  have hpart := C99_once_partial hc n g hs now c1 hget mid (fun op hm => ⟨(hmid op hm).1, fun c => (hmid op hm).2 ⟨_, c⟩⟩) order ho c2 i h hstart post
    (fun op hm => ⟨(hpost op hm).1, fun c => (hpost op hm).2.1 ⟨_, c⟩, (hpost op hm).2.2⟩)
  rw [← hpart, eq_comm, List.filter_eq_self]
  have hv : isViewKind g = true := by
    simp only [kindStart, VCache.getLocal] at hstart
    by_cases hv : isViewKind g = true
    · exact hv
    · rw [if_neg hv] at hstart; cases hstart
  have hoo := oneShotObj_ok g now
  have hstep : c.step hash (.add (oneShotObj g now)) = c1 := by
    simp only [oneShotGet, VCache.clientCreate] at hget
    rw [VCache.step, hget]; rfl
  have hi1 : c1.Inv := by rw [← hstep]; exact hc.inv.step hash hoo
  have hi2 : (c1.run hash mid).Inv := hi1.run hash (fun op hm => (hmid op hm).1)
  obtain ⟨hi3, hh, hlog⟩ := kindStart_log hi2 ho hstart
  have hrun := log_filter_run (hash := hash) (fun _ => true) hi3 hh (fun op hm => (hpost op hm).1) (fun op hm => (hpost op hm).2.2)
    (fun op hm c hi e he => by rw [quiet_events (hpost op hm).2.1] at he; cases he)
  rw [List.filter_eq_self.mpr (fun _ _ => rfl), List.filter_eq_self.mpr (fun _ _ => rfl), hlog] at hrun
  intro e he
  rw [hrun, List.mem_map] at he
  obtain ⟨p, hp, rfl⟩ := he
  have hp' := (ho _).mem_iff.mp hp
  have hent := hi2.ent g p hp'
  have hg := hi2.get g (objKey p.2)
  rw [← hent.1, AMap.get_of_mem (hi2.wf g) hp', quiet_run hi1 (fun op hm => (hmid op hm).1) (fun op hm => (hmid op hm).2), ← hstep, VCache.add_spec hc.inv hash hoo] at hg
  simp only [CEv.obj, hent.2.1.copy hent.2.2.1, beq_iff_eq]
  refine Classical.byContradiction fun hne => ?_
  rw [if_neg, hempty _ hne] at hg
  · cases hg
  · rintro ⟨-, h2, -⟩
    rw [oneShotObj_key] at h2
    exact hne (cacheKey_trigger h2.symm)

end

/-- The state of an operator with a one-shot source, after its start. -/
def exShot : Option (VCache × Nat × Nat) :=
  match oneShotGet (fun s => s) (VCache.init.run (fun s => s) [.add (demoView "a" "b" [])]) ⟨"op.view.dcontroller.io", "v1alpha1", "Init"⟩ "t0" with
  | some c => kindStart (c.run (fun s => s) [.add (demoView "a" "c" [])]) 0 ⟨"op.view.dcontroller.io", "v1alpha1", "Init"⟩ id
  | none => none

-- it starts, and a write of another kind is no trigger
example : (exShot.map (fun r => ((r.1.run (fun s => s) [.add (demoView "a" "d" [])]).log r.2.1 r.2.2).length)) = some 1 := by decide +kernel
example : ¬ (VOp.add (demoView "a" "d" [])).Writes ⟨"op.view.dcontroller.io", "v1alpha1", "Init"⟩ := by
  rintro ⟨k, h, -⟩; revert h; decide +kernel

/-- **C99**, negation: two controllers with a one-shot source of the same kind: the first is triggered twice. -/
theorem C99_shared : ∃ (g : GVK) (c1 c2 c3 : VCache) (i h : Nat), isViewKind g = true ∧
    oneShotGet (fun s => s) VCache.init g "t0" = some c1 ∧ kindStart c1 0 g id = some (c2, i, h) ∧ oneShotGet (fun s => s) c2 g "t1" = some c3 ∧
    (c3.log i h).length = 2 ∧ ∀ e ∈ c3.log i h, objKey e.obj = triggerKey := by
  refine ⟨⟨"op.view.dcontroller.io", "v1alpha1", "Init"⟩, _, _, _, _, _, by decide, rfl, rfl, rfl, ?_, ?_⟩
  · decide +kernel
  · decide +kernel

end Dctl
