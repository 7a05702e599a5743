import Verif.Cache.RaceLemmas
/-!
# C40 The view store is a key-value map, C41 Event handlers can reconstruct the store, C42 Watch streams, C43 Shared caches
-/
set_option autoImplicit false
set_option linter.unusedSectionVars false
namespace Dctl

variable (hash : String → String)

/-- A state of the view cache reached by well-formed operations. -/
def VCache.Reachable (c : VCache) : Prop := ∃ h : List VOp, (∀ op ∈ h, op.Ok) ∧ c = VCache.init.run hash h

theorem VCache.Reachable.inv {c : VCache} (h : c.Reachable hash) : c.Inv := by
  obtain ⟨ops, ho, rfl⟩ := h
  exact VCache.inv_init.run hash ho

/-! ## C40 -/

/-- C40 in part: `Get` returns the last version written under a key and not deleted since (with its UID). Missing: namespaces and names with
slashes (`C40_slash`), and updates whose old object is the new one although something else is stored (`C40_suppressed`). -/
theorem C40_get_partial (h : List VOp) (hok : ∀ op ∈ h, op.Ok) (hns : ∀ op ∈ h, op.NoSlash)
    (hhon : ∀ p op s, h = p ++ op :: s → op.Honest hash (VCache.init.run hash p)) (g : GVK) (k : ObjKey) (hk : ObjKey.NoSlash k)
    (hv : isViewKind g = true) (o : Obj) :
    (VCache.init.run hash h).get g k = some o ↔ ∃ x, Current h g k x ∧ o = withUID hash (copyObj x) := by
  induction h using rev_induct generalizing o with
  | h0 =>
    constructor
    · intro h; simp [VCache.run, VCache.init, VCache.get, AMap.get] at h
    · rintro ⟨x, ⟨pre, op, post, e, -⟩, -⟩; simp at e
  | h1 h op ih =>
    have hok' : ∀ o ∈ h, o.Ok := fun o ho => hok o (by simp [ho])
    have ih' := ih hok' (fun o ho => hns o (by simp [ho])) (fun p o s e => hhon p o (s ++ [op]) (by rw [e]; simp))
    have hi := VCache.inv_init.run hash hok'
    have hopok := hok op (by simp)
    have hopns := hns op (by simp)
    have hophon := hhon h op [] rfl
    rw [VCache.run_append]
    simp only [current_snoc]
    generalize VCache.init.run hash h = c at ih' hi hophon
    have hkey : ∀ x : Obj, ObjKey.NoSlash (objKey x) → (cacheKey (objKey x) = cacheKey k ↔ objKey x = k) :=
      fun x hx => ⟨cacheKey_inj hx hk, fun e => by rw [e]⟩
    rw [VCache.run_cons, VCache.run, List.foldl_nil]
    cases op with
    | add x =>
      rw [VCache.add_spec hi hash hopok]
      by_cases hc : objGVK x = g ∧ objKey x = k
      · rw [if_pos ⟨hc.1, by rw [hc.2], hv⟩]
        constructor
        · intro h; exact ⟨x, Or.inl ⟨Or.inl rfl, hc⟩, (Option.some.inj h).symm⟩
        · rintro ⟨y, (⟨(e | ⟨old, e⟩), -⟩ | ⟨-, hcc⟩), rfl⟩
          · cases e; rfl
          · cases e
          · exact absurd hc hcc
      · rw [if_neg (fun h => hc ⟨h.1, (hkey x hopns).mp h.2.1⟩), ih']
        constructor
        · rintro ⟨y, hy, rfl⟩; exact ⟨y, Or.inr ⟨hy, hc⟩, rfl⟩
        · rintro ⟨y, (⟨(e | ⟨old, e⟩), hy⟩ | ⟨hy, -⟩), rfl⟩
          · cases e; exact absurd hy hc
          · cases e
          · exact ⟨y, hy, rfl⟩
    | update old x =>
      rw [VCache.update_spec hi hash hopok.2 hopok.1]
      by_cases hc : objGVK x = g ∧ objKey x = k
      · by_cases hs : old = written hash x
        · have hget := hophon hs
          rw [hc.1, hc.2] at hget
          rw [if_neg (fun h => h.2.2.2 hs), hget, hs]
          constructor
          · intro h; exact ⟨x, Or.inl ⟨Or.inr ⟨_, rfl⟩, hc⟩, (Option.some.inj h).symm⟩
          · rintro ⟨y, (⟨(e | ⟨old, e⟩), -⟩ | ⟨-, hcc⟩), rfl⟩
            · cases e
            · cases e; rfl
            · exact absurd hc hcc
        · rw [if_pos ⟨hc.1, by rw [hc.2], hv, hs⟩]
          constructor
          · intro h; exact ⟨x, Or.inl ⟨Or.inr ⟨_, rfl⟩, hc⟩, (Option.some.inj h).symm⟩
          · rintro ⟨y, (⟨(e | ⟨old, e⟩), -⟩ | ⟨-, hcc⟩), rfl⟩
            · cases e
            · cases e; rfl
            · exact absurd hc hcc
      · rw [if_neg (fun h => hc ⟨h.1, (hkey x hopns).mp h.2.1⟩), ih']
        constructor
        · rintro ⟨y, hy, rfl⟩; exact ⟨y, Or.inr ⟨hy, hc⟩, rfl⟩
        · rintro ⟨y, (⟨(e | ⟨old, e⟩), hy⟩ | ⟨hy, -⟩), rfl⟩
          · cases e
          · cases e; exact absurd hy hc
          · exact ⟨y, hy, rfl⟩
    | delete x =>
      rw [VCache.delete_spec hi hash hopok]
      by_cases hc : objGVK x = g ∧ objKey x = k
      · rw [if_pos ⟨hc.1, by rw [hc.2], hv⟩]
        constructor
        · intro h; cases h
        · rintro ⟨y, (⟨(e | ⟨old, e⟩), -⟩ | ⟨-, hcc⟩), rfl⟩
          · cases e
          · cases e
          · exact absurd hc hcc
      · rw [if_neg (fun h => hc ⟨h.1, (hkey x hopns).mp h.2.1⟩), ih']
        constructor
        · rintro ⟨y, hy, rfl⟩; exact ⟨y, Or.inr ⟨hy, hc⟩, rfl⟩
        · rintro ⟨y, (⟨(e | ⟨old, e⟩), hy⟩ | ⟨hy, -⟩), rfl⟩
          · cases e
          · cases e
          · exact ⟨y, hy, rfl⟩
    | _ =>
      rw [VCache.other_get hash _ (by simp) (by simp) (by simp), ih']
      constructor
      · rintro ⟨y, hy, rfl⟩; exact ⟨y, Or.inr ⟨hy, fun h => h⟩, rfl⟩
      · rintro ⟨y, (⟨(e | ⟨old, e⟩), hy⟩ | ⟨hy, -⟩), rfl⟩
        · cases e
        · cases e
        · exact ⟨y, hy, rfl⟩

/-- A view object for examples. -/
def demoView (ns name : String) (data : List (String × Json)) : Obj :=
  [("apiVersion", .str "op.view.dcontroller.io/v1alpha1")] ++ data ++ [("kind", .str "V"), ("metadata", .map [("name", .str name), ("namespace", .str ns)])]

/-- The kind of `demoView`. -/
def demoGVK : GVK := ⟨"op.view.dcontroller.io", "v1alpha1", "V"⟩

-- a history with a rewrite, a deletion and an update that meets the hypotheses of C40_get_partial
example : (∀ op ∈ [VOp.add (demoView "a" "b" []), .update (demoView "a" "b" []) (demoView "a" "b" [("d", .int 1)]), .delete (demoView "a" "c" [])], op.Ok ∧ op.NoSlash) ∧
    (VCache.init.run (fun s => s) [.add (demoView "a" "b" []), .update (demoView "a" "b" []) (demoView "a" "b" [("d", .int 1)])]).get demoGVK ("a", "b") =
      some (withUID (fun s => s) (demoView "a" "b" [("d", .int 1)])) := by
  refine ⟨?_, by decide +kernel⟩
  intro op hop
  simp only [List.mem_cons, List.not_mem_nil, or_false] at hop
  rcases hop with rfl | rfl | rfl
  · exact ⟨by simp only [VOp.Ok]; decide, by simp only [VOp.NoSlash, ObjKey.NoSlash]; decide⟩
  · exact ⟨by simp only [VOp.Ok]; decide, by simp only [VOp.NoSlash, ObjKey.NoSlash]; decide⟩
  · exact ⟨by simp only [VOp.Ok]; decide, by simp only [VOp.NoSlash, ObjKey.NoSlash]; decide⟩

/-- C40: an operation on another object or kind leaves an object alone. -/
theorem C40_frame {c : VCache} (hc : c.Reachable hash) (op : VOp) (hok : op.Ok) (hns : op.NoSlash) (g : GVK) (k : ObjKey) (hk : ObjKey.NoSlash k)
    (h : ¬ op.Concerns g k) : (c.step hash op).get g k = c.get g k := by
  have hi := hc.inv
  cases op with
  | add x => rw [VCache.add_spec hi hash hok, if_neg]; rintro ⟨h1, h2, -⟩; exact h ⟨h1, cacheKey_inj hns hk h2⟩
  | update old x => rw [VCache.update_spec hi hash hok.2 hok.1, if_neg]; rintro ⟨h1, h2, -⟩; exact h ⟨h1, cacheKey_inj hns hk h2⟩
  | delete x => rw [VCache.delete_spec hi hash hok, if_neg]; rintro ⟨h1, h2, -⟩; exact h ⟨h1, cacheKey_inj hns hk h2⟩
  | _ => exact VCache.other_get hash _ (by simp) (by simp) (by simp) g k

/-- C40: the stored version of an object differs from the one written in its UID only, if its kind is a string. -/
theorem C40_content (x : Obj) (hx : Obj.Ok x) (hv : isViewKind (objGVK x) = true) (s : String) (hs : SMap.get x "kind" = some (.str s)) (p : List String)
    (h1 : ¬ ["metadata", "uid"] <+: p) (h2 : ¬ p <+: ["metadata", "uid"]) : nested (withUID hash (copyObj x)) p = nested x p := by
  have hkind : (objGVK x).kind = s := by
    have hg := view_group_ne hv
    unfold objGVK at hg ⊢
    split
    · simp [nestedString, nested_one, hs]
    · next hp => rw [hp] at hg; exact absurd rfl hg
  have hcop : Copied x := by
    refine ⟨by rw [hs, hkind], ?_⟩
    have h := objGVK_apiVersion hv
    rw [nestedString, nested_one] at h
    split at h
    · next s' hs' => rw [hs', h]
    · rw [gvString, if_neg (view_group_ne hv)] at h
      have := congrArg (fun s => s.toList.length) h
      simp [String.toList_append] at this
  rw [hcop.copy hx]
  exact withUID_off hx h1 h2

/-- C40: listing returns exactly the stored objects selected, each once. -/
theorem C40_list {c : VCache} (hc : c.Reachable hash) (lk : GVK) (s : Select) (l : List Obj) (h : c.list lk s = some l) :
    (∀ o, o ∈ l ↔ s.includes o = true ∧ ∃ k, c.get (objFromList lk) k = some o) ∧ (l.map (fun o => cacheKey (objKey o))).Nodup := by
  have hi := hc.inv
  simp only [VCache.list] at h
  split at h
  · simp only [Option.some.injEq] at h
    subst h
    generalize objFromList lk = g
    have hmap : ((((c.stored g).map (·.2)).filter s.includes).map copyObj) = ((c.stored g).map (·.2)).filter s.includes := by
      rw [List.map_congr_left (g := id), List.map_id]
      intro o ho
      obtain ⟨p, hp, rfl⟩ := List.mem_map.mp (List.mem_filter.mp ho).1
      have := hi.ent g p hp
      exact this.2.1.copy this.2.2.1
    rw [hmap]
    constructor
    · intro o
      rw [List.mem_filter, and_comm]
      constructor
      · rintro ⟨h1, h2⟩
        obtain ⟨p, hp, rfl⟩ := List.mem_map.mp h2
        refine ⟨h1, objKey p.2, ?_⟩
        rw [hi.get, ← (hi.ent g p hp).1]
        exact AMap.get_of_mem (hi.wf g) hp
      · rintro ⟨h1, k, h2⟩
        rw [hi.get] at h2
        exact ⟨h1, List.mem_map.mpr ⟨_, AMap.mem_of_get h2, rfl⟩⟩
    · have hk : ((c.stored g).map (·.2)).map (fun o => cacheKey (objKey o)) = (c.stored g).map Prod.fst := by
        rw [List.map_map]
        exact List.map_congr_left (fun p hp => ((hi.ent g p hp).1).symm)
      exact (List.Sublist.map _ (List.filter_sublist)).nodup (hk ▸ hi.wf g)
  · cases h

/-- The fields a field selector can refer to, with their values. -/
def SelectField (o : Obj) (k v : String) : Prop :=
  (k = "metadata.name" ∧ v = (objKey o).2) ∨ (k = "metadata.namespace" ∧ v = (objKey o).1) ∨
  (k = "status.phase" ∧ nested o ["status", "phase"] = some (.str v)) ∨
  (k = "status.ready" ∧ ∃ b, nested o ["status", "ready"] = some (.bool b) ∧ v = if b then "true" else "false")

/-- C40: an object is selected exactly if it is in the namespace asked for, its labels match the label selector and its name, namespace, phase and readiness match
the field selector; what is not asked for does not matter. -/
theorem C40_selected (s : Select) (o : Obj) : s.includes o = true ↔
    (s.namespace' = "" ∨ (objKey o).1 = s.namespace') ∧ (∀ f, s.labels = some f → f ((getStrings o "labels").getD []) = true) ∧
    ∀ f, s.fields = some f → ∃ F : SMap String, F.Sorted ∧ (∀ k v, SMap.get F k = some v ↔ SelectField o k v) ∧ f F = true := by
  have hF : (selectorFields o).Sorted ∧ ∀ k v, SMap.get (selectorFields o) k = some v ↔ SelectField o k v := by
    have s0 : (SMap.set (SMap.set ([] : SMap String) "metadata.name" (objKey o).2) "metadata.namespace" (objKey o).1).Sorted :=
      (SMap.sorted_nil.set _ _).set _ _
    have g0 : ∀ k, SMap.get (SMap.set (SMap.set ([] : SMap String) "metadata.name" (objKey o).2) "metadata.namespace" (objKey o).1) k =
        if "metadata.namespace" = k then some (objKey o).1 else if "metadata.name" = k then some (objKey o).2 else none := by
      intro k
      rw [SMap.get_set _ (SMap.sorted_nil.set _ _), SMap.get_set _ SMap.sorted_nil]
      rfl
    have step : ∀ (f : SMap String) (key : String) (w : Option String), f.Sorted → (w.elim f (fun x => SMap.set f key x)).Sorted ∧
        ∀ k, SMap.get (w.elim f (fun x => SMap.set f key x)) k = if key = k then w.or (SMap.get f k) else SMap.get f k := by
      intro f key w hf
      cases w with
      | none => exact ⟨hf, fun k => by simp⟩
      | some x => exact ⟨hf.set _ _, fun k => by rw [Option.elim, SMap.get_set _ hf]; simp⟩
    let ph : Option String := match nested o ["status", "phase"] with | some (.str s) => some s | _ => none
    let rd : Option String := match nested o ["status", "ready"] with | some (.bool b) => some (if b then "true" else "false") | _ => none
    obtain ⟨s1, g1⟩ := step _ "status.phase" ph s0
    obtain ⟨s2, g2⟩ := step _ "status.ready" rd s1
    have e : selectorFields o = rd.elim (ph.elim (SMap.set (SMap.set ([] : SMap String) "metadata.name" (objKey o).2) "metadata.namespace" (objKey o).1)
        (fun x => SMap.set (SMap.set (SMap.set ([] : SMap String) "metadata.name" (objKey o).2) "metadata.namespace" (objKey o).1) "status.phase" x))
        (fun x => SMap.set (ph.elim (SMap.set (SMap.set ([] : SMap String) "metadata.name" (objKey o).2) "metadata.namespace" (objKey o).1)
          (fun x => SMap.set (SMap.set (SMap.set ([] : SMap String) "metadata.name" (objKey o).2) "metadata.namespace" (objKey o).1) "status.phase" x)) "status.ready" x) := by
      unfold selectorFields
      simp only [ph, rd]
      rcases nested o ["status", "phase"] with _ | (_ | _ | _ | _ | _ | _ | _) <;> rcases nested o ["status", "ready"] with _ | (_ | _ | _ | _ | _ | _ | _) <;> rfl
    have hph : ∀ v, ph = some v ↔ nested o ["status", "phase"] = some (.str v) := by
      intro v
      simp only [ph]
      rcases nested o ["status", "phase"] with _ | (_ | _ | _ | _ | _ | _ | _) <;> simp
    have hrd : ∀ v, rd = some v ↔ ∃ b, nested o ["status", "ready"] = some (.bool b) ∧ v = if b then "true" else "false" := by
      intro v
      simp only [rd]
      rcases nested o ["status", "ready"] with _ | (_ | _ | _ | _ | _ | _ | _) <;> simp [eq_comm]
    rw [e]
    refine ⟨s2, fun k v => ?_⟩
    rw [g2, g1, g0, SelectField, ← hph, ← hrd]
    by_cases k1 : "status.ready" = k
    · subst k1; simp
    · by_cases k2 : "status.phase" = k
      · subst k2; simp
      · by_cases k3 : "metadata.namespace" = k
        · subst k3; simp [eq_comm]
        · by_cases k4 : "metadata.name" = k
          · subst k4; simp [eq_comm]
          · simp [k1, k2, k3, k4, Ne.symm k1, Ne.symm k2, Ne.symm k3, Ne.symm k4]
  unfold Select.includes
  rw [Bool.and_eq_true, Bool.and_eq_true, Bool.or_eq_true, beq_iff_eq, beq_iff_eq, and_assoc]
  refine and_congr_right (fun _ => and_congr ?_ ?_)
  · cases s.labels <;> simp
  · cases s.fields with
    | none => simp
    | some f =>
      simp only [Option.some.injEq, forall_eq']
      constructor
      · exact fun h => ⟨_, hF.1, hF.2, h⟩
      · rintro ⟨F, h1, h2, h3⟩
        rw [show selectorFields o = F from SMap.ext hF.1 h1 (fun k => Option.ext (fun v => by rw [hF.2, h2]))]
        exact h3

-- the fields of a view with a phase
example : SelectField (.cons ("status", .map [("phase", .str "Ready")]) []) "status.phase" "Ready" := .inr (.inr (.inl ⟨rfl, rfl⟩))

/-- C40, negation: two objects whose keys read the same share one place: the second write replaces the first. -/
theorem C40_slash : (VCache.init.run (fun s => s) [.add (demoView "a" "b" []), .add (demoView "" "a/b" [("d", .int 1)])]).get demoGVK ("a", "b") =
    some (withUID (fun s => s) (demoView "" "a/b" [("d", .int 1)])) := by decide +kernel

/-- C40, negation: an update is dropped if the object given as the old one equals the new one, although the stored one differs. -/
theorem C40_suppressed :
    (VCache.init.run (fun s => s) [.add (demoView "a" "b" [("d", .int 1)]), .update (withUID (fun s => s) (demoView "a" "b" [("d", .int 2)])) (demoView "a" "b" [("d", .int 2)])]).get
      demoGVK ("a", "b") = some (withUID (fun s => s) (demoView "a" "b" [("d", .int 1)])) := by decide +kernel

/-! ## C41 -/

/-- C41 in part: a handler of a registered informer that applies the calls it received in order holds exactly the objects in the store, after
any history of writes, registrations and removals. Missing: operations are atomic here; overlapping writes to the same object, and writes
during the registration of the handler, can leave it with a wrong copy (`C41_race_writers`, `C41_race_initial`); what holds for
overlapping operations is `C41_serial_partial`. -/
theorem C41_atomic_partial {c : VCache} (hc : c.Reachable hash) (g : GVK) (i h : Nat) (hr : c.Registered g i) (hl : h ∈ c.live i) :
    (∀ k, mirror (c.log i h) (cacheKey k) = c.get g k) ∧ ∀ s o, mirror (c.log i h) s = some o → s = cacheKey (objKey o) ∧ c.get g (objKey o) = some o := by
  have hi := hc.inv
  have hm := (hi.mirror g i h hr hl).1
  refine ⟨fun k => by rw [hm, hi.get], fun s o ho => ?_⟩
  rw [hm] at ho
  have := hi.ent g _ (AMap.mem_of_get ho)
  exact ⟨this.1, by rw [hi.get, ← this.1]; exact ho⟩

-- a handler registered between two writes
example : let c := VCache.init.run (fun s => s) [.add (demoView "a" "b" []), .getLocal 0 demoGVK, .addHandler 1 id, .delete (demoView "a" "b" [])]
    c.Registered demoGVK 1 ∧ 1 ∈ c.live 1 ∧ (c.log 1 1).length = 2 := by decide +kernel

/-- C41 for overlapping operations, in part: if no write touches an object while an event about that object is still on its way to the handler,
then once all events have arrived the handler holds exactly the store, wherever its registration falls among the writes. Missing: nothing
in the code ensures the condition, and without it the statement is false (`C41_race_writers`, `C41_race_initial`). -/
theorem C41_serial_partial (r : Race) (h : Race.Serial Race.init r) (hq : r.Quiet) (k : String) : mirror r.log k = r.store k := by
  have hi := Race.sinv_init.serial h
  rcases hi.rest (by rw [hq.2.2]; simp) k (fun x hx => by rw [hq.1, hq.2.1] at hx; simp at hx) with h | h
  · exact h
  · rw [hq.2.2] at h; cases h.1

-- a serial run with a write before the registration and one after it
example : ∃ r, Race.Serial Race.init r ∧ r.Quiet ∧ r.log.length = 2 := by
  let e1 := CEv.add (demoView "a" "b" [])
  let e2 := CEv.add (demoView "a" "c" [])
  have h1 : Race.Serial Race.init _ := .tail (.refl _) (.write _ e1) (by simp [Race.init])
  have h2 := Race.Serial.tail h1 (.fire _ e1 [] [] rfl) (by simp [Race.init])
  have h3 := Race.Serial.tail h2 (.register _ rfl) (by simp [Race.init])
  have h4 := Race.Serial.tail h3 (.list _ rfl [demoView "a" "b" []] (by
    intro o
    simp only [Race.init, Mirror.apply, e1, List.mem_singleton]
    constructor
    · rintro rfl; exact ⟨_, if_pos rfl⟩
    · rintro ⟨k, hk⟩
      split at hk
      · exact (Option.some.inj hk).symm
      · cases hk)) (by simp [Race.init])
  have h5 := Race.Serial.tail h4 (.deliver _ e1 [] rfl) (by simp [Race.init])
  have h6 := Race.Serial.tail h5 (.write _ e2) (by simp [Race.init])
  have h7 := Race.Serial.tail h6 (.fire _ e2 [] [] rfl) (by simp [Race.init])
  exact ⟨_, h7, ⟨rfl, rfl, rfl⟩, rfl⟩

/-- C41, negation: two writers of the same object can call the handler in the opposite order; it ends with the older version. -/
theorem C41_race_writers : ∃ r, Race.Steps Race.init r ∧ r.Quiet ∧ ∃ k a b, mirror r.log k = some a ∧ r.store k = some b ∧ a ≠ b := by
  let e1 := CEv.add (demoView "a" "b" [])
  let e2 := CEv.add (demoView "a" "b" [("d", .int 1)])
  have h1 : Race.Steps Race.init _ := .tail (.refl _) (.register _ rfl)
  have h2 := Race.Steps.tail h1 (.list _ rfl [] (by simp [Race.init]))
  have h3 := Race.Steps.tail h2 (.write _ e1)
  have h4 := Race.Steps.tail h3 (.write _ e2)
  have h5 := Race.Steps.tail h4 (.fire _ e2 [] [e1] rfl)
  have h6 := Race.Steps.tail h5 (.fire _ e1 [] [] rfl)
  exact ⟨_, h6, ⟨rfl, rfl, rfl⟩, "a/b", demoView "a" "b" [], demoView "a" "b" [("d", .int 1)], by decide +kernel, by decide +kernel, by decide⟩

/-- C41, negation: an object deleted while a handler is being registered can reach the handler after its deletion; it stays there for ever. -/
theorem C41_race_initial : ∃ r, Race.Steps Race.init r ∧ r.Quiet ∧ ∃ k a, mirror r.log k = some a ∧ r.store k = none := by
  let o := demoView "a" "b" []
  have h1 : Race.Steps Race.init _ := .tail (.refl _) (.write _ (.add o))
  have h2 := Race.Steps.tail h1 (.fire _ (.add o) [] [] rfl)
  have h3 := Race.Steps.tail h2 (.register _ rfl)
  have h4 := Race.Steps.tail h3 (.list _ rfl [o] (by
    intro x
    simp only [Race.init, Mirror.apply, List.mem_singleton]
    constructor
    · rintro rfl; exact ⟨_, if_pos rfl⟩
    · rintro ⟨k, hk⟩
      split at hk
      · exact (Option.some.inj hk).symm
      · cases hk))
  have h5 := Race.Steps.tail h4 (.write _ (.delete o))
  have h6 := Race.Steps.tail h5 (.fire _ (.delete o) [] [] rfl)
  have h7 := Race.Steps.tail h6 (.deliver _ (.add o) [] rfl)
  exact ⟨_, h7, ⟨rfl, rfl, rfl⟩, "a/b", o, by decide +kernel, by decide +kernel⟩

/-! ## C42 -/

/-- C42 in part: a client that applies the events of its watch holds exactly the objects a fresh list with the same options returns. Missing: the
channel of the watch must never be full when an event is sent (`C42_initial_lost`), no write may take an object out of the selection
(`C42_stale`), and the informer the watch hangs on must still be registered (`C42_deaf`). -/
theorem C42_watch_partial {c : VCache} (hc : c.Reachable hash) (lk : GVK) (s : Select) (i h : Nat) (hr : c.Registered (objFromList lk) i) (hl : h ∈ c.live i)
    (hv : isViewKind (objFromList lk) = true) (hn : NoLeave s (c.log i h)) (steps : List WStep) (hs : WStep.calls steps = c.log i h)
    (ho : NoOverflow s ⟨[], []⟩ steps) :
    let w := steps.foldl (Watcher.step s) ⟨[], []⟩
    ∃ l, c.list lk s = some l ∧ ∀ o, (∃ k, wmirror (w.got ++ w.chan) k = some o) ↔ o ∈ l := by
  intro w
  have hi := hc.inv
  obtain ⟨l, hlist⟩ : ∃ l, c.list lk s = some l := by simp only [VCache.list, hv, if_true]; exact ⟨_, rfl⟩
  refine ⟨l, hlist, fun o => ?_⟩
  have hw : w.got ++ w.chan = (c.log i h).filterMap (watchEv s) := by
    rw [← hs]; simpa using schedule_stream s ⟨[], []⟩ steps ho
  have hm := hi.mirror _ i h hr hl
  rw [hw, (C40_list hash hc lk s l hlist).1 o]
  constructor
  · rintro ⟨k, hk⟩
    rw [stream_mirror s _ hm.2 hn, hm.1] at hk
    obtain ⟨h1, h2⟩ := Option.filter_eq_some_iff.mp hk
    refine ⟨h2, objKey o, ?_⟩
    rw [hi.get, ← (hi.stored_copy h1).2]; exact h1
  · rintro ⟨h1, k, h2⟩
    refine ⟨cacheKey k, ?_⟩
    rw [stream_mirror s _ hm.2 hn, hm.1, ← hi.get, h2]
    simp [Option.filter, h1]

/-- The selection of a namespace, for examples. -/
def demoSelect (ns : String) : Select := ⟨ns, none, none⟩

-- a watch on one of two namespaces, with a deletion; the client has received one of the events so far
example : let c := VCache.init.run (fun s => s) [.add (demoView "a" "b" []), .getShared demoGVK, .addHandler 0 id, .add (demoView "b" "c" []), .delete (demoView "a" "b" [])]
    c.Registered demoGVK 0 ∧ 1 ∈ c.live 0 ∧ isViewKind demoGVK = true ∧
      (c.log 0 1).filterMap (watchEv (demoSelect "a")) =
        [.added (withUID (fun s => s) (demoView "a" "b" [])), .deleted (withUID (fun s => s) (demoView "a" "b" []))] := by decide +kernel

/-- C42: the events in the channel and those received are all selected events in order, as long as the channel is not full when one is sent. -/
theorem C42_channel (s : Select) (steps : List WStep) (ho : NoOverflow s ⟨[], []⟩ steps) :
    let w := steps.foldl (Watcher.step s) ⟨[], []⟩
    w.got ++ w.chan = (WStep.calls steps).filterMap (watchEv s) := by
  simpa using schedule_stream s ⟨[], []⟩ steps ho

theorem watch_chan_le (s : Select) (steps : List WStep) (w : Watcher) :
    (steps.foldl (Watcher.step s) w).chan.length ≤ w.chan.length + ((WStep.calls steps).filterMap (watchEv s)).length := by
  induction steps generalizing w with
  | nil => simp [WStep.calls]
  | cons a steps ih =>
    rw [List.foldl_cons]
    refine Nat.le_trans (ih _) ?_
    cases a with
    | call e =>
      simp only [Watcher.step, Watcher.handle, WStep.calls, List.filterMap_cons]
      cases watchEv s e with
      | none => simp
      | some x =>
        simp only [Watcher.send]
        split
        · simp; omega
        · simp
    | recv =>
      simp only [Watcher.step, Watcher.recv, WStep.calls]
      cases hc : w.chan with
      | nil => simp [hc]
      | cons x xs => simp

theorem calls_append (a b : List WStep) : WStep.calls (a ++ b) = WStep.calls a ++ WStep.calls b := by
  induction a with
  | nil => rfl
  | cons x a ih => cases x <;> simp [WStep.calls, ih]

/-- C42: a watch with at most 256 selected events never overflows, however slow the client is. -/
theorem C42_buffer (s : Select) (steps : List WStep) (h : ((WStep.calls steps).filterMap (watchEv s)).length ≤ 256) : NoOverflow s ⟨[], []⟩ steps := by
  rintro p e q rfl hs
  refine Nat.lt_of_le_of_lt (watch_chan_le s p _) ?_
  obtain ⟨x, hx⟩ := Option.isSome_iff_exists.mp hs
  simp only [calls_append, WStep.calls, List.filterMap_append, List.filterMap_cons, List.length_append, hx, List.length_cons] at h
  simp only [List.length_nil, watchBuffer]
  omega

-- two objects and a client that has not received anything
example : ((WStep.calls [.call (.add (demoView "a" "b" [])), .call (.add (demoView "a" "c" []))]).filterMap (watchEv (demoSelect "a"))).length ≤ 256 := by decide

/-- C42, negation: of more than 256 selected objects present when the watch is opened, those beyond the first 256 never reach the client: they are
sent before the client can receive anything. -/
theorem C42_initial_lost (s : Select) (l : List Obj) (hn : l.Nodup) (h : watchBuffer < (l.filter s.includes).length) :
    ∃ o, o ∈ l ∧ s.includes o = true ∧ ∀ e ∈ (Watcher.open s l).got ++ (Watcher.open s l).chan, e ≠ .added o := by
  have hw : Watcher.open s l = ⟨((l.filter s.includes).take watchBuffer).map WEv.added, []⟩ := by
    rw [Watcher.open, open_chan]; simp
  have hget := List.getElem_mem h
  refine ⟨(l.filter s.includes)[watchBuffer], (List.mem_filter.mp hget).1, (List.mem_filter.mp hget).2, fun e he hx => ?_⟩
  rw [hw] at he
  simp only [List.nil_append] at he
  obtain ⟨o, ho, rfl⟩ := List.mem_map.mp he
  cases hx
  obtain ⟨j, hj, hje⟩ := List.mem_iff_getElem.mp ho
  rw [List.getElem_take] at hje
  have hj' : j < watchBuffer := by simp only [List.length_take] at hj; omega
  have := (List.getElem_inj (hn.filter s.includes)).mp hje
  omega

-- 300 objects in one namespace meet the hypotheses
example : let l := (List.range 300).map (fun (n : Nat) => ([("n", .int n)] : Obj))
    l.Nodup ∧ watchBuffer < (l.filter (demoSelect "").includes).length := by
  constructor
  · rw [List.Nodup, List.pairwise_map]
    refine List.Pairwise.imp ?_ (List.nodup_range (n := 300))
    intro a b h hx
    simp only [List.cons.injEq, Prod.mk.injEq, Json.int.injEq, true_and, and_true] at hx
    exact h (by omega)
  · rw [List.filter_eq_self.mpr (by intro o _; rfl)]; simp [watchBuffer]

/-- C42, negation: an update that takes an object out of the selection sends no event; the client keeps the old version although a fresh list
does not contain the object. -/
theorem C42_stale :
    let s : Select := ⟨"", some (fun l => SMap.get l "app" == some "x"), none⟩
    let v (a : String) : Obj := [("apiVersion", .str "op.view.dcontroller.io/v1alpha1"), ("kind", .str "V"),
      ("metadata", .map [("labels", .map [("app", .str a)]), ("name", .str "b")])]
    let c := VCache.init.run (fun s => s) [.getShared demoGVK, .addHandler 0 id, .add (v "x"), .update (v "x") (v "y")]
    c.list (listFromObj demoGVK) s = some [] ∧ wmirror ((c.log 0 1).filterMap (watchEv s)) "b" = some (withUID (fun s => s) (v "x")) := by decide +kernel

/-- C42, negation: once the shared informer has been removed, its watches receive nothing any more. -/
theorem C42_deaf :
    let c := VCache.init.run (fun s => s) [.getShared demoGVK, .addHandler 0 id, .removeShared demoGVK, .add (demoView "a" "b" [])]
    1 ∈ c.live 0 ∧ c.log 0 1 = [] ∧ c.get demoGVK ("a", "b") ≠ none := by decide +kernel

/-! ## C43 -/

/-- C43 in part: each operation calls every handler of every registered informer of its kind exactly once with the event, and no other handler.
Missing: operations are atomic here; unregistering an informer while a writer goes through the list of informers can make the writer
call another informer twice or not at all (`C43_race_twice`, `C43_race_missed`). -/
theorem C43_once_partial {c : VCache} (hc : c.Reachable hash) (op : VOp) (hok : op.Ok) (i h : Nat) (hlt : i < c.next) (hl : h ∈ c.live i) :
    (c.step hash op).log i h = c.log i h ++ if c.Registered (c.kindOf i) i then op.events hash c (c.kindOf i) else [] :=
  VCache.step_log hc.inv hash hok hlt hl

-- informers of two operators and the shared one
example : let c := VCache.init.run (fun s => s) [.getLocal 0 demoGVK, .getLocal 1 demoGVK, .addHandler 0 id, .addHandler 1 id]
    c.Registered (c.kindOf 0) 0 ∧ c.Registered (c.kindOf 1) 1 ∧ 1 ∈ c.live 0 ∧ 1 ∈ c.live 1 ∧ 1 < c.next ∧
      (VOp.add (demoView "a" "b" [])).events (fun s => s) c demoGVK ≠ [] := by decide +kernel

/-- C43: removing the informer of one operator leaves those of the others, and the shared one, registered with all their handlers. -/
theorem C43_remove_local {c : VCache} (hc : c.Reachable hash) (n : Nat) (g g' : GVK) (j : Nat) (h : c.Registered g' j)
    (hother : c.shared g' = some j ∨ ∃ m, m ≠ n ∧ c.locals m g' = some j) :
    (c.step hash (.removeLocal n g)).Registered g' j ∧ (c.step hash (.removeLocal n g)).live j = c.live j := by
  have hi := hc.inv
  have hlj : ∀ i, c.locals n g = some i → g' = g → j ≠ i := by
    rintro i hn rfl rfl
    rcases hother with hs | ⟨m, hm, hl⟩
    · exact (hi.locals n g' j hn).2.2 hs
    · obtain ⟨ops, ho, rfl⟩ := hc
      exact hm (locals_run hash ops ho _ _ _ _ hl hn)
  simp only [VCache.step, VCache.removeLocal]
  split
  · next i hn =>
    refine ⟨?_, rfl⟩
    rcases h with h | h
    · exact Or.inl h
    · right
      simp only [VCache.unregisterDelegating, upd]
      split
      · next e => subst e; exact (mem_swapRemove (hi.nodup _)).mpr ⟨h, hlj i hn rfl⟩
      · exact h
  · exact ⟨h, rfl⟩

/-- C43: stopping an operator leaves the informers of the others, and the shared ones, registered with all their handlers. -/
theorem C43_remove_stop {c : VCache} (hc : c.Reachable hash) (n : Nat) (g' : GVK) (j : Nat) (h : c.Registered g' j)
    (hother : c.shared g' = some j ∨ ∃ m, m ≠ n ∧ c.locals m g' = some j) :
    (c.step hash (.stop n)).Registered g' j ∧ (c.step hash (.stop n)).live j = c.live j := by
  have hi := hc.inv
  refine ⟨?_, rfl⟩
  rcases h with h | h
  · exact Or.inl h
  · right
    simp only [VCache.step, VCache.stop]
    split
    · next i hn =>
      refine (mem_swapRemove (hi.nodup _)).mpr ⟨h, ?_⟩
      rintro rfl
      rcases hother with hs | ⟨m, hm, hl⟩
      · exact (hi.locals n g' j hn).2.2 hs
      · obtain ⟨ops, ho, rfl⟩ := hc
        exact hm (locals_run hash ops ho _ _ _ _ hl hn)
    · exact h

/-- C43: removing a shared informer leaves the informers of all operators, and shared ones of other kinds, registered with all their handlers. -/
theorem C43_remove_shared {c : VCache} (hc : c.Reachable hash) (g g' : GVK) (j : Nat) (h : c.Registered g' j)
    (hother : g' ≠ g ∨ ∃ m, c.locals m g' = some j) :
    (c.step hash (.removeShared g)).Registered g' j ∧ (c.step hash (.removeShared g)).live j = c.live j := by
  have hi := hc.inv
  refine ⟨?_, rfl⟩
  rcases h with h | h
  · left
    simp only [VCache.step, VCache.removeShared, upd]
    split
    · next e =>
      rcases hother with hne | ⟨m, hl⟩
      · exact absurd e hne
      · exact absurd h (hi.locals m g' j hl).2.2
    · exact h
  · exact Or.inr h

/-- C43: removing a handler leaves all informers registered and all other handlers in place. -/
theorem C43_remove_handler (c : VCache) (i h : Nat) (g : GVK) (j h' : Nat) (hr : c.Registered g j) (hl : h' ∈ c.live j) (hne : (j, h') ≠ (i, h)) :
    (c.step hash (.removeHandler i h)).Registered g j ∧ h' ∈ (c.step hash (.removeHandler i h)).live j := by
  refine ⟨hr, ?_⟩
  simp only [VCache.step, VCache.removeHandler, upd]
  split
  · next e =>
    subst e
    exact (List.mem_erase_of_ne (fun e => hne (by rw [e]))).mpr hl
  · exact hl

example : let c := VCache.init.run (fun s => s) [.getLocal 0 demoGVK, .getLocal 1 demoGVK, .getShared demoGVK]
    c.Registered demoGVK 1 ∧ c.locals 1 demoGVK = some 1 ∧ c.shared demoGVK = some 2 ∧
      (c.step (fun s => s) (.removeLocal 0 demoGVK)).deleg demoGVK = [1] := by decide +kernel

/-- C43: registering an informer puts it at the end of the list, whether the list is moved or not. -/
theorem C43_append (s : Slice) (hs : s.len ≤ s.arr.length) (x : Nat) :
    (s.append x).toList = s.toList ++ [x] ∧ (s.append x).len ≤ (s.append x).arr.length := by
  unfold Slice.append
  split
  · next h =>
    refine ⟨?_, by simp only [List.length_set]; omega⟩
    simp only [Slice.toList]
    rw [List.take_succ_eq_append_getElem (by simpa using h), List.take_set_of_le (Nat.le_refl _)]
    simp
  · next h =>
    have he : s.len = s.arr.length := by omega
    simp only [Slice.toList, he, List.length_append, List.length_cons]
    refine ⟨?_, by omega⟩
    rw [List.take_append, List.take_of_length_le (Nat.le_succ _), List.take_of_length_le (Nat.le_refl _)]
    simp

/-- C43: unregistering an informer takes it, once, out of the list and keeps all others; their order may change. -/
theorem C43_remove (s : Slice) (hs : s.len ≤ s.arr.length) (x : Nat) :
    (s.remove x).toList.Perm (s.toList.erase x) ∧ (s.remove x).len ≤ (s.remove x).arr.length := by
  unfold Slice.remove
  split
  · next h =>
    rw [List.idxOf?_eq_none_iff] at h
    rw [List.erase_of_not_mem h]
    exact ⟨List.Perm.refl _, hs⟩
  · next i h =>
    refine ⟨?_, by simp only [List.length_set]; omega⟩
    rw [List.idxOf?_eq_some_iff] at h
    obtain ⟨h1, h2, h3⟩ := h
    obtain ⟨a, b, he, hi, hx⟩ : ∃ a b, s.toList = a ++ x :: b ∧ a.length = i ∧ x ∉ a := by
      refine ⟨s.toList.take i, s.toList.drop (i + 1), ?_, by simp; omega, ?_⟩
      · rw [← h2, ← List.drop_eq_getElem_cons h1, List.take_append_drop]
      · intro hm
        obtain ⟨j, hj, he⟩ := List.mem_iff_getElem.mp hm
        rw [List.getElem_take] at he
        exact h3 j (by simp at hj; omega) he
    have hl : a.length + 1 + b.length = s.len := by
      have := congrArg List.length he
      simp only [Slice.toList, List.length_take, List.length_append, List.length_cons] at this
      omega
    have ha : s.arr = a ++ x :: b ++ s.arr.drop s.len := by
      have : s.arr.take s.len ++ s.arr.drop s.len = s.arr := List.take_append_drop _ _
      rw [← this, ← he]; simp [Slice.toList]
    rw [he, List.erase_append_right _ hx, List.erase_cons_head]
    simp only [Slice.toList]
    generalize hr : s.arr.drop s.len = r at ha
    rw [ha, ← hl, ← hi]
    rcases List.eq_nil_or_concat b with rfl | ⟨b', z, rfl⟩
    · simp
    · have h1 : (a ++ x :: (b'.concat z) ++ r).getD (a.length + 1 + (b'.concat z).length - 1) 0 = z := by
        have e : a ++ x :: (b'.concat z) ++ r = (a ++ x :: b') ++ z :: r := by simp
        have e' : a.length + 1 + (b'.concat z).length - 1 = (a ++ x :: b').length := by simp; omega
        rw [e, e', List.getD_eq_getElem?_getD, List.getElem?_append_right (Nat.le_refl _)]
        simp
      rw [h1]
      have h2 : (a ++ x :: (b'.concat z) ++ r).set a.length z = a ++ z :: b' ++ (z :: r) := by simp
      rw [h2]
      have h3 : (a ++ z :: b' ++ z :: r).take (a.length + 1 + (b'.concat z).length - 1) = a ++ z :: b' := by
        rw [List.take_append_of_le_length (by simp; omega), List.take_of_length_le (by simp; omega)]
      rw [h3]
      refine List.Perm.append_left _ ?_
      rw [List.concat_eq_append]
      exact (List.perm_append_comm (l₁ := [z]) (l₂ := b'))

example : ((Slice.append ⟨[], 0⟩ 1).append 2).toList = [1, 2] ∧ (((Slice.append ⟨[], 0⟩ 1).append 2).remove 1).toList = [2] := by decide

/-- C43: a writer going through the list of informers calls each informer that was in it at the start exactly once, in order, whatever informers are
registered meanwhile. Missing: informers unregistered meanwhile. -/
theorem C43_notify_partial (s : Slice) (hs : s.len ≤ s.arr.length) (ops : List NOp) (ho : ∀ op ∈ ops, ∀ x, op ≠ .unregister x)
    (hdone : (Notify.run s ops).pos = s.len) : (Notify.run s ops).called = s.toList := by
  have hi := Notify.Inv.run hs ops ho
  rw [hi.called, hdone, Slice.toList, List.take_take, Nat.min_self]

example : (Notify.run ⟨[1, 2], 2⟩ [.call, .register 3, .call]).pos = 2 := by decide

/-- C43, negation: of three registered informers the first is unregistered just before the writer goes through the list: the third is called twice. -/
theorem C43_race_twice : let s := ((Slice.append ⟨[], 0⟩ 1).append 2).append 3
    s.toList = [1, 2, 3] ∧ (Notify.run s [.unregister 1, .call, .call, .call]).called = [3, 2, 3] := by decide

/-- C43, negation: after the first of three informers has been called it is unregistered and another one is registered: the third is not called
although it is registered all the time. -/
theorem C43_race_missed : let s := ((Slice.append ⟨[], 0⟩ 1).append 2).append 3
    let w := Notify.run s [.call, .unregister 1, .register 4, .call, .call]
    w.called = [1, 2, 4] ∧ 3 ∈ s.toList ∧ 3 ∈ w.cur.toList ∧ w.pos = s.len := by decide

end Dctl
