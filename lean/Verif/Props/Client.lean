import Verif.Cache.Client
import Verif.Props.Cache
import Verif.Props.Group
import Verif.Controller.TargetLemmas
/-!
# C39 Requests are routed to exactly one backend, C44 View client write operations
-/
set_option autoImplicit false
set_option linter.unusedSectionVars false
namespace Dctl

/-! ## C39 -/

section
variable {V N A R : Type}

/-- The kind of the object or list a call is about. -/
def CCall.kind : CCall A → GVK
  | .create g _ | .delete g _ | .update g _ | .patch g _ | .deleteAllOf g _ | .get g _ | .list g _ | .watch g _ | .getInformer g _
  | .getInformerForKind g _ | .removeInformer g _ | .indexField g _ | .statusGet g _ _ | .statusCreate g _ _ | .statusUpdate g _ | .statusPatch g _ => g

/-- Not a watch on a native kind, and no subresource call whose object and subresource object are one a view and the other not. -/
def CCall.Plain : CCall A → Prop
  | .watch g _ => isViewKind g = true
  | .statusGet g sub _ => isViewKind g = isViewKind sub
  | .statusCreate g sub _ => isViewKind g = isViewKind sub
  | _ => True

/-- The answers of one back end to a sequence of calls, with its final state. -/
def answers {S : Type} (f : S → CCall A → S × R) (s : S) : List (CCall A) → S × List R
  | [] => (s, [])
  | x :: l => ((answers f (f s x).1 l).1, (f s x).2 :: (answers f (f s x).1 l).2)

theorem call_plain (b : Backends V N A R) (s : V × N) (x : CCall A) (h : x.Plain) :
    b.call s x = if isViewKind x.kind then b.toView s x else b.toNative s x := by
  cases x with
  | watch g a => simp only [CCall.Plain] at h; rw [show (CCall.watch g a).kind = g from rfl, if_pos h]; exact if_pos h
  | statusGet g sub a => simp only [CCall.Plain] at h; rw [show (CCall.statusGet g sub a).kind = g from rfl, h]; rfl
  | statusCreate g sub a => simp only [CCall.Plain] at h; rw [show (CCall.statusCreate g sub a).kind = g from rfl, h]; rfl
  | _ => rfl

/-- C39 in part: in any sequence of calls the view back end sees exactly the calls on views, the native one exactly the others, each in order, and
every caller gets the answer of the back end of its object. Missing: watches on native kinds (`C39_native_watch`) and subresource calls
with objects of two sorts (`C39_subresource`). -/
theorem C39_routing_partial (b : Backends V N A R) (s : V × N) (l : List (CCall A)) (h : ∀ x ∈ l, x.Plain) :
    (b.run s l).1.1 = (answers b.view s.1 (l.filter (fun x => isViewKind x.kind))).1 ∧
    (b.run s l).1.2 = (answers b.native s.2 (l.filter (fun x => !isViewKind x.kind))).1 ∧
    (((l.zip (b.run s l).2).filter (fun p => isViewKind p.1.kind)).map (·.2)) = (answers b.view s.1 (l.filter (fun x => isViewKind x.kind))).2 ∧
    (((l.zip (b.run s l).2).filter (fun p => !isViewKind p.1.kind)).map (·.2)) = (answers b.native s.2 (l.filter (fun x => !isViewKind x.kind))).2 := by
  induction l generalizing s with
  | nil => simp [Backends.run, answers]
  | cons x l ih =>
    have ih' := fun s => ih s (fun y hy => h y (List.mem_cons_of_mem _ hy))
    have hx := call_plain b s x (h x (by simp))
    simp only [Backends.run, List.zip_cons_cons, List.filter_cons]
    cases hk : isViewKind x.kind with
    | true =>
      rw [if_pos hk] at hx
      rw [hx]
      have := ih' (b.toView s x).1
      simp only [Backends.toView] at this ⊢
      simp [answers, this]
    | false =>
      rw [if_neg (by simp [hk])] at hx
      rw [hx]
      have := ih' (b.toNative s x).1
      simp only [Backends.toNative] at this ⊢
      simp [answers, this]

example : ∀ x ∈ [CCall.create demoGVK (), .get ⟨"", "v1", "Pod"⟩ (), .statusUpdate demoGVK ()], x.Plain := by
  intro x hx
  simp only [List.mem_cons, List.not_mem_nil, or_false] at hx
  rcases hx with rfl | rfl | rfl <;> trivial

/-- C39, negation: a watch on a native kind goes nowhere and fails. -/
theorem C39_native_watch (b : Backends V N A R) (s : V × N) (g : GVK) (a : A) (h : isViewKind g = false) : b.call s (.watch g a) = (s, b.noWatch) := by
  simp [Backends.call, h]

/-- C39, negation: reading and creating a subresource of a view goes to the native client if the object given for the subresource is not a view. -/
theorem C39_subresource (b : Backends V N A R) (s : V × N) (g sub : GVK) (a : A) (h : isViewKind sub = false) :
    b.call s (.statusGet g sub a) = b.toNative s (.statusGet g sub a) ∧ b.call s (.statusCreate g sub a) = b.toNative s (.statusCreate g sub a) := by
  simp [Backends.call, h]

end

/-! ## C44 -/

variable (hash : String → String) {c : VCache}

theorem VCache.Reachable.step (hc : c.Reachable hash) {op : VOp} (ho : op.Ok) : (c.step hash op).Reachable hash := by
  obtain ⟨ops, h, rfl⟩ := hc
  refine ⟨ops ++ [op], fun o hm => ?_, by rw [VCache.run_append]; rfl⟩
  rcases List.mem_append.mp hm with hm | hm
  · exact h o hm
  · rw [List.mem_singleton] at hm; rw [hm]; exact ho

theorem add_some (o : Obj) (hv : isViewKind (objGVK o) = true) : ∃ c', c.add hash o = some c' := by
  simp only [VCache.add, hv, if_true]
  exact VCache.notify_some hv _

/-- C44: creating a view object stores it (with its UID) under its kind and name and changes nothing else. -/
theorem C44_create (hc : c.Reachable hash) (o : Obj) (ho : Obj.Ok o) (hv : isViewKind (objGVK o) = true) :
    ∃ c', c.clientCreate hash o = some c' ∧ ∀ g k, c'.get g k = if objGVK o = g ∧ cacheKey (objKey o) = cacheKey k then some (withUID hash (copyObj o)) else c.get g k := by
  obtain ⟨c', h⟩ := add_some hash (c := c) o hv
  refine ⟨c', h, fun g k => ?_⟩
  have := VCache.add_spec hc.inv hash ho g k
  rw [VCache.step, h, Option.getD_some] at this
  rw [this]
  by_cases hg : objGVK o = g
  · simp [← hg, hv, written]
  · simp [hg]

/-- C44, negation: creating an object that exists does not fail; it replaces the stored one. -/
theorem C44_create_existing (hc : c.Reachable hash) (o old : Obj) (ho : Obj.Ok o) (hv : isViewKind (objGVK o) = true)
    (_ : c.get (objGVK o) (objKey o) = some old) :
    ∃ c', c.clientCreate hash o = some c' ∧ c'.get (objGVK o) (objKey o) = some (withUID hash (copyObj o)) := by
  obtain ⟨c', h, h'⟩ := C44_create hash hc o ho hv
  exact ⟨c', h, by rw [h', if_pos ⟨rfl, rfl⟩]⟩

-- an object that exists, created again with other content
example : (VCache.init.run (fun s => s) [.add (demoView "a" "b" [])]).get (objGVK (demoView "a" "b" [("d", .int 1)])) (objKey (demoView "a" "b" [("d", .int 1)])) =
    some (withUID (fun s => s) (demoView "a" "b" [])) := by decide +kernel

/-- C44: deleting an object that exists removes it and changes nothing else. -/
theorem C44_delete (hc : c.Reachable hash) (o old : Obj) (ho : Obj.Ok o) (hg : c.get (objGVK o) (objKey o) = some old) :
    ∃ c', c.clientDelete o = some c' ∧ ∀ g k, c'.get g k = if objGVK o = g ∧ cacheKey (objKey o) = cacheKey k then none else c.get g k := by
  have hv : isViewKind (objGVK o) = true := by
    simp only [VCache.get] at hg
    split at hg
    · assumption
    · cases hg
  have hs := hc.inv.get (objGVK o) (objKey o)
  rw [hg] at hs
  obtain ⟨c', h⟩ : ∃ c', c.delete o = some c' := by
    simp only [VCache.delete, hv, if_true, ← hs]
    exact VCache.notify_some hv _
  refine ⟨c', h, fun g k => ?_⟩
  have := VCache.delete_spec hc.inv hash ho g k
  rw [VCache.step, h, Option.getD_some] at this
  rw [this]
  by_cases hgg : objGVK o = g
  · simp [← hgg, hv]
  · simp [hgg]

/-- C44: deleting an object that does not exist fails. -/
theorem C44_delete_missing (hc : c.Reachable hash) (o : Obj) (hg : c.get (objGVK o) (objKey o) = none) : c.clientDelete o = none := by
  have hs := hc.inv.get (objGVK o) (objKey o)
  rw [hg] at hs
  simp only [VCache.clientDelete, VCache.delete, ← hs]
  split <;> rfl

example : let c := VCache.init.run (fun s => s) [.add (demoView "a" "b" [])]
    c.get (objGVK (demoView "a" "b" [])) (objKey (demoView "a" "b" [])) ≠ none ∧ c.get (objGVK (demoView "a" "c" [])) (objKey (demoView "a" "c" [])) = none := by
  decide +kernel

/-- An object of a view of an operator whose name has no dots. -/
def OwnView (o : Obj) : Prop := ∃ op kind, '.' ∉ op.toList ∧ objGVK o = viewGVK op kind

theorem OwnView.kind {o : Obj} (h : OwnView o) : VCache.clientKind o = objGVK o ∧ isViewKind (objGVK o) = true := by
  obtain ⟨op, kind, hd, he⟩ := h
  have h1 := (C38_operator op kind).mpr hd
  have h2 := (C38_view_groups op ⟨"", "", kind⟩).1
  rw [VCache.clientKind, he, h1]
  exact ⟨rfl, h2⟩

theorem update_some (old o : Obj) (ho : Obj.Ok o) (hv : isViewKind (objGVK o) = true) : ∃ c', c.update hash old o = some c' := by
  have hg := written_gvk (hash := hash) ho hv
  simp only [written] at hg
  simp only [VCache.update, hg, hv, if_true]
  split
  · exact ⟨_, rfl⟩
  · exact VCache.notify_some hv _

theorem clientUpdate_eq (o : Obj) : c.clientUpdate hash o = (c.get (VCache.clientKind o) (objKey o)).bind (fun old => if old = o then some c else c.update hash old o) := by
  unfold VCache.clientUpdate
  generalize c.get _ _ = x
  cases x <;> rfl

theorem clientPatch_eq (o p : Obj) : c.clientPatch hash o p = (c.get (VCache.clientKind o) (objKey o)).bind (fun cur => c.update hash cur (patchObj (copyObj cur) p)) := by
  unfold VCache.clientPatch
  generalize c.get _ _ = x
  cases x with
  | none => simp only [Option.bind_none]
  | some cur => simp only [Option.bind_some]

theorem clientDeleteAll_eq (o : Obj) (s : Select) : c.clientDeleteAll o s = (c.list (listFromObj (VCache.clientKind o)) s).bind (fun l => c.deleteEach l) := by
  unfold VCache.clientDeleteAll
  generalize c.list _ _ = x
  cases x <;> rfl

theorem subUpdate_eq (sub : String) (o : Obj) {m : Obj} (hm : nested o [sub] = some (.map m)) : c.subUpdate hash sub o = (c.get (VCache.clientKind o) (objKey o)).bind (fun cur =>
    if nested cur [sub] = some (.map m) then some c else c.clientUpdate hash (setField cur [sub] (.map m))) := by
  unfold VCache.subUpdate
  generalize c.get _ _ = x
  cases x with
  | none => simp only [Option.bind_none]
  | some cur => simp only [hm, Option.bind_some]

/-- An update whose old object is the stored one stores the new one. -/
theorem update_honest (hc : c.Reachable hash) (old o : Obj) (ho : Obj.Ok o) (hv : isViewKind (objGVK o) = true) (hg : c.get (objGVK o) (objKey o) = some old) :
    ∃ c', c.update hash old o = some c' ∧ c'.Reachable hash ∧
      ∀ g k, c'.get g k = if objGVK o = g ∧ cacheKey (objKey o) = cacheKey k then some (withUID hash (copyObj o)) else c.get g k := by
  obtain ⟨c', h⟩ := update_some hash (c := c) old o ho hv
  have hold := (hc.inv.get_key hg).2.2.1
  have hstep : c.step hash (.update old o) = c' := by rw [VCache.step, h, Option.getD_some]
  refine ⟨c', h, hstep ▸ hc.step hash (op := .update old o) ⟨hold, ho⟩, fun g k => ?_⟩
  have := VCache.update_spec hc.inv hash ho hold g k
  rw [hstep] at this
  rw [this]
  by_cases hgk : objGVK o = g ∧ cacheKey (objKey o) = cacheKey k
  · rw [if_pos hgk]
    obtain ⟨rfl, hk⟩ := hgk
    by_cases hw : old = written hash o
    · rw [if_neg (fun h => h.2.2.2 hw), hc.inv.get, ← hk, ← hc.inv.get, hg, hw]; rfl
    · rw [if_pos ⟨rfl, hk, hv, hw⟩]; rfl
  · rw [if_neg hgk, if_neg (fun h => hgk ⟨h.1, h.2.1⟩)]

/-- C44 in part: updating an object that exists replaces it by the new version and changes nothing else (an update with the very content stored changes
nothing at all). Missing: objects whose group is not that of a view of an operator without dots in its name (`C44_update_mapped`). -/
theorem C44_update_partial (hc : c.Reachable hash) (o old : Obj) (ho : Obj.Ok o) (hown : OwnView o) (hg : c.get (objGVK o) (objKey o) = some old) :
    ∃ c', c.clientUpdate hash o = some c' ∧
      ∀ g k, c'.get g k = if objGVK o = g ∧ cacheKey (objKey o) = cacheKey k then some (if old = o then o else withUID hash (copyObj o)) else c.get g k := by
  obtain ⟨hk, hv⟩ := hown.kind
  rw [clientUpdate_eq, hk, hg, Option.bind_some]
  by_cases hoo : old = o
  · refine ⟨c, by rw [if_pos hoo], fun g k => ?_⟩
    split
    · next h =>
      rw [hc.inv.get, ← h.2, ← h.1, ← hc.inv.get, hg, hoo]
    · rfl
  · obtain ⟨c', h, -, h'⟩ := update_honest hash hc old o ho hv hg
    exact ⟨c', by rw [if_neg hoo]; exact h, fun g k => by rw [h', if_neg hoo]⟩

/-- C44: updating an object that does not exist fails. -/
theorem C44_update_missing (o : Obj) (hown : OwnView o) (hg : c.get (objGVK o) (objKey o) = none) : c.clientUpdate hash o = none := by
  rw [clientUpdate_eq, hown.kind.1, hg, Option.bind_none]

theorem demo_own (ns name : String) (data : List (String × Json)) (h : objGVK (demoView ns name data) = demoGVK) : OwnView (demoView ns name data) :=
  ⟨"op", "V", by decide, by rw [h]; decide⟩

example : OwnView (demoView "a" "b" [("d", .int 1)]) ∧
    (VCache.init.run (fun s => s) [.add (demoView "a" "b" [])]).get (objGVK (demoView "a" "b" [("d", .int 1)])) (objKey (demoView "a" "b" [("d", .int 1)])) ≠ none :=
  ⟨demo_own _ _ _ (by decide), by decide +kernel⟩

/-- C44, negation: an object of a group made by `MapIntoView` is stored by a create, but a later update and patch do not find it. -/
theorem C44_update_mapped :
    let o : Obj := [("apiVersion", .str (gvString (mapIntoView "op" ⟨"apps", "v1", "Deployment"⟩))), ("kind", .str "Deployment"), ("metadata", .map [("name", .str "b")])]
    let c := VCache.init.run (fun s => s) [.add o]
    c.get (objGVK o) (objKey o) ≠ none ∧ c.clientUpdate (fun s => s) (SMap.set o "d" (.int 1)) = none ∧ c.clientPatch (fun s => s) o [("d", .int 1)] = none := by
  refine ⟨by decide +kernel, ?_, ?_⟩ <;> rfl

/-- C44 in part: patching an object that exists stores the patched version of the stored object and changes nothing else. Missing: patches that change
kind or name (`C44_patch_renames`), and groups as in `C44_update_partial`. -/
theorem C44_patch_partial (hc : c.Reachable hash) (o cur p : Obj) (hp : Obj.Ok p) (hown : OwnView o) (hg : c.get (objGVK o) (objKey o) = some cur)
    (hkeep : objGVK (patchObj cur p) = objGVK o ∧ objKey (patchObj cur p) = objKey o) :
    ∃ c', c.clientPatch hash o p = some c' ∧
      ∀ g k, c'.get g k = if objGVK o = g ∧ cacheKey (objKey o) = cacheKey k then some (withUID hash (copyObj (patchObj cur p))) else c.get g k := by
  obtain ⟨hk, hv⟩ := hown.kind
  have hcur := hc.inv.get_key hg
  rw [clientPatch_eq, hk, hg, Option.bind_some, hcur.2.2.2]
  obtain ⟨c', h, -, h'⟩ := update_honest hash hc cur (patchObj cur p) (patchObj_canon hcur.2.2.1 hp) (by rw [hkeep.1]; exact hv) (by rw [hkeep.1, hkeep.2]; exact hg)
  exact ⟨c', h, fun g k => by rw [h', hkeep.1, hkeep.2]⟩

/-- C44: patching an object that does not exist fails. -/
theorem C44_patch_missing (o p : Obj) (hown : OwnView o) (hg : c.get (objGVK o) (objKey o) = none) : c.clientPatch hash o p = none := by
  rw [clientPatch_eq, hown.kind.1, hg, Option.bind_none]

example : let cur := withUID (fun s => s) (demoView "a" "b" [])
    objGVK (patchObj cur [("d", .int 1)]) = objGVK (demoView "a" "b" []) ∧ objKey (patchObj cur [("d", .int 1)]) = objKey (demoView "a" "b" []) ∧
    (VCache.init.run (fun s => s) [.add (demoView "a" "b" [])]).get demoGVK ("a", "b") = some cur := by decide +kernel

/-- C44, negation: a patch that changes the name leaves the addressed object as it was and writes another one. -/
theorem C44_patch_renames :
    let c := VCache.init.run (fun s => s) [.add (demoView "a" "b" []), .add (demoView "a" "c" [("d", .int 1)])]
    let c' := (c.clientPatch (fun s => s) (demoView "a" "b" []) [("metadata", .map [("name", .str "c")])]).getD c
    c'.get demoGVK ("a", "b") = c.get demoGVK ("a", "b") ∧ c'.get demoGVK ("a", "c") ≠ c.get demoGVK ("a", "c") := by decide +kernel

theorem deleteEach_spec (hc : c.Reachable hash) (g : GVK) (l : List Obj) (hl : ∀ o ∈ l, c.get g (objKey o) = some o)
    (hn : (l.map (fun o => cacheKey (objKey o))).Nodup) :
    ∃ c', c.deleteEach l = some c' ∧ (∀ o ∈ l, ∀ k, cacheKey (objKey o) = cacheKey k → c'.get g k = none) ∧
      ∀ g' k, (g' = g → ∀ o ∈ l, cacheKey (objKey o) ≠ cacheKey k) → c'.get g' k = c.get g' k := by
  induction l generalizing c with
  | nil => exact ⟨c, rfl, by simp, fun _ _ _ => rfl⟩
  | cons o l ih =>
    have ho := hl o (by simp)
    have hk := hc.inv.get_key ho
    obtain ⟨c1, h1, h1'⟩ := C44_delete hash hc o o hk.2.2.1 (by rw [hk.1]; exact ho)
    have hc1 : c1.Reachable hash := by
      have := hc.step hash (op := .delete o) hk.2.2.1
      rw [VCache.step, show c.delete o = some c1 from h1, Option.getD_some] at this
      exact this
    simp only [List.map_cons, List.nodup_cons] at hn
    have hne : ∀ x ∈ l, cacheKey (objKey o) ≠ cacheKey (objKey x) := fun x hx e => hn.1 (by rw [e]; exact List.mem_map.mpr ⟨x, hx, rfl⟩)
    obtain ⟨c', h2, h3, h4⟩ := ih hc1 (fun x hx => by rw [h1', if_neg (fun h => hne x hx h.2)]; exact hl x (List.mem_cons_of_mem _ hx)) hn.2
    refine ⟨c', ?_, fun x hx k hxk => ?_, fun g' k hgk => ?_⟩
    · simp only [VCache.deleteEach, show c.delete o = some c1 from h1]; exact h2
    · rcases List.mem_cons.mp hx with rfl | hx
      · rw [h4 g k (fun _ y hy e => hne y hy (hxk.trans e.symm)), h1', if_pos ⟨hk.1, hxk⟩]
      · exact h3 x hx k hxk
    · rw [h4 g' k (fun e x hx => hgk e x (List.mem_cons_of_mem _ hx)), h1', if_neg]
      rintro ⟨e1, e2⟩
      exact hgk (e1.symm.trans hk.1) o (by simp) e2

/-- C44 in part: `DeleteAllOf` removes exactly the selected objects of the kind. Missing: kinds that end in "List" (`C44_delete_all_list`), and groups as
in `C44_update_partial`. -/
theorem C44_delete_all_partial (hc : c.Reachable hash) (o : Obj) (s : Select) (hown : OwnView o) (hl : endsList (objGVK o).kind = false) :
    ∃ c', c.clientDeleteAll o s = some c' ∧
      ∀ g k, c'.get g k = if g = objGVK o then (c.get g k).filter (fun x => !s.includes x) else c.get g k := by
  obtain ⟨hk, hv⟩ := hown.kind
  have hobj : isViewObjKind (objGVK o) = true := by simp [isViewObjKind, hv, hl]
  have hfrom := (C57_object_list _ hobj).2
  obtain ⟨l, hlist⟩ : ∃ l, c.list (listFromObj (objGVK o)) s = some l := by
    simp only [VCache.list, hfrom, hv, if_true]; exact ⟨_, rfl⟩
  have hL := C40_list hash hc _ s l hlist
  rw [hfrom] at hL
  have hget : ∀ x ∈ l, c.get (objGVK o) (objKey x) = some x := by
    intro x hx
    obtain ⟨-, k, hkx⟩ := (hL.1 x).mp hx
    have := hc.inv.get_key hkx
    rw [hc.inv.get, this.2.1, ← hc.inv.get]; exact hkx
  obtain ⟨c', h1, h2, h3⟩ := deleteEach_spec hash hc (objGVK o) l hget hL.2
  refine ⟨c', ?_, fun g k => ?_⟩
  · rw [clientDeleteAll_eq, hk, hlist, Option.bind_some]; exact h1
  · split
    · next e =>
      subst e
      cases hx : c.get (objGVK o) k with
      | none =>
        rw [h3 _ _ (fun _ x hxl e => ?_), hx]
        · rfl
        · have := hget x hxl
          rw [hc.inv.get, e, ← hc.inv.get, hx] at this
          cases this
      | some x =>
        have hxk := hc.inv.get_key hx
        cases hs : s.includes x with
        | true => rw [h2 x ((hL.1 x).mpr ⟨hs, k, hx⟩) k hxk.2.1]; simp [Option.filter, hs]
        | false =>
          rw [h3 _ _ (fun _ y hy e => ?_), hx]
          · simp [Option.filter, hs]
          · have h4 := hget y hy
            rw [hc.inv.get, e, ← hc.inv.get, hx] at h4
            cases h4
            rw [((hL.1 x).mp hy).1] at hs; cases hs
    · next hne => exact h3 g k (fun e => absurd e hne)

example : OwnView (demoView "" "" []) ∧ endsList (objGVK (demoView "" "" [])).kind = false := ⟨demo_own _ _ _ (by decide), by decide⟩

/-- C44, negation: `DeleteAllOf` for the kind "AllowList" deletes the objects of the kind "Allow" and none of its own. -/
theorem C44_delete_all_list :
    let v (kind name : String) : Obj := [("apiVersion", .str "op.view.dcontroller.io/v1alpha1"), ("kind", .str kind), ("metadata", .map [("name", .str name)])]
    let c := VCache.init.run (fun s => s) [.add (v "Allow" "x"), .add (v "AllowList" "y")]
    let c' := (c.clientDeleteAll (v "AllowList" "") (demoSelect "")).getD c
    c.get (viewGVK "op" "Allow") ("", "x") ≠ none ∧ c'.get (viewGVK "op" "Allow") ("", "x") = none ∧ c'.get (viewGVK "op" "AllowList") ("", "y") ≠ none := by
  decide +kernel

/-- Replacing a field of a stored object by the update of the client. -/
theorem sub_set (hc : c.Reachable hash) (sub : String) (hsub : sub ≠ "metadata" ∧ sub ≠ "kind" ∧ sub ≠ "apiVersion") (o cur m : Obj) (hmc : (Json.map m).Canon)
    (hown : OwnView o) (hg : c.get (objGVK o) (objKey o) = some cur) :
    ∃ c' s, c.clientUpdate hash (setField cur [sub] (.map m)) = some c' ∧ c'.get (objGVK o) (objKey o) = some s ∧ nested s [sub] = some (.map m) ∧
      (∀ p : List String, p.head? ≠ some sub → p ≠ [] → ¬ ["metadata", "uid"] <+: p → ¬ p <+: ["metadata", "uid"] → nested s p = nested cur p) ∧
      ∀ g k, ¬ (objGVK o = g ∧ cacheKey (objKey o) = cacheKey k) → c'.get g k = c.get g k := by
  have hcur := hc.inv.get_key hg
  rw [setField_one]
  have hoff : ∀ p : List String, p.head? ≠ some sub → p ≠ [] → nested (SMap.set cur sub (.map m)) p = nested cur p := by
    intro p h1 h2
    rw [← setField_one]
    refine setField_off hcur.2.2.1 ?_ ?_
    · rintro ⟨t, rfl⟩; simp at h1
    · rintro ⟨t, ht⟩
      cases p with
      | nil => exact h2 rfl
      | cons a q => simp only [List.cons_append, List.cons.injEq] at ht; exact h1 (by rw [ht.1]; rfl)
  have hok : Obj.Ok (SMap.set cur sub (.map m)) := by rw [← setField_one]; exact setField_canon hcur.2.2.1 hmc
  have hgvk : objGVK (SMap.set cur sub (.map m)) = objGVK o := by
    rw [← hcur.1]
    refine objGVK_congr (fun k hk => hoff [k] ?_ (by simp))
    rcases hk with rfl | rfl
    · simpa using fun h => hsub.2.2 h.symm
    · simpa using fun h => hsub.2.1 h.symm
  have hkey : objKey (SMap.set cur sub (.map m)) = objKey cur := by
    simp only [objKey]
    rw [nestedString_congr (hoff ["metadata", "namespace"] (by simpa using fun h => hsub.1 h.symm) (by simp)),
      nestedString_congr (hoff ["metadata", "name"] (by simpa using fun h => hsub.1 h.symm) (by simp))]
  have hget : c.get (objGVK (SMap.set cur sub (.map m))) (objKey (SMap.set cur sub (.map m))) = some cur := by
    rw [hgvk, hkey, hc.inv.get, hcur.2.1, ← hc.inv.get]; exact hg
  have hst := hg
  rw [hc.inv.get] at hst
  have hcop : Copied (SMap.set cur sub (.map m)) := by
    have := (hc.inv.ent _ _ (AMap.mem_of_get hst)).2.1
    refine ⟨?_, ?_⟩
    · have h1 := hoff ["kind"] (by simpa using fun h => hsub.2.1 h.symm) (by simp)
      rw [nested_one, nested_one] at h1
      rw [h1, hgvk, this.1, hcur.1]
    · have h1 := hoff ["apiVersion"] (by simpa using fun h => hsub.2.2 h.symm) (by simp)
      rw [nested_one, nested_one] at h1
      rw [h1, hgvk, this.2, hcur.1]
  obtain ⟨op, kind, hd, he'⟩ := hown
  obtain ⟨c', h1, h2⟩ := C44_update_partial hash hc (SMap.set cur sub (.map m)) cur hok ⟨op, kind, hd, hgvk.trans he'⟩ hget
  rw [hgvk, hkey, hcur.2.1, hcop.copy hok] at h2
  have hnn : nested (SMap.set cur sub (.map m)) [sub] = some (.map m) := by
    rw [nested_one, SMap.get_set _ hcur.2.2.1.1, if_pos rfl]
  refine ⟨c', _, h1, by rw [h2, if_pos ⟨rfl, rfl⟩], ?_, fun p p1 p2 p3 p4 => ?_, fun g k hne => by rw [h2, if_neg hne]⟩
  · split
    · exact hnn
    · rw [withUID_off hok (by rintro ⟨t, ht⟩; simp at ht) (by rintro ⟨t, ht⟩; simp at ht; exact hsub.1 ht.1)]; exact hnn
  · split
    · exact hoff p p1 p2
    · rw [withUID_off hok p3 p4]; exact hoff p p1 p2

/-- C44 in part: updating a subresource replaces that field of the stored object by the one given; apart from the UID the rest of the object, and all other
objects, stay as they were. Missing: groups as in `C44_update_partial`. -/
theorem C44_sub_update_partial (hc : c.Reachable hash) (sub : String) (hsub : sub ≠ "metadata" ∧ sub ≠ "kind" ∧ sub ≠ "apiVersion") (o cur m : Obj) (ho : Obj.Ok o)
    (hown : OwnView o) (hg : c.get (objGVK o) (objKey o) = some cur) (hm : nested o [sub] = some (.map m)) :
    ∃ c' s, c.subUpdate hash sub o = some c' ∧ c'.get (objGVK o) (objKey o) = some s ∧ nested s [sub] = some (.map m) ∧
      (∀ p : List String, p.head? ≠ some sub → p ≠ [] → ¬ ["metadata", "uid"] <+: p → ¬ p <+: ["metadata", "uid"] → nested s p = nested cur p) ∧
      ∀ g k, ¬ (objGVK o = g ∧ cacheKey (objKey o) = cacheKey k) → c'.get g k = c.get g k := by
  have hmc : (Json.map m).Canon := by
    rw [nested_one] at hm
    exact ho.val hm
  rw [subUpdate_eq hash sub o hm, hown.kind.1, hg, Option.bind_some]
  by_cases he : nested cur [sub] = some (.map m)
  · exact ⟨c, cur, by rw [if_pos he], hg, he, fun _ _ _ _ _ => rfl, fun _ _ _ => rfl⟩
  · rw [if_neg he]
    exact sub_set hash hc sub hsub o cur m hmc hown hg

example : let o := demoView "a" "b" []
    let o' := SMap.set o "status" (.map [("ready", .bool true)])
    OwnView o' ∧ nested o' ["status"] = some (.map [("ready", .bool true)]) ∧
    (VCache.init.run (fun s => s) [.add o]).get (objGVK o') (objKey o') = some (withUID (fun s => s) o) :=
  ⟨⟨"op", "V", by decide, by decide⟩, by decide, by decide +kernel⟩

/-- C44 in part: creating a subresource puts the field of the given object into the stored one; apart from the UID the rest of the object, and all other
objects, stay as they were. Missing: groups as in `C44_update_partial`. -/
theorem C44_sub_create_partial (hc : c.Reachable hash) (sub : String) (hsub : sub ≠ "metadata" ∧ sub ≠ "kind" ∧ sub ≠ "apiVersion") (o so cur m : Obj)
    (hs : Obj.Ok so) (hown : OwnView o) (hg : c.get (objGVK o) (objKey o) = some cur) (hm : nested so [sub] = some (.map m)) :
    ∃ c' s, c.subCreate hash sub o so = some c' ∧ c'.get (objGVK o) (objKey o) = some s ∧ nested s [sub] = some (.map m) ∧
      (∀ p : List String, p.head? ≠ some sub → p ≠ [] → ¬ ["metadata", "uid"] <+: p → ¬ p <+: ["metadata", "uid"] → nested s p = nested cur p) ∧
      ∀ g k, ¬ (objGVK o = g ∧ cacheKey (objKey o) = cacheKey k) → c'.get g k = c.get g k := by
  have hmc : (Json.map m).Canon := by
    rw [nested_one] at hm
    exact hs.val hm
  have he : c.subCreate hash sub o so = c.clientUpdate hash (setField cur [sub] (.map m)) := by
    unfold VCache.subCreate
    rw [hm, hown.kind.1, hg]
  rw [he]
  exact sub_set hash hc sub hsub o cur m hmc hown hg

/-- C44: creating or updating a subresource fails if the object does not exist or if there is no such field in what is given. -/
theorem C44_sub_missing (sub : String) (o so : Obj) (hown : OwnView o)
    (h : c.get (objGVK o) (objKey o) = none ∨ ∀ m, nested so [sub] ≠ some (.map m)) :
    c.subCreate hash sub o so = none ∧ (so = o → c.subUpdate hash sub o = none) := by
  rw [← hown.kind.1] at h
  unfold VCache.subCreate VCache.subUpdate
  constructor
  · rcases h with h | h
    · split
      · rw [h]
      · rfl
    · split
      · next m hm => exact absurd hm (h m)
      · rfl
  · rintro rfl
    rcases h with h | h
    · rw [h]
    · split
      · rfl
      · split
        · next m hm => exact absurd hm (h m)
        · rfl

example : let o := demoView "a" "b" []
    let so : Obj := [("scale", .map [("replicas", .int 3)])]
    let c := VCache.init.run (fun s => s) [.add o]
    OwnView o ∧ nested so ["scale"] = some (.map [("replicas", .int 3)]) ∧ c.get (objGVK o) (objKey o) = some (withUID (fun s => s) o) ∧
    ((c.subCreate (fun s => s) "scale" o so).bind (fun c' => c'.subGet "scale" o)) = some [("replicas", .int 3)] :=
  ⟨⟨"op", "V", by decide, by decide⟩, by decide, by decide +kernel, by decide +kernel⟩

/-- C44: reading a subresource returns the field of the stored object, and fails if there is none. -/
theorem C44_sub_get (sub : String) (o : Obj) (hown : OwnView o) (m : Obj) :
    c.subGet sub o = some m ↔ ∃ cur, c.get (objGVK o) (objKey o) = some cur ∧ nested cur [sub] = some (.map m) := by
  rw [← hown.kind.1]
  unfold VCache.subGet
  generalize c.get _ _ = x
  cases x with
  | none => simp
  | some cur =>
    simp only [Option.some.injEq, exists_eq_left']
    split
    · next m' h => rw [h]; simp
    · next h =>
      constructor
      · intro h'; cases h'
      · intro h'; exact absurd h' (h m)

/-- C44 in part: a patch of a subresource that holds that field only patches the field of the stored object (or puts it there); apart from the UID the rest of
the object, and all other objects, stay as they were. Missing: patches with further fields (`C44_sub_patch_rest`) or that delete the field, and groups as
in `C44_update_partial`. -/
theorem C44_sub_patch_partial (hc : c.Reachable hash) (sub : String) (hsub : sub ≠ "metadata" ∧ sub ≠ "kind" ∧ sub ≠ "apiVersion") (o cur : Obj) (v : Json)
    (hv : v.Canon) (hn : v ≠ .null) (hown : OwnView o) (hg : c.get (objGVK o) (objKey o) = some cur) :
    ∃ c' s, c.subPatch hash o [(sub, v)] = some c' ∧ c'.get (objGVK o) (objKey o) = some s ∧
      nested s [sub] = some (match nested cur [sub] with | none => v | some w => Json.patch w v) ∧
      (∀ p : List String, p.head? ≠ some sub → p ≠ [] → ¬ ["metadata", "uid"] <+: p → ¬ p <+: ["metadata", "uid"] → nested s p = nested cur p) ∧
      ∀ g k, ¬ (objGVK o = g ∧ cacheKey (objKey o) = cacheKey k) → c'.get g k = c.get g k := by
  have hcur := hc.inv.get_key hg
  have hp : Obj.Ok [(sub, v)] := by
    refine Json.canon_map.mpr ⟨List.pairwise_singleton _ _, fun x hx => ?_⟩
    rw [List.mem_singleton] at hx; rw [hx]; exact hv
  have hok : Obj.Ok (patchObj cur [(sub, v)]) := patchObj_canon hcur.2.2.1 hp
  have hfld : ∀ k, SMap.get (patchObj cur [(sub, v)]) k = (Json.patch (.map cur) (.map [(sub, v)])).field k := by
    intro k; rw [patchObj_eq]; rfl
  have hoff : ∀ p : List String, p.head? ≠ some sub → p ≠ [] → nested (patchObj cur [(sub, v)]) p = nested cur p := by
    intro p h1 h2
    cases p with
    | nil => exact absurd rfl h2
    | cons a q =>
      have ha : SMap.get [(sub, v)] a = none := by
        simp only [SMap.get]; rw [if_neg]; intro h; exact h1 (by rw [h]; rfl)
      rw [nested_cons, nested_cons, hfld, patch_field_none hcur.2.2.1 hp.sorted ha]; rfl
  have hon : nested (patchObj cur [(sub, v)]) [sub] = some (match nested cur [sub] with | none => v | some w => Json.patch w v) := by
    rw [nested_one, nested_one, hfld, patch_field_some hcur.2.2.1 hp.sorted (by simp [SMap.get]) hn]; rfl
  have hgvk : objGVK (patchObj cur [(sub, v)]) = objGVK o := by
    rw [← hcur.1]
    refine objGVK_congr (fun k hk => hoff [k] ?_ (by simp))
    rcases hk with rfl | rfl
    · simpa using fun h => hsub.2.2 h.symm
    · simpa using fun h => hsub.2.1 h.symm
  have hkey : objKey (patchObj cur [(sub, v)]) = objKey cur := by
    simp only [objKey]
    rw [nestedString_congr (hoff ["metadata", "namespace"] (by simpa using fun h => hsub.1 h.symm) (by simp)),
      nestedString_congr (hoff ["metadata", "name"] (by simpa using fun h => hsub.1 h.symm) (by simp))]
  have hget : c.get (objGVK (patchObj cur [(sub, v)])) (objKey (patchObj cur [(sub, v)])) = some cur := by
    rw [hgvk, hkey, hc.inv.get, hcur.2.1, ← hc.inv.get]; exact hg
  have hst := hg
  rw [hc.inv.get] at hst
  have hcop : Copied (patchObj cur [(sub, v)]) := by
    have := (hc.inv.ent _ _ (AMap.mem_of_get hst)).2.1
    refine ⟨?_, ?_⟩
    · have h1 := hoff ["kind"] (by simpa using fun h => hsub.2.1 h.symm) (by simp)
      rw [nested_one, nested_one] at h1
      rw [h1, hgvk, this.1, hcur.1]
    · have h1 := hoff ["apiVersion"] (by simpa using fun h => hsub.2.2 h.symm) (by simp)
      rw [nested_one, nested_one] at h1
      rw [h1, hgvk, this.2, hcur.1]
  obtain ⟨hk, hvk⟩ := hown.kind
  obtain ⟨c', h1, -, h2⟩ := update_honest hash hc cur (patchObj cur [(sub, v)]) hok (by rw [hgvk]; exact hvk) hget
  rw [hgvk, hkey, hcur.2.1, hcop.copy hok] at h2
  refine ⟨c', _, ?_, by rw [h2, if_pos ⟨rfl, rfl⟩], ?_, fun p p1 p2 p3 p4 => ?_, fun g k hne => by rw [h2, if_neg hne]⟩
  · rw [VCache.subPatch, clientPatch_eq, hk, hg, Option.bind_some, hcur.2.2.2]; exact h1
  · rw [withUID_off hok (by rintro ⟨t, ht⟩; simp at ht) (by rintro ⟨t, ht⟩; simp at ht; exact hsub.1 ht.1)]; exact hon
  · rw [withUID_off hok p3 p4]; exact hoff p p1 p2

example : let o := demoView "a" "b" []
    let v := Json.map [("ready", .bool true)]
    let c := VCache.init.run (fun s => s) [.add o]
    OwnView o ∧ v ≠ .null ∧ c.get (objGVK o) (objKey o) = some (withUID (fun s => s) o) ∧
    ((c.subPatch (fun s => s) o [("status", v)]).bind (fun c' => c'.subGet "status" o)) = some [("ready", .bool true)] :=
  ⟨⟨"op", "V", by decide, by decide⟩, by decide, by decide +kernel, by decide +kernel⟩

/-- C44: patching a subresource of an object that does not exist fails. -/
theorem C44_sub_patch_missing (o p : Obj) (hown : OwnView o) (hg : c.get (objGVK o) (objKey o) = none) : c.subPatch hash o p = none := by
  rw [VCache.subPatch]; exact C44_patch_missing hash o p hown hg

example : (VCache.init.run (fun s => s) [.add (demoView "a" "b" [])]).get (objGVK (demoView "a" "c" [])) (objKey (demoView "a" "c" [])) = none := by decide +kernel

/-- C44 in part: any patch of a subresource stores the stored object with the whole patch applied and changes no other object. Missing: as in
`C44_patch_partial`. -/
theorem C44_sub_patch_whole_partial (hc : c.Reachable hash) (o cur p : Obj) (hp : Obj.Ok p) (hown : OwnView o) (hg : c.get (objGVK o) (objKey o) = some cur)
    (hkeep : objGVK (patchObj cur p) = objGVK o ∧ objKey (patchObj cur p) = objKey o) :
    ∃ c', c.subPatch hash o p = some c' ∧
      ∀ g k, c'.get g k = if objGVK o = g ∧ cacheKey (objKey o) = cacheKey k then some (withUID hash (copyObj (patchObj cur p))) else c.get g k := by
  rw [VCache.subPatch]; exact C44_patch_partial hash hc o cur p hp hown hg hkeep

example : let cur := withUID (fun s => s) (demoView "a" "b" [])
    let p : Obj := [("d", .int 1), ("status", .map [("ready", .bool true)])]
    objGVK (patchObj cur p) = objGVK (demoView "a" "b" []) ∧ objKey (patchObj cur p) = objKey (demoView "a" "b" []) ∧
    (VCache.init.run (fun s => s) [.add (demoView "a" "b" [])]).get demoGVK ("a", "b") = some cur := by decide +kernel

/-- C44, negation: a patch of a subresource is not confined to it; other fields of the object in the patch are written as well. -/
theorem C44_sub_patch_rest :
    let c := VCache.init.run (fun s => s) [.add (demoView "a" "b" [("d", .int 1)])]
    let c' := (c.subPatch (fun s => s) (demoView "a" "b" []) [("d", .int 2), ("status", .map [("ready", .bool true)])]).getD c
    (c.get demoGVK ("a", "b")).bind (nested · ["d"]) = some (.int 1) ∧ (c'.get demoGVK ("a", "b")).bind (nested · ["d"]) = some (.int 2) := by decide +kernel

end Dctl
