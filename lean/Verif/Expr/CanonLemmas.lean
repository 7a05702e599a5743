import Verif.Expr.MarshalLemmas
import Verif.Json.PathLemmas
/-!
# Evaluation keeps values canonical
-/
set_option autoImplicit false
set_option linter.unusedSectionVars false
namespace Dctl

/-- Looking up and setting paths keeps values canonical: what `jp` does to Go maps (`pkg/expression/jsonpath.go:100-127`) is a map again. -/
structure Env.Canon (env : Env) : Prop where
  jget : ∀ q j v, j.Canon → env.jget q j = .ok v → v.Canon
  jset : ∀ q v j r, v.Canon → j.Canon → env.jset q v j = .ok r → r.Canon

variable {env : Env}

/-- A denotation with canonical results in canonical contexts. -/
def CanonDen (d : Den) : Prop := ∀ ctx : Ctx, ctx.object.Canon → ctx.subject.Canon → ∀ v, d ctx = .ok v → v.Canon

theorem canon_null : Json.null.Canon := by simp [Json.Canon]
theorem canon_bool (b : Bool) : (Json.bool b).Canon := by simp [Json.Canon]
theorem canon_int (i : Int) : (Json.int i).Canon := by simp [Json.Canon]
theorem canon_float (f : Rat) : (Json.float f).Canon := by simp [Json.Canon]
theorem canon_str (s : String) : (Json.str s).Canon := by simp [Json.Canon]

theorem map_ok_inv {α β : Type} {f : α → β} {r : Res α} {v : β} (h : r.map f = .ok v) : ∃ a, r = .ok a ∧ v = f a := by
  cases r with
  | error e => cases h
  | ok a => cases h; exact ⟨a, rfl, rfl⟩

theorem getJSONPath_canon (H : env.Canon) {ctx : Ctx} (h1 : ctx.object.Canon) (h2 : ctx.subject.Canon) {key : String} {v : Json}
    (h : getJSONPath env ctx key = .ok v) : v.Canon := by
  unfold getJSONPath at h
  repeat' split at h
  all_goals first
    | exact H.jget _ _ _ h2 h
    | exact H.jget _ _ _ h1 h
    | (cases h; exact canon_str _)

theorem convert_canon (H : env.Canon) {ctx : Ctx} (h1 : ctx.object.Canon) (h2 : ctx.subject.Canon) {op : String} {w v : Json}
    (h : convert env ctx op w = .ok v) : v.Canon := by
  unfold convert at h
  split at h
  · obtain ⟨_, _, rfl⟩ := map_ok_inv h; exact canon_bool _
  split at h
  · obtain ⟨_, _, rfl⟩ := map_ok_inv h; exact canon_int _
  split at h
  · obtain ⟨_, _, rfl⟩ := map_ok_inv h; exact canon_float _
  split at h
  · cases h
  · split at h
    · cases h
    · cases h; exact canon_str _
    · rename_i hr; cases h; exact getJSONPath_canon H h1 h2 hr

theorem seqAll_canon {ctx : Ctx} (h1 : ctx.object.Canon) (h2 : ctx.subject.Canon) : ∀ {ds : List Den} (_ : ∀ d ∈ ds, CanonDen d) {vs : List Json},
    seqAll ctx ds = .ok vs → ∀ v ∈ vs, v.Canon
  | [], _, vs, h => by cases h; simp
  | d :: ds, hd, vs, h => by
    simp only [seqAll] at h
    split at h
    · cases h
    · rename_i v hv
      split at h
      · cases h
      · rename_i ws hw
        cases h
        intro x hx
        rcases List.mem_cons.mp hx with rfl | hx
        · exact hd d (by simp) ctx h1 h2 _ hv
        · exact seqAll_canon h1 h2 (fun d' hd' => hd d' (by simp [hd'])) hw x hx

theorem unpackList_canon {l : List Json} (h : ∀ v ∈ l, v.Canon) : ∀ v ∈ unpackList l, v.Canon := by
  unfold unpackList
  split
  · exact Json.canon_list.mp (h _ (by simp))
  · exact h

theorem setRoot_canon : ∀ {m data : SMap Json}, (Json.map data).Canon → (∀ p ∈ m, p.2.Canon) → (Json.map (setRoot data m)).Canon
  | [], _, h, _ => h
  | (k, v) :: m, data, h, hm => setRoot_canon (m := m) (h.set (hm (k, v) (by simp))) (fun p hp => hm p (by simp [hp]))

theorem setJSONPath_canon (H : env.Canon) {ctx : Ctx} (h1 : ctx.object.Canon) (h2 : ctx.subject.Canon) {key : String} {v : Json} (hv : v.Canon)
    {data r : SMap Json} (hd : (Json.map data).Canon) (h : setJSONPath env ctx key v data = .ok r) : (Json.map r).Canon := by
  unfold setJSONPath at h
  split at h
  · cases h
  split at h
  · cases h
  rename_i w hw
  have hwc : w.Canon := by
    unfold derefValue at hw
    split at hw
    · exact getJSONPath_canon H h1 h2 hw
    · cases hw; exact hv
  split at h
  · split at h
    · cases h; exact setRoot_canon hd (Json.canon_map.mp hwc).2
    · cases h
  split at h
  · cases h; exact hd.set hwc
  split at h
  · rename_i hr; cases h; exact H.jset _ _ _ _ hwc hd hr
  · cases h
  · cases h

theorem setFields_canon (H : env.Canon) {ctx : Ctx} (h1 : ctx.object.Canon) (h2 : ctx.subject.Canon) :
    ∀ {ds : List (String × Den)} (_ : ∀ p ∈ ds, CanonDen p.2) {data r : SMap Json}, (Json.map data).Canon → setFields env ctx data ds = .ok r → (Json.map r).Canon
  | [], _, data, r, hd, h => by cases h; exact hd
  | (k, d) :: ds, hds, data, r, hd, h => by
    simp only [setFields] at h
    split at h
    · cases h
    · rename_i v hv
      split at h
      · cases h
      · rename_i data' hd'
        exact setFields_canon H h1 h2 (fun p hp => hds p (by simp [hp])) (setJSONPath_canon H h1 h2 (hds (k, d) (by simp) ctx h1 h2 _ hv) hd hd') h

theorem filterLoop_sub {p : Den} {ctx : Ctx} : ∀ {l r : List Json}, filterLoop p ctx l = .ok r → ∀ x ∈ r, x ∈ l
  | [], r, h => by cases h; simp
  | x :: l, r, h => by
    simp only [filterLoop] at h
    split at h
    · cases h
    · split at h
      · cases h
      · rename_i r' hr'
        cases h
        intro y hy
        split at hy
        · rcases List.mem_cons.mp hy with rfl | hy
          · simp
          · exact List.mem_cons_of_mem _ (filterLoop_sub hr' y hy)
        · exact List.mem_cons_of_mem _ (filterLoop_sub hr' y hy)

theorem mapLoop_canon {p : Den} (hp : CanonDen p) {ctx : Ctx} (h1 : ctx.object.Canon) : ∀ {l r : List Json}, (∀ x ∈ l, x.Canon) → mapLoop p ctx l = .ok r →
    ∀ x ∈ r, x.Canon
  | [], r, _, h => by cases h; simp
  | x :: l, r, hl, h => by
    simp only [mapLoop] at h
    split at h
    · cases h
    · rename_i v hv
      split at h
      · cases h
      · rename_i r' hr'
        cases h
        intro y hy
        rcases List.mem_cons.mp hy with rfl | hy
        · exact hp ⟨ctx.object, x⟩ h1 (hl x (by simp)) _ hv
        · exact mapLoop_canon hp h1 (fun z hz => hl z (by simp [hz])) hr' y hy

theorem listArg_canon {d : Den} (hd : CanonDen d) {ctx : Ctx} (h1 : ctx.object.Canon) (h2 : ctx.subject.Canon) {l : List Json} (h : listArg d ctx = .ok l) :
    ∀ x ∈ l, x.Canon := by
  unfold listArg at h
  split at h
  · cases h
  · rename_i v hv
    unfold asList at h
    split at h
    · cases h; exact Json.canon_list.mp (hd ctx h1 h2 _ hv)
    · cases h

theorem switchLoop_canon {ctx : Ctx} (h1 : ctx.object.Canon) (h2 : ctx.subject.Canon) : ∀ {ps : List (Option (List Den))},
    (∀ p ∈ ps, ∀ ds, p = some ds → ∀ d ∈ ds, CanonDen d) → ∀ {v : Json}, switchLoop ctx ps = .ok v → v.Canon
  | [], _, v, h => by cases h; exact canon_null
  | p :: ps, hp, v, h => by
    unfold switchLoop at h
    split at h
    · cases h; exact canon_null
    · rename_i heq
      cases heq
      split at h
      · cases h
      · exact hp _ (List.mem_cons_self) _ rfl _ (by simp) ctx h1 h2 _ h
      · exact switchLoop_canon h1 h2 (fun q hq => hp q (by simp [hq])) h
    · cases h

theorem specialOp_canon {op : String} {args : Option (List Den)} {pairs : List (Option (List Den))} (ha : ∀ ds, args = some ds → ∀ d ∈ ds, CanonDen d)
    (hp : ∀ p ∈ pairs, ∀ ds, p = some ds → ∀ d ∈ ds, CanonDen d) : CanonDen (specialOp op args pairs) := by
  intro ctx h1 h2 v h
  unfold specialOp at h
  split at h
  · cases h
  rename_i args
  have ha' := ha _ rfl
  split at h
  · unfold condOp at h
    split at h
    · split at h
      · cases h
      · exact ha' _ (by simp) ctx h1 h2 _ h
      · cases h; exact canon_null
    · split at h
      · cases h
      · exact ha' _ (by simp) ctx h1 h2 _ h
      · exact ha' _ (by simp) ctx h1 h2 _ h
    · cases h
  split at h
  · unfold definedOrOp at h
    split at h
    · split at h
      · cases h
      · exact ha' _ (by simp) ctx h1 h2 _ h
      · cases h; rename_i hv; exact ha' _ (List.mem_cons_self) ctx h1 h2 _ hv
    · cases h
  split at h
  · split at h
    · cases h
    · exact switchLoop_canon h1 h2 hp h
  split at h
  · obtain ⟨_, _, rfl⟩ := map_ok_inv h; exact canon_bool _
  split at h
  · obtain ⟨_, _, rfl⟩ := map_ok_inv h; exact canon_bool _
  split at h
  · unfold mapOp at h
    split at h
    · split at h
      · cases h
      · rename_i l hl
        obtain ⟨_, hm, rfl⟩ := map_ok_inv h
        exact Json.canon_list.mpr (mapLoop_canon (ha' _ (by simp)) h1 (listArg_canon (ha' _ (by simp)) h1 h2 hl) hm)
    · cases h
  · unfold listOp at h
    split at h
    · split at h
      · cases h
      · rename_i l hl
        split at h
        · obtain ⟨r, hm, rfl⟩ := map_ok_inv h
          exact Json.canon_list.mpr (fun x hx => listArg_canon (ha' _ (by simp)) h1 h2 hl x (filterLoop_sub hm x hx))
        all_goals
          repeat' split at h
          all_goals obtain ⟨_, _, rfl⟩ := map_ok_inv h; exact canon_bool _
    · cases h

theorem countUp_canon : ∀ (n : Nat) (a : Int), ∀ v ∈ countUp a n, v.Canon
  | 0, _ => by simp [countUp]
  | n + 1, a => by
    intro v hv
    rcases List.mem_cons.mp hv with rfl | hv
    · exact canon_int _
    · exact countUp_canon n _ v hv

theorem ite_canon {c : Prop} [Decidable c] {a b : Res Json} {v : Json} (h : (if c then a else b) = .ok v) (ha : a = .ok v → v.Canon)
    (hb : b = .ok v → v.Canon) : v.Canon := by
  split at h
  · exact ha h
  · exact hb h

theorem cmpOp_canon {op : String} {w v : Json} (h : cmpOp env op w = .ok v) : v.Canon := by
  unfold cmpOp at h
  split at h <;> cases h <;> exact canon_bool _

theorem arithOp_canon {op : String} {w v : Json} (h : arithOp env op w = .ok v) : v.Canon := by
  unfold arithOp at h
  split at h <;> cases h <;> first | exact canon_int _ | exact canon_float _

theorem minmaxOp_canon {b : Bool} {w v : Json} (h : minmaxOp env b w = .ok v) : v.Canon := by
  unfold minmaxOp at h
  split at h <;> cases h <;> first | exact canon_int _ | exact canon_float _ | exact canon_null

theorem strictOp_canon {op : String} {w v : Json} (h : strictOp env op w = .ok v) : v.Canon := by
  unfold strictOp at h
  refine ite_canon h (fun h => ?_) (fun h => ite_canon h (fun h => ?_) (fun h => ite_canon h (fun h => ?_) (fun h => ite_canon h (fun h => ?_)
    (fun h => ite_canon h (fun h => ?_) (fun h => ite_canon h (fun h => ?_) (fun h => ite_canon h (fun h => ?_) (fun h => ite_canon h (fun h => ?_)
    (fun h => ite_canon h (fun h => ?_) (fun h => ite_canon h (fun h => ?_) (fun h => ite_canon h (fun h => ?_) (fun h => ite_canon h (fun h => ?_)
    (fun h => ite_canon h (fun h => ?_) (fun h => ite_canon h (fun h => ?_) (fun h => ite_canon h (fun h => ?_) (fun h => ite_canon h (fun h => ?_)
    (fun h => ite_canon h (fun h => ?_) (fun h => ite_canon h (fun h => ?_) (fun h => ite_canon h (fun h => ?_) (fun h => ite_canon h (fun h => ?_)
    (fun h => ?_))))))))))))))))))))
  all_goals first
    | exact cmpOp_canon h
    | exact arithOp_canon h
    | exact minmaxOp_canon h
    | (obtain ⟨_, _, rfl⟩ := map_ok_inv h
       first | exact canon_bool _ | exact canon_int _ | exact canon_float _ | exact canon_str _)
    | (cases h; first | exact canon_bool _ | exact canon_int _ | exact canon_float _ | exact canon_str _ | exact canon_null)
    | (repeat' split at h
       all_goals first
        | (cases h; done)
        | (obtain ⟨_, _, rfl⟩ := map_ok_inv h; exact canon_bool _)
        | (cases h; first | exact canon_bool _ | exact canon_int _ | exact canon_float _ | exact canon_str _ | exact canon_null | exact Json.canon_list.mpr (countUp_canon _ _)))

theorem evalLit_canon (H : env.Canon) (op : String) (v : Json) : CanonDen (evalLit env op v) := by
  intro ctx h1 h2 r h
  unfold evalLit at h
  split at h
  · cases h
  split at h
  · exact convert_canon H h1 h2 h
  split at h
  · cases h; exact canon_null
  split at h <;> cases h

theorem evalExprs_canon (op : String) {ds : List Den} (hd : ∀ d ∈ ds, CanonDen d) : CanonDen (evalExprs env op ds) := by
  intro ctx h1 h2 r h
  unfold evalExprs at h
  split at h
  · split at h
    · cases h
    · rename_i vs hv
      cases h
      exact Json.canon_list.mpr (unpackList_canon (seqAll_canon h1 h2 hd hv))
  split at h
  · cases h; exact canon_null
  split at h <;> cases h

theorem evalDict_canon (H : env.Canon) (op : String) {ds : List (String × Den)} (hd : ∀ p ∈ ds, CanonDen p.2) : CanonDen (evalDict env op ds) := by
  intro ctx h1 h2 r h
  unfold evalDict at h
  split at h
  · split at h
    · cases h
    · rename_i m hm
      cases h
      exact setFields_canon H h1 h2 hd (by simp [Json.Canon, Json.CanonM, SMap.Sorted]) hm
  split at h
  · cases h; exact canon_null
  split at h <;> cases h

theorem evalApp_canon (H : env.Canon) (op : String) {self : Den} {args : Option (List Den)} {pairs : List (Option (List Den))} (hs : CanonDen self)
    (ha : ∀ ds, args = some ds → ∀ d ∈ ds, CanonDen d) (hp : ∀ p ∈ pairs, ∀ ds, p = some ds → ∀ d ∈ ds, CanonDen d) :
    CanonDen (evalApp env op self args pairs) := by
  intro ctx h1 h2 r h
  unfold evalApp at h
  split at h
  · cases h
  split at h
  · split at h
    · cases h
    · exact convert_canon H h1 h2 h
  split at h
  · split at h
    · cases h
    · rename_i l hl
      cases h
      exact Json.canon_list.mpr (unpackList_canon (Json.canon_list.mp (hs ctx h1 h2 _ hl)))
    · cases h
  split at h
  · split at h
    · cases h
    · rename_i m hm
      cases h
      exact hs ctx h1 h2 _ hm
    · cases h
  split at h
  · cases h; exact canon_null
  split at h
  · exact specialOp_canon ha hp ctx h1 h2 _ h
  split at h
  · cases h
  · rename_i v hv
    split at h
    · exact strictOp_canon h
    · cases h
      have := hs ctx h1 h2 _ hv
      simp [Json.Canon, Json.CanonM, SMap.Sorted, this]

theorem orElems_canon {self : Den} (hs : CanonDen self) {o : Option (Option (List Den))} (ho : ∀ ds, o = some (some ds) → ∀ d ∈ ds, CanonDen d) :
    ∀ ds, orElems self o = some ds → ∀ d ∈ ds, CanonDen d := by
  intro ds h
  unfold orElems at h
  split at h
  · cases h; exact ho _ rfl
  · cases h; intro d hd; rw [List.mem_singleton] at hd; exact hd ▸ hs
  · cases h

mutual
theorem den_canon (H : env.Canon) : (e : Expr) → CanonDen (e.den env)
  | .lit op v => by rw [Expr.den]; exact evalLit_canon H op v
  | .exprs op es => by rw [Expr.den]; exact evalExprs_canon op (denL_canon H es)
  | .dict op m => by rw [Expr.den]; exact evalDict_canon H op (denM_canon H m)
  | .app op a => by
    rw [Expr.den]
    exact evalApp_canon H op (den_canon H a) (orElems_canon (den_canon H a) (denElems_canon H a)) (denPairs_canon H a)
termination_by structural e => e
theorem denL_canon (H : env.Canon) : (es : List Expr) → ∀ d ∈ Expr.denL env es, CanonDen d
  | [] => by simp [Expr.denL]
  | e :: es => by
    rw [Expr.denL]
    exact List.forall_mem_cons.mpr ⟨den_canon H e, denL_canon H es⟩
theorem denM_canon (H : env.Canon) : (m : List (String × Expr)) → ∀ p ∈ Expr.denM env m, CanonDen p.2
  | [] => by simp [Expr.denM]
  | (k, e) :: m => by
    rw [Expr.denM]
    exact List.forall_mem_cons.mpr ⟨den_canon H e, denM_canon H m⟩
theorem denElems_canon (H : env.Canon) : (e : Expr) → ∀ ds, e.denElems env = some (some ds) → ∀ d ∈ ds, CanonDen d
  | .exprs op es => by
    intro ds h
    rw [Expr.denElems] at h
    split at h
    · cases h; exact denL_canon H es
    · cases h
  | .lit op _ => by intro ds h; rw [Expr.denElems] at h; split at h <;> cases h
  | .dict op _ => by intro ds h; rw [Expr.denElems] at h; split at h <;> cases h
  | .app op _ => by intro ds h; rw [Expr.denElems] at h; split at h <;> cases h
theorem denPairs_canon (H : env.Canon) : (e : Expr) → ∀ p ∈ e.denPairs env, ∀ ds, p = some ds → ∀ d ∈ ds, CanonDen d
  | .exprs op es => by
    rw [Expr.denPairs]
    split
    · exact denPairL_canon H es
    · simp
  | .lit op _ => by simp [Expr.denPairs]
  | .dict op _ => by simp [Expr.denPairs]
  | .app op _ => by simp [Expr.denPairs]
theorem denPairL_canon (H : env.Canon) : (es : List Expr) → ∀ p ∈ Expr.denPairL env es, ∀ ds, p = some ds → ∀ d ∈ ds, CanonDen d
  | [] => by simp [Expr.denPairL]
  | e :: es => by
    rw [Expr.denPairL]
    exact List.forall_mem_cons.mpr ⟨orElems_canon (den_canon H e) (denElems_canon H e), denPairL_canon H es⟩
end

/-- Evaluation in a canonical context gives canonical values. -/
theorem eval_canon (H : env.Canon) {e : Expr} {ctx : Ctx} (h1 : ctx.object.Canon) (h2 : ctx.subject.Canon) {v : Json} (h : eval env e ctx = .ok v) :
    v.Canon := den_canon H e ctx h1 h2 v h

theorem at_canon {v : Json} : ∀ {p : List String} {j : Json}, j.Canon → j.at p = some v → v.Canon
  | [], j, hj, h => by simp [Json.at] at h; exact h ▸ hj
  | k :: p, j, hj, h => by
    rw [at_cons] at h
    obtain ⟨w, h1, h2⟩ := Option.bind_eq_some_iff.mp h
    exact at_canon (hj.field h1) h2

/-- Field paths keep values canonical if the other paths do. -/
theorem fieldEnv_canon {base : Env} (H : base.Canon) : (fieldEnv base).Canon := by
  refine ⟨?_, ?_⟩
  · intro q j v hj h
    simp only [fieldEnv, fieldGet] at h
    split at h
    · cases h
      rename_i p _
      cases ha : j.at p with
      | none => exact canon_null
      | some w => exact at_canon hj ha
    · exact H.jget _ _ _ hj h
  · intro q v j r hv hj h
    simp only [fieldEnv, fieldSet] at h
    split at h
    · cases h
    · split at h
      · split at h
        · rename_i hs; cases h; exact setNested_canon hj hv hs
        · cases h
      · cases h
    · exact H.jset _ _ _ _ hv hj h

end Dctl
