import Verif.Spec.Expr
import Verif.Json.ObjectLemmas
/-!
# Lemmas on expressions as JSON and on field paths
-/
set_option autoImplicit false
set_option linter.unusedSectionVars false
namespace Dctl

variable {env : Env}

theorem set_front {V : Type} {m : SMap V} {k : String} {v : V} (h : ∀ p ∈ m, k < p.1) : SMap.set m k v = (k, v) :: m := by
  cases m with
  | nil => rfl
  | cons p t =>
    obtain ⟨k', v'⟩ := p
    have : k < k' := h (k', v') (by simp)
    simp [SMap.set, this]

theorem mkMap_cases {es : List (String × Expr)} {e : Expr} (h : mkMap es = .ok e) :
    (∃ op x, es = [(op, x)] ∧ op.toList.head? = some '@' ∧ e = .app op x) ∨ e = .dict "@dict" es := by
  unfold mkMap at h
  split at h
  · rename_i op x
    split at h
    · cases h
    · rename_i c cs hc
      split at h
      · rename_i hc'
        subst hc'
        cases h
        exact .inl ⟨op, x, rfl, by rw [hc]; rfl, rfl⟩
      · cases h; exact .inr rfl
  · cases h; exact .inr rfl

/-- What reading a value gives can be written and read again. -/
def RoundTrips (env : Env) (j : Json) : Prop :=
  ∀ e, unmarshalExpr env j = .ok e → e.Plain → ∃ j', marshalExpr env e = .ok j' ∧ unmarshalExpr env j' = .ok e

theorem roundL : ∀ (l : List Json), (∀ x ∈ l, RoundTrips env x) → ∀ es, unmarshalL env l = .ok es → Expr.PlainL es →
    ∃ js, marshalL env es = .ok js ∧ unmarshalL env js = .ok es
  | [], _, es, h, _ => by cases h; exact ⟨[], rfl, rfl⟩
  | j :: l, hl, es, h, hp => by
    rw [unmarshalL] at h
    cases hj : unmarshalExpr env j with
    | error e => rw [hj] at h; cases h
    | ok x =>
      rw [hj] at h
      cases hl' : unmarshalL env l with
      | error e => rw [hl'] at h; cases h
      | ok xs =>
        rw [hl'] at h
        cases h
        obtain ⟨hp1, hp2⟩ := hp
        obtain ⟨j', h1, h2⟩ := hl j (by simp) x hj hp1
        obtain ⟨js, h3, h4⟩ := roundL l (fun y hy => hl y (by simp [hy])) xs hl' hp2
        exact ⟨j' :: js, by rw [marshalL, h1, h3], by rw [unmarshalL, h2, h4]⟩

theorem roundM : ∀ (m : SMap Json), SMap.Sorted m → (∀ kv ∈ m, RoundTrips env kv.2) → ∀ es, unmarshalM env m = .ok es → Expr.PlainM es →
    ∃ js, marshalM env es = .ok js ∧ unmarshalM env js = .ok es ∧ js.map Prod.fst = m.map Prod.fst
  | [], _, _, es, h, _ => by cases h; exact ⟨[], rfl, rfl, rfl⟩
  | (k, j) :: m, hs, hl, es, h, hp => by
    rw [unmarshalM] at h
    cases hj : unmarshalExpr env j with
    | error e => rw [hj] at h; cases h
    | ok x =>
      rw [hj] at h
      cases hl' : unmarshalM env m with
      | error e => rw [hl'] at h; cases h
      | ok xs =>
        rw [hl'] at h
        cases h
        obtain ⟨hp1, hp2⟩ := hp
        obtain ⟨j', h1, h2⟩ := hl (k, j) (by simp) x hj hp1
        have hs' := List.pairwise_cons.mp hs
        obtain ⟨js, h3, h4, h5⟩ := roundM m hs'.2 (fun y hy => hl y (by simp [hy])) xs hl' hp2
        have hfront : SMap.set js k j' = (k, j') :: js := by
          apply set_front
          intro p hp
          have : p.1 ∈ js.map Prod.fst := List.mem_map.mpr ⟨p, hp, rfl⟩
          rw [h5] at this
          obtain ⟨q, hq, e⟩ := List.mem_map.mp this
          rw [← e]
          exact hs'.1 q hq
        exact ⟨(k, j') :: js, by rw [marshalM, h1, h3]; simp [hfront], by rw [unmarshalM, h2, h4], by simp [h5]⟩

theorem round_trip (j : Json) : j.Canon → RoundTrips env j := by
  induction j using Json.ind with
  | null => rintro - e h -; cases h; exact ⟨.bool false, rfl, rfl⟩
  | bool b => rintro - e h -; cases h; exact ⟨.bool b, rfl, rfl⟩
  | int i =>
    rintro - e h hp
    rw [unmarshalExpr] at h
    split at h
    · rename_i hi
      cases h
      exact ⟨.int i, rfl, by rw [unmarshalExpr, if_pos hi]⟩
    · cases h
      have := hp _ rfl
      exact ⟨_, by simp [marshalExpr, asFloat, Except.map, this]; rfl, rfl⟩
  | float f =>
    rintro - e h hp
    cases h
    have := hp _ rfl
    exact ⟨_, by simp [marshalExpr, asFloat, Except.map, this]; rfl, rfl⟩
  | str s =>
    rintro - e h -
    rw [unmarshalExpr] at h
    split at h
    · cases h
    · rename_i hs
      cases h
      exact ⟨.str s, rfl, by rw [unmarshalExpr, if_neg hs]⟩
  | list l ih =>
    rintro hc e h hp
    rw [unmarshalExpr] at h
    cases hl : unmarshalL env l with
    | error x => rw [hl] at h; cases h
    | ok es =>
      rw [hl] at h
      cases h
      obtain ⟨js, h1, h2⟩ := roundL l (fun x hx => ih x hx (Json.canon_list.mp hc x hx)) es hl hp
      exact ⟨.list js, by simp [marshalExpr, h1], by rw [unmarshalExpr, h2]⟩
  | map m ih =>
    rintro hc e h hp
    rw [unmarshalExpr] at h
    cases hl : unmarshalM env m with
    | error x => rw [hl] at h; cases h
    | ok es =>
      rw [hl] at h
      obtain ⟨hs, hc'⟩ := Json.canon_map.mp hc
      rcases mkMap_cases h with ⟨op, x, rfl, ho, rfl⟩ | rfl
      · obtain ⟨h1, h2, h3, h4⟩ := hp
        obtain ⟨js, h5, h6, h7⟩ := roundM m hs (fun kv hk => ih kv hk (hc' kv hk)) _ hl (by exact ⟨h4, trivial⟩)
        rw [marshalM] at h5
        cases hx : marshalExpr env x with
        | error y => rw [hx] at h5; cases h5
        | ok j' =>
          rw [hx] at h5
          cases h5
          refine ⟨.map [(op, j')], by simp [marshalExpr, hx, h1, h2, h3, ho], ?_⟩
          rw [unmarshalExpr]
          rw [show SMap.set [] op j' = [(op, j')] from rfl] at h6
          rw [h6]
          exact h
      · obtain ⟨js, h5, h6, h7⟩ := roundM m hs (fun kv hk => ih kv hk (hc' kv hk)) _ hl hp
        exact ⟨.map js, by simp [marshalExpr, h5], by rw [unmarshalExpr, h6]; exact h⟩

/-! ## Field paths -/

theorem splitDots_word : ∀ (w : List Char), w.all isWord = true → splitDots w = [w]
  | [], _ => rfl
  | c :: w, h => by
    simp only [List.all_cons, Bool.and_eq_true] at h
    have hc : c ≠ '.' := by rintro rfl; exact absurd h.1 (by decide)
    rw [splitDots, if_neg hc, splitDots_word w h.2]

theorem splitDots_append : ∀ (w rest : List Char), w.all isWord = true → splitDots (w ++ '.' :: rest) = w :: splitDots rest
  | [], rest, _ => by simp [splitDots]
  | c :: w, rest, h => by
    simp only [List.all_cons, Bool.and_eq_true] at h
    have hc : c ≠ '.' := by rintro rfl; exact absurd h.1 (by decide)
    rw [List.cons_append, splitDots, if_neg hc, splitDots_append w rest h.2]

theorem splitDots_path : ∀ (k : String) (p : List String), (∀ x ∈ k :: p, x.toList.all isWord = true) →
    splitDots (k.toList ++ (p.map (fun k => '.' :: k.toList)).flatten) = (k :: p).map String.toList
  | k, [], h => by simp [splitDots_word k.toList (h k (by simp))]
  | k, k' :: p, h => by
    simp only [List.map_cons, List.flatten_cons, List.cons_append]
    rw [splitDots_append _ _ (h k (by simp)), splitDots_path k' p (fun x hx => h x (by simp [hx]))]
    rfl

theorem parsePath_pathString (p : List String) (h : ∀ x ∈ p, x ≠ "" ∧ x.toList.all isWord = true) : parsePath (pathString p) = some p := by
  cases p with
  | nil => rfl
  | cons k p =>
    have h1 : (pathString (k :: p)).toList = '$' :: '.' :: (k.toList ++ (p.map (fun k => '.' :: k.toList)).flatten) := by simp [pathString]
    rw [parsePath, h1]
    have h2 := splitDots_path k p (fun x hx => (h x hx).2)
    simp only
    rw [h2, if_pos]
    · congr 1
      rw [List.map_map]
      conv => rhs; rw [← List.map_id (k :: p)]
      apply List.map_congr_left
      intro x _
      simp
    · rw [List.all_map, List.all_eq_true]
      intro x hx
      obtain ⟨h3, h4⟩ := h x hx
      have : x.toList ≠ [] := fun e => h3 (String.toList_injective (by rw [e]; rfl))
      simp only [Function.comp, Bool.and_eq_true, h4, and_true]
      simpa using this

theorem setNested_at {v : Json} : ∀ (p : List String) (m r : SMap Json), (Json.map m).Canon → p ≠ [] → setNested m p v = some r → nested r p = some v
  | [], _, _, _, h, _ => absurd rfl h
  | [k], m, r, hm, _, h => by
    simp only [setNested, Option.some.injEq] at h
    subst h
    rw [nested_one, SMap.get_set _ hm.sorted, if_pos rfl]
  | k :: k' :: p, m, r, hm, _, h => by
    rw [setNested] at h
    rw [nested_cons]
    split at h
    · rename_i x hx
      obtain ⟨y, hy, rfl⟩ := Option.map_eq_some_iff.mp h
      rw [SMap.get_set _ hm.sorted, if_pos rfl]
      exact setNested_at (k' :: p) x y (hm.val hx) (by simp) hy
    · cases h
    · obtain ⟨y, hy, rfl⟩ := Option.map_eq_some_iff.mp h
      rw [SMap.get_set _ hm.sorted, if_pos rfl]
      exact setNested_at (k' :: p) [] y (by simp [Json.canon_map, SMap.sorted_nil]) (by simp) hy

theorem setNested_isSome {v : Json} : ∀ (p : List String) (m : SMap Json), (setNested m p v).isSome = true ↔
    ∀ q x, q ≠ [] → q <+: p → q ≠ p → nested m q = some x → ∃ y, x = .map y
  | [], m => by simp [setNested]; intro q x h1 h2; exact absurd h2 h1
  | [k], m => by
    simp only [setNested, Option.isSome_some, true_iff]
    intro q x h1 h2 h3
    exfalso
    cases q with
    | nil => exact h1 rfl
    | cons a q =>
      rw [List.cons_prefix_cons] at h2
      obtain ⟨rfl, h2⟩ := h2
      exact h3 (by rw [List.prefix_nil.mp h2])
  | k :: k' :: p, m => by
    rw [setNested]
    split
    · rename_i y hy
      rw [Option.isSome_map, setNested_isSome (k' :: p) y]
      constructor
      · intro h q x h1 h2 h3 h4
        cases q with
        | nil => exact absurd rfl h1
        | cons a q =>
          rw [List.cons_prefix_cons] at h2
          obtain ⟨rfl, h2⟩ := h2
          rw [nested_cons, hy] at h4
          by_cases hq : q = []
          · subst hq; exact ⟨y, by simpa [Json.at] using h4.symm⟩
          · exact h q x hq h2 (fun e => h3 (by rw [e])) h4
      · intro h q x h1 h2 h3 h4
        exact h (k :: q) x (by simp) (List.cons_prefix_cons.mpr ⟨rfl, h2⟩) (by simpa using h3) (by rw [nested_cons, hy]; exact h4)
    · rename_i w hw hnm
      simp only [Option.isSome_none, Bool.false_eq_true, false_iff]
      intro h
      obtain ⟨y, rfl⟩ := h [k] w (by simp) (by simp) (by simp) (by rw [nested_one, hnm])
      exact hw y rfl
    · rename_i hn
      rw [Option.isSome_map, setNested_isSome (k' :: p) []]
      constructor
      · intro _ q x h1 h2 h3 h4
        cases q with
        | nil => exact absurd rfl h1
        | cons a q =>
          rw [List.cons_prefix_cons] at h2
          obtain ⟨rfl, h2⟩ := h2
          rw [nested_cons, hn] at h4
          cases h4
      · intro _ q x h1 h2 h3 h4
        cases q with
        | nil => exact absurd rfl h1
        | cons a q => rw [nested_cons] at h4; simp [SMap.get] at h4

theorem pathString_toList (k : String) (p : List String) : (pathString (k :: p)).toList = '$' :: '.' :: (k.toList ++ (p.map (fun k => '.' :: k.toList)).flatten) := by
  simp [pathString]

theorem pathString_ne (k : String) (hk : k ≠ "") (p : List String) : pathString (k :: p) ≠ "" ∧ pathString (k :: p) ≠ "$." ∧ pathString (k :: p) ≠ "$$." := by
  have h := pathString_toList k p
  refine ⟨?_, ?_, ?_⟩
  · intro e; rw [e] at h; cases h
  · intro e
    rw [e] at h
    have h' : ['$', '.'] = '$' :: '.' :: (k.toList ++ (p.map (fun k => '.' :: k.toList)).flatten) := h
    simp only [List.cons.injEq, true_and] at h'
    have h2 := List.append_eq_nil_iff.mp h'.symm
    exact hk (String.toList_injective (by rw [h2.1]; rfl))
  · intro e
    rw [e] at h
    have h' : ['$', '$', '.'] = '$' :: '.' :: (k.toList ++ (p.map (fun k => '.' :: k.toList)).flatten) := h
    simp at h'

theorem getJSONPath_path (base : Env) (ctx : Ctx) (k : String) (p : List String) (h : ∀ x ∈ k :: p, x ≠ "" ∧ x.toList.all isWord = true) :
    getJSONPath (fieldEnv base) ctx (pathString (k :: p)) = .ok ((ctx.object.at (k :: p)).getD .null) := by
  obtain ⟨h1, h2, h3⟩ := pathString_ne k (h k (by simp)).1 p
  have hp := parsePath_pathString (k :: p) h
  rw [getJSONPath, pathString_toList]
  simp only [h2, h3, if_false]
  show fieldGet base _ _ = _
  rw [fieldGet, hp]

theorem getJSONPath_subject (base : Env) (ctx : Ctx) (hs : ctx.subject ≠ .null) (k : String) (p : List String)
    (h : ∀ x ∈ k :: p, x ≠ "" ∧ x.toList.all isWord = true) :
    getJSONPath (fieldEnv base) ctx ("$" ++ pathString (k :: p)) = .ok ((ctx.subject.at (k :: p)).getD .null) := by
  obtain ⟨h1, h2, h3⟩ := pathString_ne k (h k (by simp)).1 p
  have hp := parsePath_pathString (k :: p) h
  have e1 : "$" ++ pathString (k :: p) ≠ "$." := by
    intro e
    have := congrArg String.toList e
    rw [String.toList_append, pathString_toList] at this
    simp at this
  have e2 : "$" ++ pathString (k :: p) ≠ "$$." := by
    intro e
    have := congrArg String.toList e
    rw [String.toList_append] at this
    have : '$' :: (pathString (k :: p)).toList = '$' :: ("$." : String).toList := this
    exact h2 (String.toList_injective (List.cons.inj this).2)
  have e3 : ("$" ++ pathString (k :: p)).toList = '$' :: (pathString (k :: p)).toList := by rw [String.toList_append]; rfl
  rw [getJSONPath, e3, pathString_toList]
  simp only [e1, e2, if_false, hs, ne_eq, not_false_eq_true, if_true, e3, List.drop_succ_cons, List.drop_zero, String.ofList_toList]
  show fieldGet base _ _ = _
  rw [fieldGet, hp]

theorem getJSONPath_whole (base : Env) (ctx : Ctx) (hs : ctx.subject ≠ .null) : getJSONPath (fieldEnv base) ctx "$$" = .ok ctx.subject := by
  have : ("$$" : String).toList = ['$', '$'] := rfl
  rw [getJSONPath, this]
  simp [hs, fieldEnv, fieldGet, parsePath, Json.at]

theorem setJSONPath_path (base : Env) (ctx : Ctx) (k : String) (p : List String) (h : ∀ x ∈ k :: p, x ≠ "" ∧ x.toList.all isWord = true) (m : SMap Json)
    (value v : Json) (hv : derefValue (fieldEnv base) ctx value = .ok v) :
    setJSONPath (fieldEnv base) ctx (pathString (k :: p)) value m = (match setNested m (k :: p) v with | some r => .ok r | none => .error .err) := by
  obtain ⟨h1, h2, h3⟩ := pathString_ne k (h k (by simp)).1 p
  have hp := parsePath_pathString (k :: p) h
  have hh : ¬ (pathString (k :: p)).toList.head? ≠ some '$' := by rw [pathString_toList]; simp
  rw [setJSONPath, if_neg h1, hv]
  simp only [h2, hh, if_false]
  have : (fieldEnv base).jset (pathString (k :: p)) v (.map m) = (match setNested m (k :: p) v with | some r => .ok (.map r) | none => .error .err) := by
    rw [show (fieldEnv base).jset = fieldSet base from rfl, fieldSet, hp]
    simp only
    cases setNested m (k :: p) v <;> rfl
  rw [this]
  cases setNested m (k :: p) v <;> rfl

/-! ## Maps with plain keys -/

/-- A key that is set as it is (`jsonpath.go:81-84`). -/
def PlainKey (k : String) : Prop := k ≠ "" ∧ k.toList.head? ≠ some '$'

theorem setJSONPath_plain {ctx : Ctx} {k : String} (hk : PlainKey k) (value : Json) (m : SMap Json) :
    setJSONPath env ctx k value m = (match derefValue env ctx value with | .ok v => .ok (SMap.set m k v) | .error e => .error e) := by
  have h2 : k ≠ "$." := by rintro rfl; exact hk.2 (by decide)
  rw [setJSONPath, if_neg hk.1]
  cases derefValue env ctx value with
  | error e => rfl
  | ok v => simp [h2, hk.2]

/-- The value of a field of a map literal: evaluated, and looked up once more if it is a string. -/
def fieldValue (env : Env) (ctx : Ctx) (d : Den) : Res Json :=
  match d ctx with
  | .error e => .error e
  | .ok v => derefValue env ctx v

theorem setFields_plain {ctx : Ctx} : ∀ (ds : List (String × Den)) (data : SMap Json), SMap.Sorted data → (∀ p ∈ ds, PlainKey p.1) → (ds.map Prod.fst).Nodup →
    ((∃ r, setFields env ctx data ds = .ok r) ↔ ∀ p ∈ ds, ∃ v, fieldValue env ctx p.2 = .ok v) ∧
    ∀ r, setFields env ctx data ds = .ok r → SMap.Sorted r ∧ (∀ p ∈ ds, ∀ v, fieldValue env ctx p.2 = .ok v → SMap.get r p.1 = some v) ∧
      (∀ k, k ∉ ds.map Prod.fst → SMap.get r k = SMap.get data k)
  | [], data, hs, _, _ => by
    refine ⟨by simp [setFields], ?_⟩
    intro r h
    cases h
    exact ⟨hs, by simp, by simp⟩
  | (k, d) :: ds, data, hs, hk, hn => by
    have hstep : setFields env ctx data ((k, d) :: ds) =
        (match fieldValue env ctx d with | .error e => .error e | .ok w => setFields env ctx (SMap.set data k w) ds) := by
      rw [setFields, fieldValue]
      cases d ctx with
      | error e => rfl
      | ok v =>
        simp only
        rw [setJSONPath_plain (hk (k, d) (by simp))]
        cases derefValue env ctx v <;> rfl
    simp only [List.map_cons, List.nodup_cons] at hn
    cases hf : fieldValue env ctx d with
    | error e =>
      rw [hstep, hf]
      refine ⟨?_, fun r h => by cases h⟩
      constructor
      · rintro ⟨r, h⟩; cases h
      · intro h
        obtain ⟨v, h⟩ := h (k, d) (by simp)
        rw [hf] at h; cases h
    | ok w =>
      rw [hstep, hf]
      simp only
      obtain ⟨i1, i2⟩ := setFields_plain ds (SMap.set data k w) (hs.set k w) (fun p hp => hk p (by simp [hp])) hn.2
      refine ⟨?_, ?_⟩
      · rw [i1]
        simp only [List.forall_mem_cons]
        exact ⟨fun h => ⟨⟨w, hf⟩, h⟩, fun h => h.2⟩
      · intro r hr
        obtain ⟨j1, j2, j3⟩ := i2 r hr
        refine ⟨j1, ?_, ?_⟩
        · intro p hp v hv
          rcases List.mem_cons.mp hp with rfl | hp
          · rw [j3 k hn.1, SMap.get_set _ hs, if_pos rfl]
            rw [hf] at hv; cases hv; rfl
          · exact j2 p hp v hv
        · intro k' hk'
          simp only [List.map_cons, List.mem_cons, not_or] at hk'
          rw [j3 k' hk'.2, SMap.get_set _ hs, if_neg (fun e => hk'.1 e.symm)]

theorem setFields_perm {ctx : Ctx} {ds ds' : List (String × Den)} (hp : List.Perm ds ds') (hk : ∀ p ∈ ds, PlainKey p.1) (hn : (ds.map Prod.fst).Nodup)
    (r : SMap Json) (h : setFields env ctx [] ds = .ok r) : setFields env ctx [] ds' = .ok r := by
  have hn' : (ds'.map Prod.fst).Nodup := (hp.map Prod.fst).nodup_iff.mp hn
  have hk' : ∀ p ∈ ds', PlainKey p.1 := fun p hp' => hk p (hp.mem_iff.mpr hp')
  obtain ⟨a1, a2⟩ := setFields_plain (env := env) (ctx := ctx) ds [] SMap.sorted_nil hk hn
  obtain ⟨b1, b2⟩ := setFields_plain (env := env) (ctx := ctx) ds' [] SMap.sorted_nil hk' hn'
  have hall := a1.mp ⟨r, h⟩
  obtain ⟨r', hr'⟩ := b1.mpr (fun p hp' => hall p (hp.mem_iff.mpr hp'))
  rw [hr']
  congr 1
  obtain ⟨s1, g1, n1⟩ := a2 r h
  obtain ⟨s2, g2, n2⟩ := b2 r' hr'
  refine SMap.ext s2 s1 (fun k => ?_)
  by_cases hm : k ∈ ds.map Prod.fst
  · obtain ⟨p, hp1, rfl⟩ := List.mem_map.mp hm
    obtain ⟨v, hv⟩ := hall p hp1
    rw [g1 p hp1 v hv, g2 p (hp.mem_iff.mp hp1) v hv]
  · rw [n1 k hm, n2 k (fun h => hm ((hp.map Prod.fst).mem_iff.mpr h))]

end Dctl
