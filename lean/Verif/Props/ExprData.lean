import Verif.Expr.MarshalLemmas
import Verif.Expr.Lemmas
/-!
# Expressions as data, field paths and selectors (C35–C37, C63, C64)
-/
set_option autoImplicit false
namespace Dctl

/-! ## C35 -/

/-- **C35** (the part that holds): an expression read from JSON, written and read again, is the same, and so is its copy, unless it contains `@any`,
`@list` or `@dict` with an argument or an integral float. What is missing is those, see below. -/
theorem C35_round_trip_partial (env : Env) (j : Json) (hj : j.Canon) (e : Expr) (h : unmarshalExpr env j = .ok e) (hp : e.Plain) :
    (∃ j', marshalExpr env e = .ok j' ∧ unmarshalExpr env j' = .ok e) ∧ copyExpr env e = e := by
  obtain ⟨j', h1, h2⟩ := round_trip j hj e h hp
  exact ⟨⟨j', h1, h2⟩, by rw [copyExpr, h1]; simp [h2]⟩

/-- **C35** (negation): copying an expression with `@any` at the top turns it into the constant false. -/
theorem C35_any_lost (env : Env) (a : Expr) : copyExpr env (.app "@any" a) = boolE false := by
  simp [copyExpr, marshalExpr, unmarshalExpr]

/-- **C35** (negation): copying an expression with `@any` changes its value. -/
theorem C35_any_value : ∃ (env : Env) (j : Json) (e : Expr) (ctx : Ctx), j.Canon ∧ unmarshalExpr env j = .ok e ∧ eval env e ctx = .ok (.bool true) ∧
    eval env (copyExpr env e) ctx = .ok (.bool false) :=
  ⟨plainEnv, .map [("@any", .list [.bool true, .list [.int 1]])], opList "@any" [boolE true, .exprs "@list" [intE 1]], ⟨.null, .null⟩, by decide, rfl, rfl, rfl⟩

/-- **C35** (negation): copying drops `@list` and `@dict` in front of an argument. -/
theorem C35_list_dropped : ∃ (env : Env) (j : Json) (e : Expr), unmarshalExpr env j = .ok e ∧ e = .app "@list" (strE "$.x") ∧ copyExpr env e = strE "$.x" :=
  ⟨plainEnv, .map [("@list", .str "$.x")], .app "@list" (strE "$.x"), rfl, rfl, rfl⟩

/-- **C35** (negation): an integral float comes back as an integer. -/
theorem C35_float_changed : ∃ (env : Env) (j : Json) (e : Expr), unmarshalExpr env j = .ok e ∧ e = .lit "@float" (.float 2) ∧ copyExpr env e = intE 2 :=
  ⟨plainEnv, .float 2, .lit "@float" (.float 2), rfl, rfl, rfl⟩

/-- **C35**: a float comes back as it was unless it is an integer of 64 bits, and then it comes back as this integer. (Hypothesis: the conversion of integers to
floats is exact where the float exists.) -/
theorem C35_floats (env : Env) (f : Rat) (hf : f.den = 1 → env.ofInt f.num = f) :
    copyExpr env (.lit "@float" (.float f)) = if f.den = 1 ∧ inInt64 f.num then intE f.num else .lit "@float" (.float f) := by
  have hm : marshalExpr env (.lit "@float" (.float f)) = .ok (floatJson f) := by simp [marshalExpr, asFloat, Except.map]
  rw [copyExpr, hm]
  by_cases hd : f.den = 1
  · by_cases hi : inInt64 f.num
    · have hlt : f.num.natAbs < 1000000000000000000000 := by
        have := hi
        simp [inInt64] at this
        omega
      simp [floatJson, hd, hlt, unmarshalExpr, hi, intE]
    · by_cases hlt : f.num.natAbs < 1000000000000000000000
      · simp [floatJson, hd, hlt, unmarshalExpr, hi, hf hd]
      · simp [floatJson, hd, hlt, unmarshalExpr, hi]
  · simp [floatJson, hd, unmarshalExpr]

example : copyExpr plainEnv (.lit "@float" (.float (3 / 2))) = .lit "@float" (.float (3 / 2)) ∧ copyExpr plainEnv (.lit "@float" (.float 5000)) = intE 5000 :=
  ⟨by rw [C35_floats plainEnv _ (fun h => absurd h (by decide +kernel)), if_neg (by decide +kernel)],
    by rw [C35_floats plainEnv _ (fun _ => by decide +kernel), if_pos (by decide +kernel)]; rfl⟩

/-- **C35** (negation): the literal constructor makes floats that cannot be evaluated. -/
theorem C35_float_literal (env : Env) (f : Rat) (ctx : Ctx) : ∃ e, newLiteral (.float f) = .ok e ∧ eval env e ctx = .error .err :=
  ⟨_, rfl, rfl⟩

/-- **C35** (negation): a JSON object with the empty string as its only key makes the parser panic. -/
theorem C35_empty_key (env : Env) : unmarshalExpr env (.map [("", .int 1)]) = .error .panic := rfl

-- a round trip: {"@and": [{"@eq": ["$.a", 1]}, {"b": "c", "d": 3}]}
example : copyExpr plainEnv (opList "@and" [opList "@eq" [strE "$.a", intE 1], .dict "@dict" [("b", strE "c"), ("d", intE 3)]]) =
    opList "@and" [opList "@eq" [strE "$.a", intE 1], .dict "@dict" [("b", strE "c"), ("d", intE 3)]] :=
  (C35_round_trip_partial plainEnv (.map [("@and", .list [.map [("@eq", .list [.str "$.a", .int 1])], .map [("b", .str "c"), ("d", .int 3)]])]) (by decide)
    (opList "@and" [opList "@eq" [strE "$.a", intE 1], .dict "@dict" [("b", strE "c"), ("d", intE 3)]]) rfl
    (by simp [Expr.Plain, Expr.PlainL, Expr.PlainM])).2

/-! ## C36 -/

/-- **C36**: setting a field path and reading it back gives the value set, other paths are unchanged. -/
theorem C36_set_get (base : Env) (ctx : Ctx) (k : String) (p : List String) (hp : ∀ x ∈ k :: p, x ≠ "" ∧ x.toList.all isWord = true) (m r : SMap Json)
    (hm : (Json.map m).Canon) (value v : Json) (hv : derefValue (fieldEnv base) ctx value = .ok v)
    (h : setJSONPath (fieldEnv base) ctx (pathString (k :: p)) value m = .ok r) :
    getJSONPath (fieldEnv base) ⟨.map r, ctx.subject⟩ (pathString (k :: p)) = .ok v ∧
    ∀ k' p', (∀ x ∈ k' :: p', x ≠ "" ∧ x.toList.all isWord = true) → ¬ (k :: p) <+: (k' :: p') → ¬ (k' :: p') <+: (k :: p) →
      getJSONPath (fieldEnv base) ⟨.map r, ctx.subject⟩ (pathString (k' :: p')) = getJSONPath (fieldEnv base) ⟨.map m, ctx.subject⟩ (pathString (k' :: p')) := by
  rw [setJSONPath_path base ctx k p hp m value v hv] at h
  cases hs : setNested m (k :: p) v with
  | none => rw [hs] at h; cases h
  | some r' =>
    rw [hs] at h
    cases h
    constructor
    · rw [getJSONPath_path base _ k p hp]
      have := setNested_at (k :: p) m r hm (by simp) hs
      rw [nested] at this
      rw [this]; rfl
    · intro k' p' hp' h1 h2
      rw [getJSONPath_path base _ k' p' hp', getJSONPath_path base _ k' p' hp']
      have := setNested_off hm hs h1 h2
      simp only [nested] at this
      rw [this]

/-- **C36** (success): setting a field path fails exactly if something on the way is there but no map. -/
theorem C36_set_succeeds (base : Env) (ctx : Ctx) (k : String) (p : List String) (hp : ∀ x ∈ k :: p, x ≠ "" ∧ x.toList.all isWord = true) (m : SMap Json)
    (value v : Json) (hv : derefValue (fieldEnv base) ctx value = .ok v) :
    (∃ r, setJSONPath (fieldEnv base) ctx (pathString (k :: p)) value m = .ok r) ↔
      ∀ q x, q ≠ [] → q <+: (k :: p) → q ≠ k :: p → (Json.map m).at q = some x → ∃ y, x = .map y := by
  rw [setJSONPath_path base ctx k p hp m value v hv]
  refine Iff.trans ?_ (setNested_isSome (v := v) (k :: p) m)
  cases setNested m (k :: p) v with
  | none => simp
  | some r => simp

/-- **C36** for expressions made by `NewJSONPathSetExpression`: evaluating one gives an object that has the value on the path and nothing on other paths. Such an expression exists exactly for
truth values, numbers and strings. (Strings that are paths themselves or `@now` are looked up, and floats cannot be evaluated: `C35_float_literal`.) -/
theorem C36_setter (base : Env) (ctx : Ctx) (k : String) (p : List String) (hp : ∀ x ∈ k :: p, x ≠ "" ∧ x.toList.all isWord = true) (v : Json) :
    ((∃ e, newJSONPathSet (pathString (k :: p)) v = .ok e) ↔ (∃ b, v = .bool b) ∨ (∃ i, v = .int i) ∨ (∃ s, v = .str s) ∨ ∃ f, v = .float f) ∧
    ∀ e, newJSONPathSet (pathString (k :: p)) v = .ok e → (∀ f, v ≠ .float f) → (∀ s, v = .str s → s.toList.head? ≠ some '$' ∧ s ≠ "@now") →
      ∃ r, eval (fieldEnv base) e ctx = .ok (.map r) ∧ getJSONPath (fieldEnv base) ⟨.map r, ctx.subject⟩ (pathString (k :: p)) = .ok v ∧
        ∀ k' p', (∀ x ∈ k' :: p', x ≠ "" ∧ x.toList.all isWord = true) → ¬ (k :: p) <+: (k' :: p') → ¬ (k' :: p') <+: (k :: p) →
          getJSONPath (fieldEnv base) ⟨.map r, ctx.subject⟩ (pathString (k' :: p')) = .ok .null := by
  constructor
  · cases v <;> simp [newJSONPathSet, newLiteral]
  · intro e he hf hs
    have hg : ∀ s, v = .str s → getJSONPath (fieldEnv base) ctx s = .ok (.str s) := fun s h => by
      unfold getJSONPath
      split
      · rename_i hl
        exact absurd (by rw [hl]; rfl) (hs s h).1
      · rfl
    have hd : derefValue (fieldEnv base) ctx v = .ok v := by
      cases v with
      | str s => exact hg s rfl
      | _ => rfl
    obtain ⟨r, hr⟩ := (C36_set_succeeds base ctx k p hp [] v v hd).mpr (fun q x h1 h2 h3 h4 => by
      cases q with
      | nil => exact absurd rfl h1
      | cons a q => simp [Json.at, Json.field, SMap.get] at h4)
    obtain ⟨g1, g2⟩ := C36_set_get base ctx k p hp [] r ⟨List.Pairwise.nil, trivial⟩ v v hd hr
    refine ⟨r, ?_, g1, fun k' p' h1 h2 h3 => (g2 k' p' h1 h2 h3).trans ?_⟩
    · have hl : ∃ l, newLiteral v = .ok l ∧ eval (fieldEnv base) l ctx = .ok v := by
        cases v with
        | bool b => exact ⟨_, rfl, rfl⟩
        | int i => exact ⟨_, rfl, rfl⟩
        | float f => exact absurd rfl (hf f)
        | str s =>
          refine ⟨_, rfl, ?_⟩
          show convert (fieldEnv base) ctx "@string" (.str s) = _
          simp [convert, asString, hg s rfl, (hs s rfl).2]
        | _ => simp [newJSONPathSet, newLiteral] at he
      obtain ⟨l, hl1, hl2⟩ := hl
      rw [newJSONPathSet, hl1] at he
      cases he
      show evalDict (fieldEnv base) "@dict" [(pathString (k :: p), eval (fieldEnv base) l)] ctx = _
      simp only [evalDict, if_true, setFields, hl2, hr]
    · rw [getJSONPath_path base _ k' p' h1]
      simp [Json.at, Json.field, SMap.get]

/-- `$.spec.b.d` set to a string. -/
example (base : Env) (ctx : Ctx) : ∃ e r, newJSONPathSet (pathString ["spec", "b", "d"]) (.str "aaa") = .ok e ∧ eval (fieldEnv base) e ctx = .ok (.map r) ∧
    getJSONPath (fieldEnv base) ⟨.map r, ctx.subject⟩ (pathString ["spec", "b", "d"]) = .ok (.str "aaa") := by
  obtain ⟨h1, h2⟩ := C36_setter base ctx "spec" ["b", "d"] (by decide) (.str "aaa")
  obtain ⟨e, he⟩ := h1.mpr (.inr (.inr (.inl ⟨_, rfl⟩)))
  obtain ⟨r, h3, h4, -⟩ := h2 e he (fun f h => by cases h) (fun s h => by cases h; decide)
  exact ⟨e, r, he, h3, h4⟩

/-- **C36** (plain keys): a key that does not start with a dollar is a field, dots included. -/
theorem C36_plain (env : Env) (ctx : Ctx) (k : String) (h1 : k ≠ "") (h2 : k.toList.head? ≠ some '$') (m r : SMap Json) (hm : SMap.Sorted m) (value v : Json)
    (hv : derefValue env ctx value = .ok v) (h : setJSONPath env ctx k value m = .ok r) :
    SMap.get r k = some v ∧ ∀ k', k ≠ k' → SMap.get r k' = SMap.get m k' := by
  rw [setJSONPath_plain ⟨h1, h2⟩, hv] at h
  cases h
  exact ⟨by rw [SMap.get_set _ hm, if_pos rfl], fun k' hk => by rw [SMap.get_set _ hm, if_neg hk]⟩

theorem setRoot_get : ∀ {v m : SMap Json}, SMap.Sorted m → SMap.Sorted v → ∀ k, SMap.get (setRoot m v) k = (SMap.get v k).or (SMap.get m k)
  | [], m, _, _, k => by rw [setRoot, SMap.get, Option.none_or]
  | (k1, x) :: t, m, hm, hv, k => by
    rw [setRoot, setRoot_get (hm.set k1 x) (List.Pairwise.of_cons hv), SMap.get_set _ hm, SMap.get]
    by_cases e : k1 = k
    · subst e
      rw [if_pos rfl, if_pos rfl, SMap.get_eq_none_of_lt (fun p hp => List.rel_of_pairwise_cons hv hp)]
      rfl
    · rw [if_neg e, if_neg e]

/-- **C36** for the root: setting `$.` to a map sets every field of the map, over what was there, and leaves the other fields unchanged. Anything but a
map fails. -/
theorem C36_root (env : Env) (ctx : Ctx) (m : SMap Json) (hm : SMap.Sorted m) (value v : Json) (hv : derefValue env ctx value = .ok v) :
    (∀ x, v = .map x → SMap.Sorted x → ∃ r, setJSONPath env ctx "$." value m = .ok r ∧ ∀ k, SMap.get r k = (SMap.get x k).or (SMap.get m k)) ∧
    ((∀ x, v ≠ .map x) → setJSONPath env ctx "$." value m = .error .err) := by
  rw [setJSONPath, if_neg (by decide), hv]
  simp only [if_true]
  constructor
  · rintro x rfl hx
    exact ⟨_, rfl, setRoot_get hm hx⟩
  · intro h
    cases v <;> first | rfl | exact absurd rfl (h _)

-- one field is replaced, one added, one stays
example : setJSONPath plainEnv ⟨.null, .null⟩ "$." (.map [("a", .int 1), ("b", .int 2)]) [("a", .int 7), ("c", .int 3)] =
    .ok [("a", .int 1), ("b", .int 2), ("c", .int 3)] := by rfl

/-- **C36** (the subject): inside `@map`, `@filter`, … the path `$$.a.b` is looked up in the current element, `$$` is the element, and `$.a.b` still is
a path of the object. -/
theorem C36_subject (base : Env) (ctx : Ctx) (hs : ctx.subject ≠ .null) (k : String) (p : List String)
    (hp : ∀ x ∈ k :: p, x ≠ "" ∧ x.toList.all isWord = true) :
    getJSONPath (fieldEnv base) ctx ("$" ++ pathString (k :: p)) = .ok ((ctx.subject.at (k :: p)).getD .null) ∧
    getJSONPath (fieldEnv base) ctx "$$" = .ok ctx.subject ∧
    getJSONPath (fieldEnv base) ctx (pathString (k :: p)) = .ok ((ctx.object.at (k :: p)).getD .null) :=
  ⟨getJSONPath_subject base ctx hs k p hp, getJSONPath_whole base ctx hs, getJSONPath_path base ctx k p hp⟩

example : getJSONPath plainEnv ⟨.map [("a", .int 1)], .map [("a", .int 2)]⟩ "$$.a" = .ok (.int 2) := by rfl

example : setJSONPath plainEnv ⟨.null, .null⟩ "$.spec.a" (.int 1) [("kind", .str "X"), ("spec", .map [("b", .int 2)])] =
    .ok [("kind", .str "X"), ("spec", .map [("a", .int 1), ("b", .int 2)])] := by rfl
example : pathString ["spec", "a"] = "$.spec.a" := by decide
example : setJSONPath plainEnv ⟨.null, .null⟩ "$.spec.a.c" (.int 1) [("spec", .map [("a", .int 2)])] = .error .err := by rfl

/-! ## C37 -/

/-- What a requirement says of a set of labels. -/
def Req1.Spec (labels : String → Option String) : Req1 → Prop
  | .isIn k vs => ∃ v, labels k = some v ∧ v ∈ vs
  | .notIn k vs => ∀ v, labels k = some v → v ∉ vs
  | .exist k => ∃ v, labels k = some v
  | .absent k => labels k = none

/-- The requirements a selector states: the equalities under `matchLabels`, the elements of `matchExpressions`, and the equalities of the selector
itself if it has neither of them. -/
def StatesReq (env : Env) (sel : SMap Json) (r : Req1) : Prop :=
  (∃ ml k v, SMap.get sel "matchLabels" = some (.map ml) ∧ (k, v) ∈ ml ∧ r = .isIn k [sprint env v]) ∨
  (∃ me m, SMap.get sel "matchExpressions" = some (.list me) ∧ Json.map m ∈ me ∧
    (nestedString m ["operator"] = "In" ∧ r = .isIn (nestedString m ["key"]) (reqValues env m) ∨
     nestedString m ["operator"] = "NotIn" ∧ r = .notIn (nestedString m ["key"]) (reqValues env m) ∨
     nestedString m ["operator"] = "Exists" ∧ r = .exist (nestedString m ["key"]) ∨
     nestedString m ["operator"] = "DoesNotExist" ∧ r = .absent (nestedString m ["key"]))) ∨
  ((∀ ml, SMap.get sel "matchLabels" ≠ some (.map ml)) ∧ (∀ me, SMap.get sel "matchExpressions" ≠ some (.list me)) ∧
    ∃ k v, (k, v) ∈ sel ∧ r = .isIn k [sprint env v])

theorem Req1.holds_spec (labels : SMap String) (r : Req1) : r.holds labels = true ↔ r.Spec (SMap.get labels) := by
  cases r with
  | isIn k vs => cases h : SMap.get labels k <;> simp [Req1.holds, Req1.Spec, h]
  | notIn k vs => cases h : SMap.get labels k <;> simp [Req1.holds, Req1.Spec, h]
  | exist k => simp [Req1.holds, Req1.Spec, Option.isSome_iff_exists]
  | absent k => simp [Req1.holds, Req1.Spec]

theorem parseReq_mem {env : Env} : ∀ (l : List Json) (rs : List (Option Req1)), mapAll (parseReq env) l = .ok rs →
    ∀ r, some r ∈ rs ↔ ∃ m, Json.map m ∈ l ∧ parseReq env (.map m) = .ok (some r)
  | [], rs, h, r => by cases h; simp
  | x :: l, rs, h, r => by
    rw [mapAll] at h
    cases hx : parseReq env x with
    | error e => rw [hx] at h; cases h
    | ok y =>
      rw [hx] at h
      cases hl : mapAll (parseReq env) l with
      | error e => rw [hl] at h; cases h
      | ok ys =>
        rw [hl] at h
        cases h
        have ih := parseReq_mem l ys hl r
        rw [List.mem_cons, ih]
        constructor
        · rintro (rfl | ⟨m, h1, h2⟩)
          · cases x with
            | map m => exact ⟨m, by simp, hx⟩
            | _ => simp [parseReq] at hx
          · exact ⟨m, by simp [h1], h2⟩
        · rintro ⟨m, h1, h2⟩
          rcases List.mem_cons.mp h1 with rfl | h1
          · rw [hx] at h2; cases h2; exact .inl rfl
          · exact .inr ⟨m, h1, h2⟩

theorem parseReq_spec {env : Env} {m : SMap Json} {o : Option Req1} (h : parseReq env (.map m) = .ok o) (r : Req1) : o = some r ↔
    (nestedString m ["operator"] = "In" ∧ r = .isIn (nestedString m ["key"]) (reqValues env m) ∨
     nestedString m ["operator"] = "NotIn" ∧ r = .notIn (nestedString m ["key"]) (reqValues env m) ∨
     nestedString m ["operator"] = "Exists" ∧ r = .exist (nestedString m ["key"]) ∨
     nestedString m ["operator"] = "DoesNotExist" ∧ r = .absent (nestedString m ["key"])) := by
  rw [parseReq] at h
  split at h
  all_goals first
    | (split at h
       · rename_i ho _
         cases h
         simp only [ho, String.reduceEq, false_and, or_false, false_or, true_and, Option.some.injEq]
         constructor <;> (intro e; exact e.symm)
       · cases h)
    | cases h

theorem eqReqs_mem {env : Env} {m : SMap Json} {rs : List Req1} (h : eqReqs env m = .ok rs) (r : Req1) :
    r ∈ rs ↔ ∃ k v, (k, v) ∈ m ∧ r = .isIn k [sprint env v] := by
  rw [eqReqs] at h
  split at h
  · cases h
    simp only [List.mem_map]
    constructor
    · rintro ⟨⟨k, v⟩, h1, h2⟩; exact ⟨k, v, h1, h2.symm⟩
    · rintro ⟨k, v, h1, h2⟩; exact ⟨(k, v), h1, h2.symm⟩
  · cases h

theorem exprs_mem {env : Env} {me : List Json} {rs : List (Option Req1)} (h : mapAll (parseReq env) me = .ok rs) (r : Req1) :
    r ∈ rs.filterMap id ↔ ∃ m, Json.map m ∈ me ∧
    (nestedString m ["operator"] = "In" ∧ r = .isIn (nestedString m ["key"]) (reqValues env m) ∨
     nestedString m ["operator"] = "NotIn" ∧ r = .notIn (nestedString m ["key"]) (reqValues env m) ∨
     nestedString m ["operator"] = "Exists" ∧ r = .exist (nestedString m ["key"]) ∨
     nestedString m ["operator"] = "DoesNotExist" ∧ r = .absent (nestedString m ["key"])) := by
  have hall : ∀ m, Json.map m ∈ me → ∃ o, parseReq env (.map m) = .ok o := by
    clear r
    induction me generalizing rs with
    | nil => simp
    | cons x l ih =>
      intro m hm
      rw [mapAll] at h
      cases hx : parseReq env x with
      | error e => rw [hx] at h; cases h
      | ok y =>
        rw [hx] at h
        cases hl : mapAll (parseReq env) l with
        | error e => rw [hl] at h; cases h
        | ok ys =>
          rcases List.mem_cons.mp hm with rfl | hm
          · exact ⟨y, hx⟩
          · exact ih hl m hm
  simp only [List.mem_filterMap, id]
  constructor
  · rintro ⟨o, h1, rfl⟩
    obtain ⟨m, h2, h3⟩ := (parseReq_mem me rs h r).mp h1
    exact ⟨m, h2, (parseReq_spec h3 r).mp rfl⟩
  · rintro ⟨m, h1, h2⟩
    obtain ⟨o, ho⟩ := hall m h1
    have := (parseReq_spec ho r).mpr h2
    subst this
    exact ⟨some r, (parseReq_mem me rs h r).mpr ⟨m, h1, ho⟩, rfl⟩

theorem selectorReqs_mem {env : Env} {sel : SMap Json} {rs : List Req1} (h : selectorReqs env sel = .ok rs) (r : Req1) : r ∈ rs ↔ StatesReq env sel r := by
  rw [StatesReq]
  rw [selectorReqs] at h
  split at h
  · rename_i ml me h1 h2
    cases ha : eqReqs env ml with
    | error e => rw [ha] at h; cases h
    | ok a =>
      rw [ha] at h
      cases hb : mapAll (parseReq env) me with
      | error e => rw [hb] at h; cases h
      | ok b =>
        rw [hb] at h
        cases h
        rw [List.mem_append, eqReqs_mem ha, exprs_mem hb, h1, h2]
        constructor
        · rintro (⟨k, v, h3, h4⟩ | ⟨m, h3, h4⟩)
          · exact .inl ⟨ml, k, v, rfl, h3, h4⟩
          · exact .inr (.inl ⟨me, m, rfl, h3, h4⟩)
        · rintro (⟨ml', k, v, h3, h4, h5⟩ | ⟨me', m, h3, h4, h5⟩ | ⟨h3, -⟩)
          · cases h3; exact .inl ⟨k, v, h4, h5⟩
          · cases h3; exact .inr ⟨m, h4, h5⟩
          · exact absurd rfl (h3 ml)
  · rename_i ml h2 h1
    rw [eqReqs_mem h, h2]
    constructor
    · rintro ⟨k, v, h3, h4⟩
      exact .inl ⟨ml, k, v, rfl, h3, h4⟩
    · rintro (⟨ml', k, v, h3, h4, h5⟩ | ⟨me', m, h3, h4, h5⟩ | ⟨h3, -⟩)
      · cases h3; exact ⟨k, v, h4, h5⟩
      · exact absurd h3 (h1 me')
      · exact absurd rfl (h3 ml)
  · rename_i me h2 h1
    cases hb : mapAll (parseReq env) me with
    | error e => rw [hb] at h; cases h
    | ok b =>
      rw [hb] at h
      cases h
      rw [exprs_mem hb, h2]
      constructor
      · rintro ⟨m, h3, h4⟩
        exact .inr (.inl ⟨me, m, rfl, h3, h4⟩)
      · rintro (⟨ml', k, v, h3, h4, h5⟩ | ⟨me', m, h3, h4, h5⟩ | ⟨h3, h4, -⟩)
        · exact absurd h3 (h1 ml')
        · cases h3; exact ⟨m, h4, h5⟩
        · exact absurd rfl (h4 me)
  · rename_i h1 h2 h3
    rw [eqReqs_mem h]
    constructor
    · rintro ⟨k, v, h4, h5⟩
      exact .inr (.inr ⟨fun ml => by first | exact h1 ml | exact h2 ml | exact h3 ml, fun me => by first | exact h1 me | exact h2 me | exact h3 me, k, v, h4, h5⟩)
    · rintro (⟨ml', k, v, h4, h5, h6⟩ | ⟨me', m, h4, h5, h6⟩ | ⟨-, -, h4⟩)
      · exfalso; first | exact h1 ml' h4 | exact h2 ml' h4 | exact h3 ml' h4
      · exfalso; first | exact h1 me' h4 | exact h2 me' h4 | exact h3 me' h4
      · exact h4

/-- **C37**: if a selector is accepted, it matches exactly the labels that satisfy all requirements it states. -/
theorem C37_matches (env : Env) (labels sel : SMap Json) (b : Bool) (h : matchLabels env labels sel = .ok b) :
    b = true ↔ ∀ r, StatesReq env sel r → r.Spec (fun k => (SMap.get labels k).map (sprint env)) := by
  rw [matchLabels] at h
  cases hr : selectorReqs env sel with
  | error e => rw [hr] at h; cases h
  | ok rs =>
    rw [hr] at h
    cases h
    rw [List.all_eq_true]
    have hg : SMap.get (SMap.mapVal (sprint env) labels) = fun k => (SMap.get labels k).map (sprint env) := by
      funext k; rw [SMap.get_mapVal]
    constructor
    · intro h r hs
      have := h r ((selectorReqs_mem hr r).mpr hs)
      rw [Req1.holds_spec, hg] at this
      exact this
    · intro h r hs
      rw [Req1.holds_spec, hg]
      exact h r ((selectorReqs_mem hr r).mp hs)

/-- **C37** (accepted selectors): equality selectors with valid keys and values are accepted, and so are the set requirements with the right number of
values. -/
theorem C37_accepts (env : Env) (labels ml : SMap Json) (m : SMap Json)
    (h1 : ∀ k v, (k, v) ∈ ml → env.validKey k = true ∧ env.validValue (sprint env v) = true)
    (h2 : env.validKey (nestedString m ["key"]) = true) (h3 : ∀ v ∈ reqValues env m, env.validValue v = true)
    (h4 : (nestedString m ["operator"] = "In" ∨ nestedString m ["operator"] = "NotIn") ∧ reqValues env m ≠ [] ∨
      (nestedString m ["operator"] = "Exists" ∨ nestedString m ["operator"] = "DoesNotExist") ∧ reqValues env m = []) :
    ∃ b, matchLabels env labels [("matchExpressions", .list [.map m]), ("matchLabels", .map ml)] = .ok b := by
  have ha : ∃ a, eqReqs env ml = .ok a := by
    refine ⟨_, if_pos ?_⟩
    rw [List.all_eq_true]
    rintro ⟨k, v⟩ hp
    simpa using h1 k v hp
  have hb : ∃ o, parseReq env (.map m) = .ok o := by
    rw [parseReq]
    have h3' : (reqValues env m).all env.validValue = true := List.all_eq_true.mpr h3
    rcases h4 with ⟨h4 | h4, h5⟩ | ⟨h4 | h4, h5⟩ <;> simp only [h4, h2, h3', h5, ne_eq, not_false_eq_true, and_self, if_true] <;> exact ⟨_, rfl⟩
  obtain ⟨a, ha⟩ := ha
  obtain ⟨o, hb⟩ := hb
  have hs : selectorReqs env [("matchExpressions", .list [.map m]), ("matchLabels", .map ml)] = .ok (a ++ [o].filterMap id) := by
    simp [selectorReqs, SMap.get, ha, mapAll, hb]
  exact ⟨_, by rw [matchLabels, hs]⟩

/-- **C37** (texts): a selector of valid keys and texts is accepted and matches exactly the labels that have all these texts. -/
theorem C37_texts (env : Env) (labels ml : SMap Json) (h1 : ∀ k v, (k, v) ∈ ml → ∃ s, v = .str s ∧ env.validKey k = true ∧ env.validValue s = true)
    (h2 : ∀ k v, SMap.get labels k = some v → ∃ s, v = .str s) :
    ∃ b, matchLabels env labels [("matchLabels", .map ml)] = .ok b ∧ (b = true ↔ ∀ k v, (k, v) ∈ ml → SMap.get labels k = some v) := by
  have hsp : ∀ s, sprint env (.str s) = s := fun _ => rfl
  have ha : ∃ a, eqReqs env ml = .ok a := by
    refine ⟨_, if_pos ?_⟩
    rw [List.all_eq_true]
    rintro ⟨k, v⟩ hp
    obtain ⟨s, rfl, hk, hv⟩ := h1 k v hp
    simp [hsp, hk, hv]
  obtain ⟨a, ha⟩ := ha
  have hs : selectorReqs env [("matchLabels", .map ml)] = .ok a := by simp [selectorReqs, SMap.get, ha]
  have hb : matchLabels env labels [("matchLabels", .map ml)] = .ok (a.all (Req1.holds (SMap.mapVal (sprint env) labels))) := by rw [matchLabels, hs]
  refine ⟨_, hb, ?_⟩
  rw [C37_matches env labels _ _ hb]
  constructor
  · intro h k v hp
    obtain ⟨s, rfl, -, -⟩ := h1 k v hp
    obtain ⟨t, ht, hm⟩ := h (.isIn k [sprint env (.str s)]) (.inl ⟨ml, k, .str s, rfl, hp, rfl⟩)
    rw [hsp] at hm
    have : t = s := by simpa using hm
    subst this
    replace ht : (SMap.get labels k).map (sprint env) = some t := ht
    cases hl : SMap.get labels k with
    | none => rw [hl] at ht; cases ht
    | some w =>
      obtain ⟨u, rfl⟩ := h2 k w hl
      rw [hl] at ht
      have : u = t := Option.some.inj ht
      rw [this]
  · rintro h r (⟨ml', k, v, e, hp, rfl⟩ | ⟨me, m, e, -⟩ | ⟨e, -⟩)
    · have e' : ml = ml' := by simpa [SMap.get] using e
      subst e'
      obtain ⟨s, rfl, -, -⟩ := h1 k v hp
      exact ⟨s, by simp only [h k _ hp, Option.map_some, hsp], by simp [hsp]⟩
    · simp [SMap.get] at e
    · exact absurd rfl (e ml)

/-- **C37** (sets of values): a requirement with a valid key and valid texts as values is accepted; `In` is met by the labels that have one of the texts under the
key, `NotIn` by all others. -/
theorem C37_values (env : Env) (labels : SMap Json) (k : String) (l : List String) (hk : env.validKey k = true) (hl : l ≠ []) (hv : ∀ s ∈ l, env.validValue s = true)
    (h2 : ∀ v, SMap.get labels k = some v → ∃ s, v = .str s) :
    ∃ b c, matchLabels env labels [("matchExpressions", .list [.map [("key", .str k), ("operator", .str "In"), ("values", .list (l.map Json.str))]])] = .ok b ∧
      matchLabels env labels [("matchExpressions", .list [.map [("key", .str k), ("operator", .str "NotIn"), ("values", .list (l.map Json.str))]])] = .ok c ∧
      (b = true ↔ ∃ s ∈ l, SMap.get labels k = some (.str s)) ∧ (c = true ↔ ¬ ∃ s ∈ l, SMap.get labels k = some (.str s)) := by
  have hr : ∀ op, reqValues env [("key", .str k), ("operator", .str op), ("values", .list (l.map Json.str))] = l := by
    intro op
    have : (fun s => sprint env (.str s)) = id := by funext s; rfl
    simp [reqValues, SMap.get, Function.comp_def, this]
  have hkey : ∀ op, nestedString [("key", .str k), ("operator", .str op), ("values", .list (l.map Json.str))] ["key"] = k := by
    intro op; rfl
  have hop : ∀ op, nestedString [("key", .str k), ("operator", .str op), ("values", .list (l.map Json.str))] ["operator"] = op := by
    intro op; rfl
  have p1 : parseReq env (.map [("key", .str k), ("operator", .str "In"), ("values", .list (l.map Json.str))]) = .ok (some (.isIn k l)) := by
    simpa [parseReq, hr, hkey, hop, hk, hl] using hv
  have p2 : parseReq env (.map [("key", .str k), ("operator", .str "NotIn"), ("values", .list (l.map Json.str))]) = .ok (some (.notIn k l)) := by
    simpa [parseReq, hr, hkey, hop, hk, hl] using hv
  refine ⟨Req1.holds (SMap.mapVal (sprint env) labels) (.isIn k l), Req1.holds (SMap.mapVal (sprint env) labels) (.notIn k l), ?_, ?_, ?_, ?_⟩
  · simp [matchLabels, selectorReqs, SMap.get, mapAll, p1]
  · simp [matchLabels, selectorReqs, SMap.get, mapAll, p2]
  all_goals
    simp only [Req1.holds, SMap.get_mapVal]
    cases hg : SMap.get labels k with
    | none => simp
    | some v =>
      obtain ⟨s, rfl⟩ := h2 v hg
      have : sprint env (.str s) = s := rfl
      simp [this]

-- app=web and tier in (a, b), against labels with a tier c
example : matchLabels plainEnv [("app", .str "web"), ("tier", .str "c")] [("matchLabels", .map [("app", .str "web")])] = .ok true ∧
    matchLabels plainEnv [("app", .str "api"), ("tier", .str "c")] [("matchLabels", .map [("app", .str "web")])] = .ok false := ⟨rfl, rfl⟩
example : matchLabels plainEnv [("app", .str "web"), ("tier", .str "c")] [("matchExpressions", .list [.map [("key", .str "tier"), ("operator", .str "In"),
    ("values", .list [.str "a", .str "b"])]]), ("matchLabels", .map [("app", .str "web")])] = .ok false := rfl
example : matchLabels plainEnv [("app", .str "web"), ("tier", .str "b")] [("matchExpressions", .list [.map [("key", .str "tier"), ("operator", .str "In"),
    ("values", .list [.str "a", .str "b"])]]), ("matchLabels", .map [("app", .str "web")])] = .ok true := rfl
example : matchLabels plainEnv [("app", .str "web")] [("app", .str "web")] = .ok true := rfl

example := C37_values plainEnv [("tier", .str "c")] "tier" ["a", "b"] rfl (by simp) (fun _ _ => rfl) (by intro v h; exact ⟨"c", (Option.some.inj h).symm⟩)

/-! ## C63 -/

/-- **C63** (the part that holds): a map literal copies a field whose value is no string, or a string that does not start with a dollar, as it is. What is
missing is strings that start with a dollar. -/
theorem C63_copy_partial (base : Env) (k : String) (p : List String) (hp : ∀ x ∈ k :: p, x ≠ "" ∧ x.toList.all isWord = true) (o s v : Json)
    (ho : o.at (k :: p) = some v) (key : String) (hk : PlainKey key) (hv : ∀ t, v = .str t → t.toList.head? ≠ some '$' ∧ t ≠ "@now") :
    eval (fieldEnv base) (.dict "@dict" [(key, strE (pathString (k :: p)))]) ⟨o, s⟩ = .ok (.map [(key, v)]) := by
  have he : eval (fieldEnv base) (strE (pathString (k :: p))) ⟨o, s⟩ = .ok v := by
    have hg := getJSONPath_path base ⟨o, s⟩ k p hp
    simp only [ho, Option.getD_some] at hg
    simp only [eval, Expr.den, evalLit]
    rw [if_neg (by decide), if_pos (by decide)]
    simp only [convert, asString, hg]
    rw [if_neg (by decide), if_neg (by decide), if_neg (by decide)]
    cases v with
    | str t => simp [(hv t rfl).2]
    | _ => rfl
  have hd : derefValue (fieldEnv base) ⟨o, s⟩ v = .ok v := by
    cases v with
    | str t =>
      have := (hv t rfl).1
      rw [derefValue, getJSONPath]
      split
      · rename_i rest h; rw [h] at this; exact absurd rfl this
      · rfl
    | _ => rfl
  have hs : setFields (fieldEnv base) ⟨o, s⟩ [] (Expr.denM (fieldEnv base) [(key, strE (pathString (k :: p)))]) = .ok [(key, v)] := by
    rw [Expr.denM, Expr.denM, setFields, show (strE (pathString (k :: p))).den (fieldEnv base) ⟨o, s⟩ = .ok v from he]
    simp only
    rw [setJSONPath_plain hk, hd]
    rfl
  rw [eval, Expr.den, evalDict, if_pos rfl, hs]

/-- **C63** (negation): a string in an object that looks like a path is looked up: copying the field `a` of an object returns its field `secret`. -/
theorem C63_data_as_path : ∃ (env : Env) (o : Json), o.at ["a"] = some (.str "$.secret") ∧
    eval env (.dict "@dict" [("out", strE "$.a")]) ⟨o, .null⟩ = .ok (.map [("out", .str "42")]) :=
  ⟨plainEnv, .map [("a", .str "$.secret"), ("secret", .str "42")], rfl, rfl⟩

/-- **C63** (negation): a string `@now` in an object is replaced by the time. -/
theorem C63_now : ∃ (env : Env) (o : Json), o.at ["a"] = some (.str "@now") ∧ eval env (strE "$.a") ⟨o, .null⟩ = .ok (.str env.now) ∧ env.now ≠ "@now" :=
  ⟨plainEnv, .map [("a", .str "@now")], rfl, rfl, by decide⟩

example : eval plainEnv (.dict "@dict" [("out", strE "$.spec.a")]) ⟨.map [("spec", .map [("a", .str "x")])], .null⟩ = .ok (.map [("out", .str "x")]) :=
  C63_copy_partial _ "spec" ["a"] (by decide) (.map [("spec", .map [("a", .str "x")])]) .null (.str "x") rfl "out" ⟨by decide, by decide⟩
    (by intro t h; cases h; decide)

/-! ## C64 -/

/-- **C64** (the part that holds): the value of a map literal with plain keys does not depend on the order in which Go visits the map. What is missing is
keys that are paths. -/
theorem C64_order_partial (env : Env) (m m' : List (String × Expr)) (hp : List.Perm m m') (hk : ∀ p ∈ m, PlainKey p.1) (hn : (m.map Prod.fst).Nodup)
    (ctx : Ctx) (v : Json) (h : eval env (.dict "@dict" m) ctx = .ok v) : eval env (.dict "@dict" m') ctx = .ok v := by
  simp only [eval, Expr.den, evalDict, if_true, denM_eq] at h ⊢
  cases hs : setFields env ctx [] (m.map (fun p => (p.1, p.2.den env))) with
  | error e => rw [hs] at h; cases h
  | ok r =>
    rw [hs] at h
    have := setFields_perm (env := env) (ctx := ctx) (hp.map (fun p => (p.1, p.2.den env))) (by
      intro q hq
      obtain ⟨p, hp', rfl⟩ := List.mem_map.mp hq
      exact hk p hp') (by rw [List.map_map]; exact hn) r hs
    rw [this]
    exact h

/-- **C64** (negation): with paths as keys the order matters. -/
theorem C64_order_matters : ∃ (env : Env) (a b : String × Expr) (ctx : Ctx) (v : Json), a.1 ≠ b.1 ∧ eval env (.dict "@dict" [a, b]) ctx = .ok v ∧
    eval env (.dict "@dict" [b, a]) ctx = .error .err :=
  ⟨plainEnv, ("$.a.b", intE 1), ("$.a", intE 2), ⟨.null, .null⟩, .map [("a", .int 2)], by decide, rfl, rfl⟩

example : eval plainEnv (.dict "@dict" [("b", intE 1), ("a", intE 2)]) ⟨.null, .null⟩ = .ok (.map [("a", .int 2), ("b", .int 1)]) :=
  C64_order_partial plainEnv [("a", intE 2), ("b", intE 1)] [("b", intE 1), ("a", intE 2)] (List.Perm.swap _ _ _)
    (by intro p hp; simp at hp; rcases hp with rfl | rfl <;> exact ⟨by decide, by decide⟩) (by decide) ⟨.null, .null⟩ _ rfl

end Dctl
