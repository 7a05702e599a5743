import Verif.Expr.LitLemmas
/-!
# Literals, conversions and utility operators (C95–C97)

`doc/reference-expression.md:7-16` (literals), `261-274` (conversions), `276-321` (`@hash`, `@exists`, `@isnil`, `@rnd`).
-/
set_option autoImplicit false
namespace Dctl

/-! ## C95 -/

/-- **C95** (the part that holds): a JSON value that has none of the special forms is an expression that evaluates to this very value, in every
context. What is missing is the special forms, see `Json.Literal` and below. -/
theorem C95_literal_partial (env : Env) (j : Json) (hc : j.Canon) (h : j.Literal) : ∃ e, unmarshalExpr env j = .ok e ∧ ∀ ctx, eval env e ctx = .ok j :=
  literal_ok j hc h

/-- **C95** (what is rejected): a JSON value is an expression if and only if there is no empty string in it and no map with the empty string as its only
key. -/
theorem C95_rejected (env : Env) (j : Json) : (∃ e, unmarshalExpr env j = .ok e) ↔ j.NoEmpty := readable_iff j

/-- **C95** (refuted for null): null evaluates to false in every context. So it counts as a value: `{"@isnil": null}` is false, `{"@exists": null}` is
true, and `{"@definedOr": [null, e]}` never gets to `e`. -/
theorem C95_null (env : Env) (ctx : Ctx) : ∃ e, unmarshalExpr env .null = .ok e ∧ eval env e ctx = .ok (.bool false) ∧ eval env (.app "@isnil" e) ctx = .ok (.bool false) ∧
    eval env (.app "@exists" e) ctx = .ok (.bool true) ∧ ∀ d, eval env (opList "@definedOr" [e, d]) ctx = .ok (.bool false) :=
  ⟨_, rfl, rfl, rfl, rfl, fun _ => rfl⟩

/-- **C95** (refuted for lists of lists): a list that begins with a list evaluates to that list, whatever comes after it. -/
theorem C95_nested_list (env : Env) (l rest : List Json) (hc : (Json.list (.list l :: rest)).Canon) (hl : (Json.list l).Literal) (hr : Json.LiteralL rest) :
    ∃ e, unmarshalExpr env (.list (.list l :: rest)) = .ok e ∧ ∀ ctx, eval env e ctx = .ok (.list l) := by
  obtain ⟨es, h1, h2⟩ := literalL_ok (env := env) (.list l :: rest) hc ⟨hl, hr⟩
  refine ⟨.exprs "@list" es, by simp only [unmarshalExpr, h1], fun ctx => ?_⟩
  rw [eval_list, h2]
  rfl

/-- **C95** (refuted for the empty string): it is no expression, neither on its own nor inside of another value. -/
theorem C95_empty_string (env : Env) (k : String) : (∀ e, unmarshalExpr env (.str "") ≠ .ok e) ∧ (∀ e, unmarshalExpr env (.list [.str "a", .str ""]) ≠ .ok e) ∧
    ∀ e, unmarshalExpr env (.map [(k, .str "")]) ≠ .ok e := by
  refine ⟨fun e h => ?_, fun e h => ?_, fun e h => ?_⟩
  · exact ((C95_rejected env _).mp ⟨e, h⟩) rfl
  · exact ((C95_rejected env _).mp ⟨e, h⟩).2.1 rfl
  · exact ((C95_rejected env _).mp ⟨e, h⟩).2.1 rfl

-- a value of every kind
example : ∃ e, unmarshalExpr plainEnv (.map [("@a", .list [.int 1, .str "two", .bool false, .list [.float (1/2)]]), ("@b", .map [("key-1", .str "value-1"), ("key-2", .map [])])]) = .ok e ∧
    ∀ ctx, eval plainEnv e ctx = .ok (.map [("@a", .list [.int 1, .str "two", .bool false, .list [.float (1/2)]]), ("@b", .map [("key-1", .str "value-1"), ("key-2", .map [])])]) :=
  C95_literal_partial _ _ (by simp [SMap.Sorted, Json.Canon, Json.CanonM, Json.CanonL]) (by simp [Json.Literal, Json.LiteralL, Json.LiteralM, PlainText])
example : ∃ e, unmarshalExpr plainEnv (.list [.list [.int 1, .int 2], .list [.int 3]]) = .ok e ∧ ∀ ctx, eval plainEnv e ctx = .ok (.list [.int 1, .int 2]) :=
  C95_nested_list _ _ _ (by simp [Json.Canon, Json.CanonL]) (by simp [Json.Literal, Json.LiteralL]) (by simp [Json.Literal, Json.LiteralL])

/-! ## C96 -/

/-- **C96** (the part that holds for `@string`): integers are written as decimal numerals, and strings without a special meaning are kept. What is
missing is booleans, floats, and strings that start with a dollar, see below. -/
theorem C96_string_partial (env : Env) (e : Expr) (ctx : Ctx) :
    (∀ i, eval env e ctx = .ok (.int i) → ∃ s, Numeral s i ∧ eval env (.app "@string" e) ctx = .ok (.str s)) ∧
    (∀ s, PlainText s → eval env e ctx = .ok (.str s) → eval env (.app "@string" e) ctx = .ok (.str s)) := by
  refine ⟨fun i h => ⟨toString i, intText_numeral i, ?_⟩, fun s hs h => ?_⟩
  · rw [eval_convert (by decide) h]
    exact convert_string rfl (intText_ordinary i)
  · rw [eval_convert (by decide) h]
    exact convert_string rfl (by rintro _ h; cases h; exact hs.2)

/-- **C96** (refuted for `@string`): booleans, lists, maps and null are not converted, and a float becomes an error message of the formatter rather than
its decimal representation. -/
theorem C96_string_wrong (env : Env) (e : Expr) (ctx : Ctx) :
    (∀ b, eval env e ctx = .ok (.bool b) → eval env (.app "@string" e) ctx = .error .err) ∧
    (∀ l, eval env e ctx = .ok (.list l) → eval env (.app "@string" e) ctx = .error .err) ∧
    (∀ m, eval env e ctx = .ok (.map m) → eval env (.app "@string" e) ctx = .error .err) ∧
    (eval env e ctx = .ok .null → eval env (.app "@string" e) ctx = .error .err) ∧
    (∀ f, eval env e ctx = .ok (.float f) → ∃ t, eval env (.app "@string" e) ctx = .ok (.str ("%!d(float64=" ++ t ++ ")"))) := by
  refine ⟨fun _ h => ?_, fun _ h => ?_, fun _ h => ?_, fun h => ?_, fun f h => ⟨env.ftext f, ?_⟩⟩ <;> rw [eval_convert (by decide) h]
  · rfl
  · rfl
  · rfl
  · rfl
  · refine convert_string rfl ?_
    rintro _ h
    cases h
    have : ("%!d(float64=" ++ env.ftext f ++ ")").toList.head? = some '%' := by
      simp only [String.toList_append]
      rfl
    constructor
    · intro e; rw [e] at this; exact absurd this (by decide)
    · rw [this]; decide

/-- **C96** (refuted for `@string`): a string that starts with a dollar is replaced by what it points to, so the result need not even be a string. -/
theorem C96_string_path : ∃ (env : Env) (e : Expr) (ctx : Ctx), eval env e ctx = .ok (.str "$.b") ∧ eval env (.app "@string" e) ctx = .ok (.int 5) :=
  ⟨plainEnv, strE "$.a", ⟨.map [("a", .str "$.b"), ("b", .int 5)], .null⟩, (by rfl), (by rfl)⟩

/-- **C96** (`@int`): exactly the decimal numerals of 64-bit integers are converted, and everything else is an error. -/
theorem C96_int_string (env : Env) (e : Expr) (ctx : Ctx) (s : String) (h : eval env e ctx = .ok (.str s)) (v : Json) :
    (eval env (.app "@int" e) ctx = .ok v ↔ ∃ i, v = .int i ∧ Numeral s i ∧ -9223372036854775808 ≤ i ∧ i ≤ 9223372036854775807) := by
  have hr : ∀ i, (-9223372036854775808 ≤ i ∧ i ≤ 9223372036854775807) ↔ inInt64 i = true := fun i => by simp [inInt64]
  simp only [hr]
  rw [eval_convert (by decide) h]
  show (asInt (.str s)).map Json.int = _ ↔ _
  cases hp : parseInt s with
  | none =>
    rw [asInt, hp]
    refine ⟨(fun h => by cases h), ?_⟩
    rintro ⟨i, _, hi⟩
    rw [(parseInt_iff s i).mpr hi] at hp
    cases hp
  | some i =>
    rw [asInt, hp]
    have := (parseInt_iff s i).mp hp
    constructor
    · intro h; cases h; exact ⟨i, rfl, this⟩
    · rintro ⟨i', rfl, hi⟩
      rw [(parseInt_iff s i').mpr hi] at hp
      cases hp
      rfl

/-- **C96** (`@int`): integers are kept. Floats are not converted, whatever their value, and neither is anything else but strings. -/
theorem C96_int_other (env : Env) (e : Expr) (ctx : Ctx) :
    (∀ i, eval env e ctx = .ok (.int i) → eval env (.app "@int" e) ctx = .ok (.int i)) ∧
    (∀ v, eval env e ctx = .ok v → (∀ i, v ≠ .int i) → (∀ s, v ≠ .str s) → eval env (.app "@int" e) ctx = .error .err) := by
  refine ⟨fun i h => by rw [eval_convert (by decide) h]; rfl, fun v h h1 h2 => ?_⟩
  rw [eval_convert (by decide) h]
  cases v with
  | int i => exact absurd rfl (h1 i)
  | str s => exact absurd rfl (h2 s)
  | _ => rfl

/-- **C96** (round trip): a 64-bit integer turned into a string and back is the same. -/
theorem C96_round_trip (env : Env) (e : Expr) (ctx : Ctx) (i : Int) (h : eval env e ctx = .ok (.int i)) (h1 : -9223372036854775808 ≤ i)
    (h2 : i ≤ 9223372036854775807) : eval env (.app "@int" (.app "@string" e)) ctx = .ok (.int i) := by
  obtain ⟨s, hs, he⟩ := (C96_string_partial env e ctx).1 i h
  exact (C96_int_string env _ ctx s he (.int i)).mpr ⟨i, rfl, hs, h1, h2⟩

/-- **C96** (refuted for `@bool`): it converts nothing, its argument is a boolean already or the evaluation fails. -/
theorem C96_bool (env : Env) (e : Expr) (ctx : Ctx) (v : Json) : eval env (.app "@bool" e) ctx = .ok v ↔ ∃ b, v = .bool b ∧ eval env e ctx = .ok (.bool b) := by
  cases h : eval env e ctx with
  | error x => rw [eval_convert_err (by decide) h]; simp
  | ok w =>
    rw [eval_convert (by decide) h]
    show (asBool w).map Json.bool = _ ↔ _
    cases w with
    | bool b => simp [asBool, Except.map, eq_comm]
    | _ => simp [asBool, Except.map]

/-- **C96** (`@float`): floats are kept and integers are converted as by Go's `float64`. -/
theorem C96_float (env : Env) (e : Expr) (ctx : Ctx) :
    (∀ f, eval env e ctx = .ok (.float f) → eval env (.app "@float" e) ctx = .ok (.float f)) ∧
    (∀ i, eval env e ctx = .ok (.int i) → eval env (.app "@float" e) ctx = .ok (.float (env.ofInt i))) ∧
    (∀ b, eval env e ctx = .ok (.bool b) → eval env (.app "@float" e) ctx = .error .err) := by
  refine ⟨fun _ h => ?_, fun _ h => ?_, fun _ h => ?_⟩ <;> rw [eval_convert (by decide) h] <;> rfl

example : eval plainEnv (.app "@int" (strE "$.a")) ⟨.map [("a", .str "-042")], .null⟩ = .ok (.int (-42)) := by rfl
example : eval plainEnv (.app "@int" (strE "$.a")) ⟨.map [("a", .str "4 2")], .null⟩ = .error .err := by rfl
example : eval plainEnv (.app "@string" (strE "$.a")) ⟨.map [("a", .int (-42))], .null⟩ = .ok (.str "-42") := by rfl
example := C96_round_trip plainEnv (strE "$.a") ⟨.map [("a", .int (-9223372036854775808))], .null⟩ (-9223372036854775808) ((by rfl)) (by decide) (by decide)

/-! ## C97 -/

/-- **C97** (`@hash`): the result has six characters, and it is the beginning of the encoded MD5 sum if that has six characters. It depends on the value of
the argument alone: expressions with the same value have the same hash, in any contexts. -/
theorem C97_hash (env : Env) (e : Expr) (ctx : Ctx) (v : Json) (h : eval env e ctx = .ok v) :
    ∃ s, s.length = 6 ∧ (6 ≤ (env.md5 v).length → s.toList <+: (env.md5 v).toList) ∧ eval env (.app "@hash" e) ctx = .ok (.str s) ∧
      ∀ e' ctx', eval env e' ctx' = .ok v → eval env (.app "@hash" e') ctx' = .ok (.str s) := by
  have key : ∀ e' ctx', eval env e' ctx' = .ok v → eval env (.app "@hash" e') ctx' = .ok (.str (sixChars (env.md5 v))) := by
    intro e' ctx' h'
    rw [eval_strict h' (by decide) (by decide) (by decide) (by decide) (by decide) (by decide)]
    simp [strictOp, Env.hash]
  refine ⟨_, sixChars_length _, fun hl => ?_, key e ctx h, key⟩
  rw [sixChars, if_neg (by omega), String.toList_ofList]
  exact List.take_prefix _ _

theorem eval_rnd {env : Env} {a b : Expr} {ctx : Ctx} {x y : Int} (ha : eval env a ctx = .ok (.int x)) (hb : eval env b ctx = .ok (.int y)) :
    eval env (opList "@rnd" [a, b]) ctx = if wrap64 (y - x) ≤ 0 then .error .panic else .ok (.int (wrap64 (env.intn (wrap64 (y - x)) + x))) := by
  unfold opList
  rw [eval_strict (eval_list_ok (seqAll_two ha hb)) (by decide) (by decide) (by decide) (by decide) (by decide) (by decide)]
  simp [strictOp, unpackList, listOf, asList, mapAll, asInt]

/-- **C97** (the part that holds for `@rnd`): the result is an integer from the lower bound up to, but without, the upper bound, if the distance of the bounds is a 64-bit
integer. What is missing is bounds that are further apart. -/
theorem C97_rnd_partial (env : Env) (hr : RandOk env) (a b : Expr) (ctx : Ctx) (x y : Int) (ha : eval env a ctx = .ok (.int x)) (hb : eval env b ctx = .ok (.int y))
    (hx : -9223372036854775808 ≤ x) (hy : y ≤ 9223372036854775807) (h : x < y) (hd : y - x ≤ 9223372036854775807) :
    ∃ r, eval env (opList "@rnd" [a, b]) ctx = .ok (.int r) ∧ x ≤ r ∧ r < y := by
  have hw : wrap64 (y - x) = y - x := wrap64_of_in (by simp [inInt64]; omega)
  obtain ⟨h1, h2⟩ := hr (y - x) (by omega)
  have hw' : wrap64 (env.intn (y - x) + x) = env.intn (y - x) + x := wrap64_of_in (by simp [inInt64]; omega)
  refine ⟨env.intn (y - x) + x, ?_, by omega, by omega⟩
  rw [eval_rnd ha hb, hw, hw', if_neg (by omega)]

/-- **C97** (refuted for `@rnd`): an empty range is no error but a panic. -/
theorem C97_rnd_empty (env : Env) (a b : Expr) (ctx : Ctx) (x y : Int) (ha : eval env a ctx = .ok (.int x)) (hb : eval env b ctx = .ok (.int y))
    (h : y ≤ x) (hd : -9223372036854775808 ≤ y - x) : eval env (opList "@rnd" [a, b]) ctx = .error .panic := by
  have hw : wrap64 (y - x) = y - x := wrap64_of_in (by simp [inInt64]; omega)
  rw [eval_rnd ha hb, hw, if_pos (by omega)]

/-- **C97** (refuted for `@rnd`): so is a range that is too wide. -/
theorem C97_rnd_wide (env : Env) (ctx : Ctx) : eval env (opList "@rnd" [intE (-1), intE 9223372036854775807]) ctx = .error .panic :=
  eval_rnd (x := -1) (y := 9223372036854775807) rfl rfl

/-- **C97** (`@isnil` and `@exists`): one is the negation of the other, on every expression that evaluates. -/
theorem C97_isnil (env : Env) (e : Expr) (ctx : Ctx) (b : Bool) :
    (eval env (.app "@isnil" e) ctx = .ok (.bool b) ↔ eval env (.app "@exists" e) ctx = .ok (.bool (!b))) ∧
    (eval env (.app "@isnil" e) ctx = .ok (.bool true) ↔ eval env e ctx = .ok .null) := by
  cases h : eval env e ctx with
  | error x =>
    rw [eval_strict_err h (by decide) (by decide) (by decide) (by decide) (by decide) (by decide),
      eval_strict_err h (by decide) (by decide) (by decide) (by decide) (by decide) (by decide)]
    simp
  | ok v =>
    rw [eval_strict h (by decide) (by decide) (by decide) (by decide) (by decide) (by decide),
      eval_strict h (by decide) (by decide) (by decide) (by decide) (by decide) (by decide)]
    simp only [strictOp, String.reduceEq, if_true, if_false, true_or]
    cases v <;> cases b <;> simp

/-- **C97** (`@exists`): on a path of fields it tells whether there is such a field in the object and it is not null. It never fails. -/
theorem C97_exists (base : Env) (k : String) (p : List String) (hp : ∀ x ∈ k :: p, x ≠ "" ∧ x.toList.all isWord = true) (o s : Json) (b : Bool) :
    eval (fieldEnv base) (.app "@exists" (strE (pathString (k :: p)))) ⟨o, s⟩ = .ok (.bool b) ↔ (b = true ↔ ∃ v, o.at (k :: p) = some v ∧ v ≠ .null) := by
  have hg := getJSONPath_path base ⟨o, s⟩ k p hp
  have he : ∃ w, eval (fieldEnv base) (strE (pathString (k :: p))) ⟨o, s⟩ = .ok w ∧ (w = .null ↔ (o.at (k :: p)).getD .null = .null) := by
    show ∃ w, convert (fieldEnv base) ⟨o, s⟩ "@string" (.str (pathString (k :: p))) = .ok w ∧ _
    unfold convert
    simp only [String.reduceEq, if_false, asString, hg]
    cases (o.at (k :: p)).getD .null <;> simp
  obtain ⟨w, h1, h2⟩ := he
  rw [eval_strict h1 (by decide) (by decide) (by decide) (by decide) (by decide) (by decide)]
  simp only [strictOp, String.reduceEq, if_true, if_false, true_or, Except.ok.injEq, Json.bool.injEq]
  have h3 : (∃ v, o.at (k :: p) = some v ∧ v ≠ .null) ↔ w ≠ .null := by
    rw [ne_eq, h2]
    cases o.at (k :: p) <;> simp
  rw [h3]
  cases b <;> simp

/-- An environment with random numbers. -/
def rndEnv : Env := { plainEnv with intn := fun n => n - 1 }
theorem rndEnv_ok : RandOk rndEnv := fun n hn => ⟨by show 0 ≤ n - 1; omega, by show n - 1 < n; omega⟩
example := C97_rnd_partial rndEnv rndEnv_ok (intE 0) (strE "$.max") ⟨.map [("max", .int 256)], .null⟩ 0 256 rfl ((by rfl)) (by decide) (by decide) (by decide) (by decide)
example : eval rndEnv (opList "@rnd" [intE 5, intE 5]) ⟨.null, .null⟩ = .error .panic := C97_rnd_empty _ _ _ _ 5 5 rfl rfl (by decide) (by decide)
example : eval plainEnv (.app "@hash" (strE "$.spec")) ⟨.map [("spec", .int 256)], .null⟩ = .ok (.str "hashxx") := by rfl
example : eval plainEnv (.app "@exists" (strE "$.a.b")) ⟨.map [("a", .map [("b", .bool false)])], .null⟩ = .ok (.bool true) :=
  (C97_exists _ "a" ["b"] (by decide) _ _ true).mpr ⟨fun _ => ⟨.bool false, rfl, by decide⟩, fun _ => rfl⟩
example : eval plainEnv (.app "@exists" (strE "$.a.c")) ⟨.map [("a", .map [("b", .bool false)])], .null⟩ = .ok (.bool false) :=
  (C97_exists _ "a" ["c"] (by decide) _ _ false).mpr ⟨(fun h => by cases h), fun ⟨v, h, _⟩ => by cases h⟩

end Dctl
