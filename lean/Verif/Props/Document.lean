import Verif.Json.KeyLemmas
/-!
# C01: document identity

`Json.key` is the model of `computeJSONKey`; JSON equality `Json.Same` and the domain `Json.Doc` are in `Verif/Spec/Json.lean`.
-/
set_option autoImplicit false
namespace Dctl

/-- C01 (part): two documents have the same key exactly if they are equal as JSON values, for all documents of any depth and
width whose floats are printed exactly (`FloatText`). Missing: floats beyond 2^53 in size, whose text may be that of an integer they
are not equal to, see `C01_large_float_collision`. -/
theorem C01_identity_partial {E : Rat → Prop} {ft : Rat → List Char} (F : FloatText E ft) {a b : Json} (ha : a.Doc E) (hb : b.Doc E) :
    a.key ft = b.key ft ↔ a.Same b := by
  rw [← teq_canon F a ha b hb]
  constructor
  · intro h
    exact (text_split F a.canon (canon_doc a ha) b.canon (canon_doc b hb) [] [] (.inl rfl) (.inl rfl) (by simpa [Json.key] using h)).1
  · exact teq_text _ _

/-- C01 for documents without floats, whatever the float formatter. -/
theorem C01_identity_no_floats {ft : Rat → List Char} {a b : Json} (ha : a.Doc (fun _ => False)) (hb : b.Doc (fun _ => False)) :
    (docDeepEqual ft a b = true ↔ a.Same b) := by
  unfold docDeepEqual
  rw [decide_eq_true_eq]
  exact C01_identity_partial ⟨fun _ h => h.elim, fun _ h => h.elim, fun _ h => h.elim, fun _ _ h => h.elim, fun _ _ h => h.elim⟩ ha hb

/-- C01: inserting the fields of a document in another order gives the same identity. -/
theorem C01_field_order {ft : Rat → List Char} {m m' : List (String × Json)} (h : m.Perm m') (hn : (m.map Prod.fst).Nodup) :
    (Json.map m).key ft = (Json.map m').key ft := by
  have : Json.canonM m = Json.canonM m' := by
    apply SMap.ext (canonM_sorted m) (canonM_sorted m')
    intro k
    rw [canonM_get, canonM_get]
    congr 1
    have hn' : (m'.map Prod.fst).Nodup := (h.map _).nodup_iff.mp hn
    have nd : ∀ {l : List (String × Json)}, (l.map Prod.fst).Nodup → ∀ {v}, (k, v) ∈ l → SMap.get l k = some v := by
      intro l hl v hv
      induction l with
      | nil => simp at hv
      | cons p t ih =>
        obtain ⟨x, w⟩ := p
        simp only [List.map_cons, List.nodup_cons] at hl
        rcases List.mem_cons.mp hv with e | hv
        · simp only [Prod.mk.injEq] at e; simp [SMap.get, e.1, e.2]
        · have : x ≠ k := by
            rintro rfl
            exact hl.1 (List.mem_map.mpr ⟨_, hv, rfl⟩)
          simp [SMap.get, this, ih hl.2 hv]
    cases hg : SMap.get m k with
    | some v => exact (nd hn' (h.mem_iff.mp (SMap.mem_of_get hg))).symm
    | none =>
      cases hg' : SMap.get m' k with
      | none => rfl
      | some v => rw [nd hn (h.mem_iff.mpr (SMap.mem_of_get hg'))] at hg; simp at hg
  simp only [Json.key, Json.canon, this]

/-- C01 fails for large floats: Go prints the float 2^60 as `1152921504606847000` (shortest decimal that reads back as
this float, padded with zeros), the text of an integer that is not 2^60. Documents with these two numbers share an identity. -/
theorem C01_large_float_collision {ft : Rat → List Char} (h : ft ((2 ^ 60 : Int) : Rat) = "1152921504606847000".toList) :
    (Json.map [("a", .float ((2 ^ 60 : Int) : Rat))]).key ft = (Json.map [("a", .int 1152921504606847000)]).key ft ∧
    ¬ (Json.map [("a", .float ((2 ^ 60 : Int) : Rat))]).Same (Json.map [("a", .int 1152921504606847000)]) := by
  constructor
  · simp only [Json.key, Json.canon, Json.canonM, SMap.set, Json.text, Json.textM, h]
    have : (1152921504606847000 : Int).repr.toList = "1152921504606847000".toList := by decide
    rw [this]
  · rintro ⟨⟨⟨y, hy, h2⟩, _⟩, _⟩
    have hy' : some (Json.int 1152921504606847000) = some y := hy
    simp only [Option.some.injEq] at hy'
    subst hy'
    have h3 : ((2 ^ 60 : Int)) = 1152921504606847000 := Rat.intCast_inj.mp h2
    exact absurd h3 (by decide)

/-- A formatter that is exact on integral floats. -/
theorem intFloatText : FloatText (fun q => ∃ i : Int, q = (i : Rat)) (fun q => q.num.repr.toList) := by
  refine ⟨?_, ?_, ?_, ?_, ?_⟩
  · rintro q _ h
    obtain ⟨⟨c, t, h1, _⟩, _⟩ := intText_facts q.num
    rw [h1] at h; simp at h
  · intro q _ c hc; exact (intText_facts q.num).2 c hc
  · intro q _ c t h
    obtain ⟨⟨c', t', h1, h2⟩, _⟩ := intText_facts q.num
    rw [h1] at h
    simp only [List.cons.injEq] at h
    exact h.1 ▸ h2
  · rintro p q ⟨i, rfl⟩ ⟨j, rfl⟩ h
    rw [String.toList_inj] at h
    have := Int.repr_injective h
    simpa using this
  · rintro q i ⟨j, rfl⟩
    rw [String.toList_inj]
    constructor
    · intro h; have := Int.repr_injective h; simp at this; rw [this]
    · intro h; rw [h]; simp

example : (Json.map [("b", .list [.float 2, .str "x"]), ("a", .map [])]).Same (Json.map [("a", .map []), ("b", .list [.int 2, .str "x"])]) := by
  rw [← C01_identity_partial intFloatText]
  · decide
  · refine ⟨by decide, ⟨⟨2, rfl⟩, trivial, trivial⟩, ⟨by decide, trivial⟩, trivial⟩
  · refine ⟨by decide, ⟨by decide, trivial⟩, ⟨trivial, trivial, trivial⟩, trivial⟩

example : docDeepEqual (fun _ => []) (.map [("a", .list [.int 1, .int 23])]) (.map [("a", .list [.int 12, .int 3])]) = false := by decide

end Dctl
