import Verif.Pipeline.ListLemmas
/-!
# Families of documents

What an operation makes of a list of documents, when each document of the list has a label and each label occurs once.
-/
set_option autoImplicit false
set_option linter.unusedSectionVars false
namespace Dctl
variable {L L' : Type}

/-- `xs` lists one document for each valid label, related to it, and nothing else. (A notion of the proofs; nothing in the code.) -/
def Family (V : L → Prop) (R : L → CDoc → Prop) (xs : List CDoc) : Prop :=
  ∃ ps : List (L × CDoc), ps.map Prod.snd = xs ∧ (ps.map Prod.fst).Nodup ∧ (∀ l, l ∈ ps.map Prod.fst ↔ V l) ∧ ∀ p ∈ ps, R p.1 p.2

theorem Family.congr {V V' : L → Prop} {R R' : L → CDoc → Prop} {xs : List CDoc} (h : Family V R xs) (hV : ∀ l, V l ↔ V' l) (hR : ∀ l x, V l → R l x → R' l x) :
    Family V' R' xs := by
  obtain ⟨ps, h1, h2, h3, h4⟩ := h
  exact ⟨ps, h1, h2, fun l => (h3 l).trans (hV l), fun p hp => hR _ _ ((h3 p.1).mp (List.mem_map.mpr ⟨p, hp, rfl⟩)) (h4 p hp)⟩

theorem Family.mem {V : L → Prop} {R : L → CDoc → Prop} {xs : List CDoc} (h : Family V R xs) {c : CDoc} (hc : c ∈ xs) : ∃ l, V l ∧ R l c := by
  obtain ⟨ps, rfl, h2, h3, h4⟩ := h
  obtain ⟨p, hp, rfl⟩ := List.mem_map.mp hc
  exact ⟨p.1, (h3 p.1).mp (List.mem_map.mpr ⟨p, hp, rfl⟩), h4 p hp⟩

theorem Family.mem_of {V : L → Prop} {R : L → CDoc → Prop} {xs : List CDoc} (h : Family V R xs) {l : L} (hl : V l) : ∃ c ∈ xs, R l c := by
  obtain ⟨ps, rfl, h2, h3, h4⟩ := h
  obtain ⟨p, hp, rfl⟩ := List.mem_map.mp ((h3 l).mpr hl)
  exact ⟨p.2, List.mem_map.mpr ⟨p, hp, rfl⟩, h4 p hp⟩

theorem Family.pairwise {V : L → Prop} {R : L → CDoc → Prop} {xs : List CDoc} (h : Family V R xs) {Q : CDoc → CDoc → Prop}
    (hQ : ∀ l l' c c', V l → V l' → l ≠ l' → R l c → R l' c' → Q c c') : xs.Pairwise Q := by
  obtain ⟨ps, rfl, h2, h3, h4⟩ := h
  refine List.pairwise_map.mpr (List.Pairwise.imp_of_mem ?_ (List.pairwise_map.mp h2))
  intro a b ha hb hab
  exact hQ a.1 b.1 _ _ ((h3 _).mp (List.mem_map.mpr ⟨a, ha, rfl⟩)) ((h3 _).mp (List.mem_map.mpr ⟨b, hb, rfl⟩)) hab (h4 a ha) (h4 b hb)

theorem family_concat_aux {V : L → Prop} {R : L → CDoc → Prop} {V' : L' → Prop} {R' : L' → CDoc → Prop} (f : L' → L) {S : CDoc → List CDoc → Prop}
    (hs : ∀ l x m, V l → R l x → S x m → Family (fun l' => V' l' ∧ f l' = l) R' m) :
    ∀ (ps : List (L × CDoc)) (ys : List CDoc), (ps.map Prod.fst).Nodup → (∀ p ∈ ps, V p.1 ∧ R p.1 p.2) → Concat S (ps.map Prod.snd) ys →
      Family (fun l' => V' l' ∧ f l' ∈ ps.map Prod.fst) R' ys
  | [], ys, _, _, hc => by
    rw [show ys = [] from hc]
    exact ⟨[], rfl, List.nodup_nil, by simp, by simp⟩
  | p :: ps, ys, hn, hp, ⟨m, r, e, h1, h2⟩ => by
    obtain ⟨n1, n2⟩ := List.nodup_cons.mp hn
    obtain ⟨qs, a1, a2, a3, a4⟩ := hs p.1 p.2 m (hp p (by simp)).1 (hp p (by simp)).2 h1
    obtain ⟨rs, b1, b2, b3, b4⟩ := family_concat_aux f hs ps r n2 (fun q hq => hp q (List.mem_cons_of_mem _ hq)) h2
    refine ⟨qs ++ rs, by rw [List.map_append, a1, b1, e], ?_, fun l => ?_, fun q hq => ?_⟩
    · rw [List.map_append]
      refine List.nodup_append.mpr ⟨a2, b2, ?_⟩
      intro l hl l' hl' e
      subst e
      rw [a3] at hl
      rw [b3] at hl'
      exact n1 (hl.2 ▸ hl'.2)
    · rw [List.map_append, List.mem_append, a3, b3]
      simp only [List.map_cons, List.mem_cons]
      constructor
      · rintro (⟨h, e⟩ | ⟨h, e⟩)
        · exact ⟨h, .inl e⟩
        · exact ⟨h, .inr e⟩
      · rintro ⟨h, e | e⟩
        · exact .inl ⟨h, e⟩
        · exact .inr ⟨h, e⟩
    · rcases List.mem_append.mp hq with hq | hq
      · exact a4 q hq
      · exact b4 q hq

theorem family_concat {V : L → Prop} {R : L → CDoc → Prop} {V' : L' → Prop} {R' : L' → CDoc → Prop} (f : L' → L) (hV : ∀ l', V' l' → V (f l'))
    {S : CDoc → List CDoc → Prop} (hs : ∀ l x m, V l → R l x → S x m → Family (fun l' => V' l' ∧ f l' = l) R' m) {xs ys : List CDoc} (h : Family V R xs)
    (hc : Concat S xs ys) : Family V' R' ys := by
  obtain ⟨ps, rfl, h2, h3, h4⟩ := h
  refine (family_concat_aux f hs ps ys h2 (fun p hp => ⟨(h3 _).mp (List.mem_map.mpr ⟨p, hp, rfl⟩), h4 p hp⟩) hc).congr (fun l => ?_) (fun _ _ _ h => h)
  exact ⟨fun h => h.1, fun h => ⟨h, (h3 _).mpr (hV l h)⟩⟩

theorem family_nil {V : L → Prop} {R : L → CDoc → Prop} (h : ∀ l, ¬ V l) : Family V R [] := ⟨[], rfl, List.nodup_nil, by simp [h], by simp⟩

theorem family_one {V : L → Prop} {R : L → CDoc → Prop} {l : L} {c : CDoc} (h : ∀ l', V l' ↔ l' = l) (hR : R l c) : Family V R [c] :=
  ⟨[(l, c)], rfl, by simp, by simp [h], by simpa using hR⟩

theorem family_select {env : Env} {srt : List Json → List Json} {e : Expr} {V : L → Prop} {R : L → CDoc → Prop} (C : L → Prop) {xs ys : List CDoc} (h : Family V R xs)
    (hs : StageRows env srt (.select e) xs ys) (h1 : ∀ l x, V l → R l x → C l → CondTrue env e x) (h2 : ∀ l x, V l → R l x → ¬ C l → CondFalse env e x) :
    Family (fun l => V l ∧ C l) R ys := by
  refine family_concat id (fun l h => h.1) (fun l x m hv hr hm => ?_) h hs
  have no : ¬ (CondTrue env e x ∧ CondFalse env e x) := by
    rintro ⟨a, b⟩
    unfold CondTrue at a
    unfold CondFalse at b
    rw [a] at b
    simp at b
  rcases hm with ⟨ht, rfl⟩ | ⟨hf, rfl⟩
  · have hc : C l := Classical.byContradiction fun hn => no ⟨ht, h2 l x hv hr hn⟩
    exact family_one (l := l) (fun l' => ⟨fun h => h.2, by rintro rfl; exact ⟨⟨hv, hc⟩, rfl⟩⟩) hr
  · refine family_nil (fun l' => ?_)
    rintro ⟨⟨_, hc⟩, rfl⟩
    exact no ⟨h1 _ x hv hr hc, hf⟩

theorem family_project {env : Env} {srt : List Json → List Json} {e : Expr} {V : L → Prop} {R R' : L → CDoc → Prop} {xs ys : List CDoc} (h : Family V R xs)
    (hs : StageRows env srt (.project e) xs ys) (h1 : ∀ l x c, V l → R l x → Projects env e x c → R' l c) : Family V R' ys := by
  refine family_concat id (fun l h => h) (fun l x m hv hr hm => ?_) h hs
  obtain ⟨c, hc, rfl⟩ := hm
  exact family_one (l := l) (fun l' => ⟨fun h => h.2, by rintro rfl; exact ⟨hv, rfl⟩⟩) (h1 l x c hv hr hc)

theorem family_unwind {env : Env} {srt : List Json → List Json} {path : List String} (hp : Words path) {V : L → Prop} {R : L → CDoc → Prop} {V' : L × Nat → Prop}
    {R' : L × Nat → CDoc → Prop} {xs ys : List CDoc} (h : Family V R xs) (hs : StageRows env srt (.unwind (strE (pathString path))) xs ys)
    (h1 : ∀ l i, V' (l, i) → V l) (h2 : ∀ l x i c, V l → R l x → UnwindsTo path i x c → V' (l, i) ∧ R' (l, i) c)
    (h3 : ∀ l x i, V l → R l x → V' (l, i) → ∃ c, UnwindsTo path i x c) : Family V' R' ys := by
  obtain ⟨path', he, hp', hs⟩ := hs
  have : path = path' := pathString_inj hp hp' (by simpa [strE] using he)
  subst this
  refine family_concat Prod.fst (fun l h => h1 l.1 l.2 h) (fun l x m hv hr hm => ?_) h hs
  refine ⟨m.zipIdx.map (fun q => ((l, q.2), q.1)), ?_, ?_, fun l' => ?_, fun q hq => ?_⟩
  · rw [List.map_map]
    exact List.zipIdx_map_fst 0 m
  · have := List.nodup_range' (s := 0) (n := m.length) (step := 1)
    rw [← List.zipIdx_map_snd 0 m] at this
    rw [List.map_map]
    refine List.pairwise_map.mpr ((List.pairwise_map.mp this).imp (fun {a b} hab e => hab ?_))
    simp only [Function.comp_apply, Prod.mk.injEq] at e
    exact e.2
  · constructor
    · intro hl
      obtain ⟨p, hp, rfl⟩ := List.mem_map.mp hl
      obtain ⟨⟨c, i⟩, hi, rfl⟩ := List.mem_map.mp hp
      rw [List.mem_zipIdx_iff_getElem?] at hi
      exact ⟨(h2 l x i c hv hr ((hm i c).mp hi)).1, rfl⟩
    · rintro ⟨hv', rfl⟩
      obtain ⟨c, hc⟩ := h3 _ x l'.2 hv hr hv'
      exact List.mem_map.mpr ⟨(l', c), List.mem_map.mpr ⟨(c, l'.2), List.mem_zipIdx_iff_getElem?.mpr ((hm _ _).mpr hc), rfl⟩, rfl⟩
  · obtain ⟨⟨c, i⟩, hi, rfl⟩ := List.mem_map.mp hq
    rw [List.mem_zipIdx_iff_getElem?] at hi
    exact (h2 l x i c hv hr ((hm i c).mp hi)).2

/-- The combinations a join accepts, labelled with the tuples. -/
theorem family_join {env : Env} {hist : List (Delta CDoc)} {sources : List GVK} {e : Expr} {xs : List CDoc} {ops rest : List SpecOp}
    (hk : (sources.map GVK.kind).Nodup) (h : StartRows env hist sources (.join e :: rest) xs ops) {V : List CDoc → Prop}
    (hV : ∀ ds, V ds ↔ LiveTuple hist sources ds ∧ ∃ j, Combines (sources.map GVK.kind) ds j ∧ CondTrue env e j) :
    ops = rest ∧ Family V (fun ds j => Combines (sources.map GVK.kind) ds j) xs := by
  obtain ⟨hn, rfl, hx⟩ := h
  refine ⟨rfl, ?_⟩
  have hc : ∀ j : {j // j ∈ xs}, ∃ ds, LiveTuple hist sources ds ∧ Combines (sources.map GVK.kind) ds j.1 ∧ CondTrue env e j.1 := fun j => (hx j.1).mp j.2
  refine ⟨xs.attach.map (fun j => (Classical.choose (hc j), j.1)), ?_, ?_, fun ds => ?_, fun p hp => ?_⟩
  · rw [List.map_map]
    exact List.attach_map_subtype_val xs
  · rw [List.map_map]
    have hn' : (xs.attach.map (·.1)).Nodup := by rw [List.attach_map_subtype_val]; exact hn
    refine List.pairwise_map.mpr ((List.pairwise_map.mp hn').imp (fun {a b} hab e => hab ?_))
    have ha := (Classical.choose_spec (hc a)).2.1
    have hb := (Classical.choose_spec (hc b)).2.1
    rw [show Classical.choose (hc a) = Classical.choose (hc b) from e] at ha
    exact combines_unique ha hb
  · simp only [List.map_map, List.mem_map]
    rw [hV]
    constructor
    · rintro ⟨j, _, rfl⟩
      obtain ⟨h1, h2, h3⟩ := Classical.choose_spec (hc j)
      exact ⟨h1, j.1, h2, h3⟩
    · rintro ⟨h1, j, h2, h3⟩
      have hj : j ∈ xs := (hx j).mpr ⟨ds, h1, h2, h3⟩
      refine ⟨⟨j, hj⟩, List.mem_attach _ _, ?_⟩
      obtain ⟨g1, g2, _⟩ := Classical.choose_spec (hc ⟨j, hj⟩)
      exact combines_inj hk (by rw [List.length_map]; exact g1.1) (by rw [List.length_map]; exact h1.1) g2 h2
  · obtain ⟨j, _, rfl⟩ := List.mem_map.mp hp
    exact (Classical.choose_spec (hc j)).2.1

theorem evaluatesOn_mono {env : Env} {srt : List Json → List Json} : ∀ {ops : List SpecOp} {P Q : CDoc → Prop}, (∀ d, Q d → P d) → EvaluatesOn env srt ops P →
    EvaluatesOn env srt ops Q
  | [], _, _, _, _ => trivial
  | .select e :: ops, P, Q, h, ⟨h1, h2⟩ => ⟨fun d hd => h1 d (h d hd), evaluatesOn_mono (ops := ops) (fun d hd => ⟨h d hd.1, hd.2⟩) h2⟩
  | .project e :: ops, P, Q, h, ⟨h1, h2⟩ => ⟨fun d hd => h1 d (h d hd), evaluatesOn_mono (ops := ops) (fun c ⟨d, hd, hc⟩ => ⟨d, h d hd, hc⟩) h2⟩
  | .unwind e :: ops, P, Q, h, ⟨path, h1, h2, h3, h4⟩ =>
    ⟨path, h1, h2, fun d hd => h3 d (h d hd), evaluatesOn_mono (ops := ops) (fun c ⟨d, i, hd, hc⟩ => ⟨d, i, h d hd, hc⟩) h4⟩
  | .gather e :: ops, P, Q, h, ⟨keyE, path, h1, h2, h3, h4⟩ =>
    ⟨keyE, path, h1, h2, fun d hd => h3 d (h d hd), evaluatesOn_mono (ops := ops) (fun c ⟨d, key, vals, hd, hk, hv, hc⟩ =>
      ⟨d, key, vals, h d hd, hk, fun v hm => let ⟨d', hd', hy⟩ := hv v hm; ⟨d', h d' hd', hy⟩, hc⟩) h4⟩
  | .join e :: ops, P, Q, h, hf => hf.elim

end Dctl
