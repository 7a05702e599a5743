import Verif.Dbsp.HeapLemmas
/-!
# Lemmas for C110: operators in memory do what the abstract operators do
-/
set_option autoImplicit false
set_option linter.unusedSectionVars false
namespace Dctl
namespace Mem
variable {K J : Type} [DecidableEq K] [DecidableEq J]

/-! ### relations on lists -/

theorem All2.imp {A B : Type} {R S : A → B → Prop} {as : List A} {bs : List B} (h : All2 R as bs) (hi : ∀ a b, R a b → S a b) :
    All2 S as bs := by
  induction h with
  | nil => exact .nil
  | cons h _ ih => exact .cons (hi _ _ h) ih

theorem All2.imp_mem {A B : Type} {R S : A → B → Prop} {as : List A} {bs : List B} (h : All2 R as bs) :
    (∀ a b, a ∈ as → R a b → S a b) → All2 S as bs := by
  induction h with
  | nil => intro _; exact .nil
  | cons h _ ih =>
    intro hi
    exact .cons (hi _ _ (List.mem_cons_self ..) h) (ih (fun a b ha => hi a b (List.mem_cons_of_mem _ ha)))

theorem All2.append {A B : Type} {R : A → B → Prop} {as as' : List A} {bs bs' : List B} (h : All2 R as bs) (h' : All2 R as' bs') :
    All2 R (as ++ as') (bs ++ bs') := by
  induction h with
  | nil => exact h'
  | cons h _ ih => exact .cons h ih

theorem All2.replicate {A B : Type} {R : A → B → Prop} {a : A} {b : B} (h : R a b) : ∀ n, All2 R (List.replicate n a) (List.replicate n b)
  | 0 => .nil
  | n + 1 => .cons h (All2.replicate h n)

theorem All2.length {A B : Type} {R : A → B → Prop} {as : List A} {bs : List B} (h : All2 R as bs) : as.length = bs.length := by
  induction h with
  | nil => rfl
  | cons _ _ ih => simp [ih]

theorem All2.reverse {A B : Type} {R : A → B → Prop} {as : List A} {bs : List B} (h : All2 R as bs) : All2 R as.reverse bs.reverse := by
  induction h with
  | nil => exact .nil
  | cons h _ ih => rw [List.reverse_cons, List.reverse_cons]; exact ih.append (.cons h .nil)

theorem All2.mem_left {A B : Type} {R : A → B → Prop} {as : List A} {bs : List B} (h : All2 R as bs) {a : A} : a ∈ as → ∃ b, R a b := by
  induction h with
  | nil => intro h; cases h
  | cons h _ ih =>
    intro hm
    rcases List.mem_cons.mp hm with rfl | hm
    · exact ⟨_, h⟩
    · exact ih hm

/-! ### computations -/

theorem bind_ok {A B : Type} {m : M A} {f : A → M B} {n : Nat} {h h' : Heap} {a : A} (hm : m n h = some (h', .ok a)) :
    m.bind f n h = f a n h' := by simp [M.bind, hm]

theorem M.bind_assoc {A B C : Type} (m : M A) (f : A → M B) (g : B → M C) : (m.bind f).bind g = m.bind (fun a => (f a).bind g) := by
  funext n h
  simp only [M.bind]
  split
  · rename_i h1; split at h1 <;> simp_all
  · rename_i h1; split at h1 <;> simp_all
  · rename_i h1; split at h1 <;> simp_all

theorem Does.pure {A B : Type} {W : Region} {h : Heap} {a : A} {b : B} {Q : Heap → A → B → Prop} (hq : Q h a b) :
    Does W h (.pure a) (.ok b) Q :=
  ⟨h, .ok a, ⟨0, fun _ _ => rfl⟩, Ext.refl _ _, hq⟩

theorem Does.fail {A B : Type} {W : Region} {h : Heap} {e : Err} {Q : Heap → A → B → Prop} : Does W h (.fail e) (.error e) Q :=
  ⟨h, .error e, ⟨0, fun _ _ => rfl⟩, Ext.refl _ _, rfl⟩

theorem Does.bind {A A' B B' : Type} {W : Region} {h : Heap} {m : M A} {x : Except Err B} {Q : Heap → A → B → Prop}
    {f : A → M A'} {g : B → Except Err B'} {Q' : Heap → A' → B' → Prop} (h1 : Does W h m x Q)
    (h2 : ∀ h' a b, Ext W h h' → Q h' a b → Does (orNew W h) h' (f a) (g b) Q') : Does W h (m.bind f) (x.bind g) Q' := by
  obtain ⟨h', r, ⟨N, hN⟩, he, hs⟩ := h1
  match r, x, hs with
  | .error e, .error e', hs =>
    have hs : e = e' := hs
    subst hs
    exact ⟨h', .error e, ⟨N, fun n hn => by simp [M.bind, hN n hn]⟩, he, rfl⟩
  | .ok a, .ok b, hs =>
    obtain ⟨h'', r', ⟨N', hN'⟩, he', hs'⟩ := h2 h' a b he hs
    refine ⟨h'', r', ⟨max N N', fun n hn => ?_⟩, he.trans he' (fun b hb hw => ?_), hs'⟩
    · rw [bind_ok (hN n (by omega))]; exact hN' n (by omega)
    · rcases hw with hw | hw
      · exact hw
      · omega
  | .error _, .ok _, hs => exact absurd hs (by simp [SameOutcome])
  | .ok _, .error _, hs => exact absurd hs (by simp [SameOutcome])

theorem Does.weaken {A B : Type} {W W' : Region} {h : Heap} {m : M A} {x : Except Err B} {Q Q' : Heap → A → B → Prop}
    (hd : Does W h m x Q) (hw : ∀ b, b < h.length → W b → W' b) (hq : ∀ h' a b, Ext W h h' → Q h' a b → Q' h' a b) : Does W' h m x Q' := by
  obtain ⟨h', r, hg, he, hs⟩ := hd
  refine ⟨h', r, hg, he.mono hw, ?_⟩
  match r, x, hs with
  | .error e, .error e', hs => exact hs
  | .ok a, .ok b, hs => exact hq h' a b he hs

theorem Does.known {A B : Type} {W : Region} {h : Heap} {m : M A} {b : B} {Q : Heap → A → B → Prop} (hd : Does W h m (.ok b) Q) :
    Does W h m (.ok b) (fun h' a b' => Q h' a b' ∧ b' = b) := by
  obtain ⟨h', r, hg, he, hs⟩ := hd
  match r, hs with
  | .ok a, hs => exact ⟨h', .ok a, hg, he, hs, rfl⟩

/-- The version for steps that write nowhere. -/
theorem Does.then {A A' B B' : Type} {h : Heap} {m : M A} {x : Except Err B} {Q : Heap → A → B → Prop}
    {f : A → M A'} {g : B → Except Err B'} {Q' : Heap → A' → B' → Prop} (h1 : Does nowhere h m x Q)
    (h2 : ∀ h' a b, Ext nowhere h h' → Q h' a b → Does nowhere h' (f a) (g b) Q') : Does nowhere h (m.bind f) (x.bind g) Q' :=
  h1.bind (fun h' a b he hq => (h2 h' a b he hq).weaken (fun _ _ h => h.elim) (fun _ _ _ _ h => h))

theorem Does.congr {A B : Type} {W : Region} {h : Heap} {m m' : M A} {x x' : Except Err B} {Q : Heap → A → B → Prop}
    (hd : Does W h m x Q) (hm : m' = m) (hx : x' = x) : Does W h m' x' Q := by subst hm hx; exact hd

/-! ### representation -/

theorem DocIs.mono {c : Cfg K J} {h : Heap} {A B : Region} {a : Nat} {k : K} (hd : DocIs c h A a k) (hab : ∀ b, b < h.length → A b → B b) :
    DocIs c h B a k := by
  obtain ⟨j, h1, h2, h3⟩ := hd
  exact ⟨j, h1, h2, fun b hb => hab b (hb.lt h1.choose_spec) (h3 b hb)⟩

theorem DocIs.ext {c : Cfg K J} {W : Region} {h h' : Heap} {A : Region} {a : Nat} {k : K} (hd : DocIs c h A a k) (he : Ext W h h')
    (hw : ∀ b, b < h.length → A b → ¬ W b) : DocIs c h' (fun b => A b ∧ b < h.length) a k := by
  obtain ⟨j, h1, h2, h3⟩ := hd
  obtain ⟨h4, h5⟩ := frame_ext h1 h3 he hw
  exact ⟨j, h4, h2, fun b hb => ⟨h3 b (h5 b hb), (h5 b hb).lt h1.choose_spec⟩⟩

theorem DocIs.grow {c : Cfg K J} {h h' : Heap} {A : Region} {a : Nat} {k : K} (hd : DocIs c h A a k) (he : Ext nowhere h h') : DocIs c h' A a k :=
  (hd.ext he (fun _ _ _ h => h)).mono (fun _ _ h => h.1)

theorem ValIs.mono {c : Cfg K J} {h : Heap} {A B : Region} {v : Val} {w : J} (hd : ValIs c h A v w) (hab : ∀ b, b < h.length → A b → B b) :
    ValIs c h B v w := by
  obtain ⟨j, h1, h2, h3⟩ := hd
  exact ⟨j, h1, h2, fun b hb => hab b (hb.lt h1.choose_spec) (h3 b hb)⟩

theorem ValIs.ext {c : Cfg K J} {W : Region} {h h' : Heap} {A : Region} {v : Val} {w : J} (hd : ValIs c h A v w) (he : Ext W h h')
    (hw : ∀ b, b < h.length → A b → ¬ W b) : ValIs c h' (fun b => A b ∧ b < h.length) v w := by
  obtain ⟨j, h1, h2, h3⟩ := hd
  obtain ⟨h4, h5⟩ := frame_ext h1 h3 he hw
  exact ⟨j, h4, h2, fun b hb => ⟨h3 b (h5 b hb), (h5 b hb).lt h1.choose_spec⟩⟩

theorem ValIs.grow {c : Cfg K J} {h h' : Heap} {A : Region} {v : Val} {w : J} (hd : ValIs c h A v w) (he : Ext nowhere h h') : ValIs c h' A v w :=
  (hd.ext he (fun _ _ _ h => h)).mono (fun _ _ h => h.1)

theorem ElemIs.mono {c : Cfg K J} {h : Heap} {A B : Region} {x : Nat × Val} {w : J} (hd : ElemIs c h A x w) (hab : ∀ b, b < h.length → A b → B b) :
    ElemIs c h B x w := by
  obtain ⟨j, h1, h2, h3⟩ := hd
  exact ⟨j, h1, h2, fun b hb => hab b (hb.lt h1.choose_spec) (h3 b hb)⟩

theorem ElemIs.ext {c : Cfg K J} {W : Region} {h h' : Heap} {A : Region} {x : Nat × Val} {w : J} (hd : ElemIs c h A x w) (he : Ext W h h')
    (hw : ∀ b, b < h.length → A b → ¬ W b) : ElemIs c h' (fun b => A b ∧ b < h.length) x w := by
  obtain ⟨j, h1, h2, h3⟩ := hd
  obtain ⟨h4, h5⟩ := frame_ext h1 h3 he hw
  exact ⟨j, h4, h2, fun b hb => ⟨h3 b (h5 b hb), (h5 b hb).lt h1.choose_spec⟩⟩

theorem ElemIs.grow {c : Cfg K J} {h h' : Heap} {A : Region} {x : Nat × Val} {w : J} (hd : ElemIs c h A x w) (he : Ext nowhere h h') : ElemIs c h' A x w :=
  (hd.ext he (fun _ _ _ h => h)).mono (fun _ _ h => h.1)

theorem ZIs.mono {c : Cfg K J} {h : Heap} {A B : Region} {z : HZ K} {Z : ZSet K} (hz : ZIs c h A z Z) (hab : ∀ b, b < h.length → A b → B b) :
    ZIs c h B z Z := hz.imp (fun _ _ h => ⟨h.1, h.2.1, h.2.2.mono hab⟩)

theorem ZIs.grow {c : Cfg K J} {h h' : Heap} {A : Region} {z : HZ K} {Z : ZSet K} (hz : ZIs c h A z Z) (he : Ext nowhere h h') : ZIs c h' A z Z :=
  hz.imp (fun _ _ h => ⟨h.1, h.2.1, h.2.2.grow he⟩)

/-- As `grow`, remembering that the cells are old. -/
theorem ZIs.old {c : Cfg K J} {h h' : Heap} {A : Region} {z : HZ K} {Z : ZSet K} (hz : ZIs c h A z Z) (he : Ext nowhere h h') :
    ZIs c h' (fun b => A b ∧ b < h.length) z Z :=
  hz.imp (fun _ _ h => ⟨h.1, h.2.1, h.2.2.ext he (fun _ _ _ h => h)⟩)

/-! ### Z-sets -/

theorem upd_is {c : Cfg K J} {h : Heap} {A : Region} {a : Nat} {k : K} (ha : DocIs c h A a k) (m : Int) {z : HZ K} {Z : ZSet K}
    (hz : ZIs c h A z Z) : ZIs c h A (z.upd k a m) (ZSet.upd Z k m) := by
  induction hz with
  | nil => exact .cons ⟨rfl, rfl, ha⟩ .nil
  | @cons e p t T he _ ih =>
    obtain ⟨k', a', m'⟩ := e
    obtain ⟨k'', m''⟩ := p
    obtain ⟨h1, h2, h3⟩ := he
    simp only at h1 h2 h3
    subst h1 h2
    rw [HZ.upd, ZSet.upd]
    split
    · split
      · assumption
      · exact .cons ⟨rfl, rfl, h3⟩ (by assumption)
    · exact .cons ⟨rfl, rfl, h3⟩ ih

theorem addDoc_does {c : Cfg K J} {h : Heap} {A : Region} {a : Nat} {k : K} (ha : DocIs c h A a k) (m : Int) {z : HZ K} {Z : ZSet K}
    (hz : ZIs c h A z Z) : Does nowhere h (addDoc c z a m) (.ok (Z.addDoc k m)) (fun h' z' Z' => ZIs c h' A z' Z') := by
  by_cases hm : m = 0
  · exact ⟨h, .ok z, ⟨0, fun n _ => by simp [addDoc, hm]⟩, Ext.refl _ _, by simpa [ZSet.addDoc, hm, SameOutcome] using hz⟩
  · obtain ⟨j, hr, hk, hA⟩ := id ha
    obtain ⟨N, hN⟩ := hr.gives
    refine ⟨h, .ok (z.upd k a m), ⟨N, fun n hn => ?_⟩, Ext.refl _ _, ?_⟩
    · simp only [addDoc, hm, if_false, hN n hn, hk]
    · simpa [ZSet.addDoc, hm, SameOutcome] using upd_is ha m hz

theorem emit_cons (Z : ZSet K) (k : K) (ks : List K) (m : Int) : Z.emit (k :: ks) m = (Z.addDoc k m).emit ks m := rfl

theorem addDocs_does {c : Cfg K J} {A : Region} (m : Int) {as : List Nat} {ks : List K} : ∀ {h : Heap} {z : HZ K} {Z : ZSet K},
    All2 (DocIs c h A) as ks → ZIs c h A z Z → Does nowhere h (addDocs c m z as) (.ok (Z.emit ks m)) (fun h' z' Z' => ZIs c h' A z' Z') := by
  induction as generalizing ks with
  | nil => intro h z Z hd hz; cases hd; exact Does.pure hz
  | cons a t ih =>
    intro h z Z hd hz
    cases hd with
    | @cons _ k _ ks ha ht =>
      exact ((addDoc_does ha m hz).then (g := fun Z' => .ok (Z'.emit ks m)) (fun h' z' Z' he hz' =>
        ih (ht.imp (fun _ _ h => h.grow he)) hz')).congr rfl rfl

theorem copyDoc_does {c : Cfg K J} {h : Heap} {A : Region} {a : Nat} {k : K} (ha : DocIs c h A a k) :
    Does nowhere h (copyDoc a) (.ok ()) (fun h' a' _ => DocIs c h' (fun b => h.length ≤ b) a' k) := by
  obtain ⟨j, hr, hk, hA⟩ := ha
  obtain ⟨h', v', ⟨N, hN⟩, he, hrd, hreach⟩ := copy_gives hr
  obtain ⟨a', rfl⟩ := copy_is_ref (hN N (Nat.le_refl _))
  exact ⟨h', .ok a', ⟨N, fun n hn => by simp [copyDoc, hN n hn]⟩, he, j, hrd, hk, hreach⟩

theorem copyZ_does {c : Cfg K J} {A : Region} {z : HZ K} {Z : ZSet K} : ∀ {h : Heap}, ZIs c h A z Z →
    Does nowhere h (copyZ z) (.ok Z) (fun h' z' Z' => ZIs c h' (fun b => h.length ≤ b) z' Z') := by
  induction z generalizing Z with
  | nil => intro h hz; cases hz; exact Does.pure .nil
  | cons e t ih =>
    obtain ⟨k, a, m⟩ := e
    intro h hz
    cases hz with
    | @cons _ p _ T he ht =>
      obtain ⟨k', m'⟩ := p
      obtain ⟨h1, h2, h3⟩ := he
      simp only at h1 h2 h3
      subst h1 h2
      refine ((copyDoc_does h3).then (g := fun _ => (Except.ok T).bind (fun T => .ok ((k, m) :: T))) (fun h' a' _ he ha' => ?_)).congr rfl rfl
      refine ((ih (ZIs.grow ht he)).then (g := fun T => .ok ((k, m) :: T)) (fun h'' t' T' he' ht' => Does.pure ?_))
      exact .cons ⟨rfl, rfl, ha'.grow he'⟩ (ht'.mono (fun b _ hb => Nat.le_trans he.1 hb))

theorem addAll_does {c : Cfg K J} {A : Region} (s : Int) {w : HZ K} {W : ZSet K} : ∀ {h : Heap} {z : HZ K} {Z : ZSet K},
    ZIs c h A w W → ZIs c h A z Z →
    Does nowhere h (addAll c s z w) (.ok (W.foldl (fun acc p => acc.addDoc p.1 (s * p.2)) Z)) (fun h' z' Z' => ZIs c h' A z' Z') := by
  induction w generalizing W with
  | nil => intro h z Z hw hz; cases hw; exact Does.pure hz
  | cons e t ih =>
    obtain ⟨k, a, m⟩ := e
    intro h z Z hw hz
    cases hw with
    | @cons _ p _ T he ht =>
      obtain ⟨k', m'⟩ := p
      obtain ⟨h1, h2, h3⟩ := he
      simp only at h1 h2 h3
      subst h1 h2
      exact ((addDoc_does h3 (s * m) hz).then (g := fun Z' => .ok (T.foldl (fun acc p => acc.addDoc p.1 (s * p.2)) Z')) (fun h' z' Z' he hz' =>
        ih (ZIs.grow ht he) hz')).congr rfl rfl

theorem addZ_does {c : Cfg K J} {A B : Region} {z w : HZ K} {Z W : ZSet K} {h : Heap} (hz : ZIs c h A z Z) (hw : ZIs c h B w W) :
    Does nowhere h (addZ c z w) (.ok (Z.add W)) (fun h' z' Z' => ZIs c h' (orNew B h) z' Z') := by
  refine ((copyZ_does hz).then (g := fun Z => .ok (Z.add W)) (fun h' z' Z' he hz' => ?_)).congr rfl rfl
  refine (addAll_does 1 (ZIs.mono (ZIs.grow hw he) (fun b _ hb => Or.inl hb)) (ZIs.mono hz' (fun b _ hb => Or.inr hb))).congr rfl ?_
  simp [ZSet.add]

theorem subZ_does {c : Cfg K J} {A B : Region} {z w : HZ K} {Z W : ZSet K} {h : Heap} (hz : ZIs c h A z Z) (hw : ZIs c h B w W) :
    Does nowhere h (subZ c z w) (.ok (Z.sub W)) (fun h' z' Z' => ZIs c h' (orNew B h) z' Z') := by
  refine ((copyZ_does hz).then (g := fun Z => .ok (Z.sub W)) (fun h' z' Z' he hz' => ?_)).congr rfl rfl
  refine (addAll_does (-1) (ZIs.mono (ZIs.grow hw he) (fun b _ hb => Or.inl hb)) (ZIs.mono hz' (fun b _ hb => Or.inr hb))).congr rfl ?_
  simp [ZSet.sub]

theorem distinctZ_does {c : Cfg K J} {A : Region} {w : HZ K} {W : ZSet K} : ∀ {h : Heap} {z : HZ K} {Z : ZSet K},
    ZIs c h A w W → ZIs c h A z Z →
    Does nowhere h (distinctZ c z w) (.ok (W.foldl (fun acc p => if p.2 > 0 then acc.addDoc p.1 1 else acc) Z)) (fun h' z' Z' => ZIs c h' A z' Z') := by
  induction w generalizing W with
  | nil => intro h z Z hw hz; cases hw; exact Does.pure hz
  | cons e t ih =>
    obtain ⟨k, a, m⟩ := e
    intro h z Z hw hz
    cases hw with
    | @cons _ p _ T he ht =>
      obtain ⟨k', m'⟩ := p
      obtain ⟨h1, h2, h3⟩ := he
      simp only at h1 h2 h3
      subst h1 h2
      rw [distinctZ, List.foldl_cons]
      by_cases hm : m > 0
      · simp only [hm, if_true]
        exact ((addDoc_does h3 1 hz).then (g := fun Z' => .ok (T.foldl (fun acc p => if p.2 > 0 then acc.addDoc p.1 1 else acc) Z'))
          (fun h' z' Z' he hz' => ih (ZIs.grow ht he) hz')).congr rfl rfl
      · simp only [hm, if_false]
        exact ih ht hz

/-! ### evaluators -/

/-- Copying first makes an evaluator that writes to its document one that writes nowhere, with new results. -/
theorem copy_then {c : Cfg K J} {e : HEv} {f : Ev K} (he : EvWrites c e f) {h : Heap} {A : Region} {a : Nat} {k : K} (ha : DocIs c h A a k) :
    Does nowhere h ((copyDoc a).bind e) (f k) (fun h' as ks => All2 (DocIs c h' (fun b => h.length ≤ b)) as ks) := by
  refine ((copyDoc_does ha).bind (g := fun _ => f k) (fun h' a' _ hext ha' => ?_)).congr rfl rfl
  refine (he h' _ a' k ha').weaken (fun b _ hb => Or.inr hb) (fun h'' as ks _ hq => hq.imp (fun _ _ hd => hd.mono (fun b _ hb => ?_)))
  rcases hb with hb | hb
  · exact hb
  · exact Nat.le_trans hext.1 hb

theorem EvWrites.copied {c : Cfg K J} {e : HEv} {f : Ev K} (he : EvWrites c e f) : EvReads c (fun a => (copyDoc a).bind e) f :=
  fun _ _ _ _ ha => (copy_then he ha).weaken (fun _ _ h => h) (fun _ _ _ _ hq => hq.imp (fun _ _ hd => hd.mono (fun _ _ hb => Or.inr hb)))

theorem projectGo_eq (c : Cfg K J) (e : HEv) : ∀ (z acc : HZ K), projectGo c e acc z = selectGo c (fun a => (copyDoc a).bind e) acc z
  | [], _ => rfl
  | (k, a, m) :: t, acc => by
    rw [projectGo, selectGo, M.bind_assoc]
    simp only [projectGo_eq c e t]

theorem linGo_cons (f : Ev K) (acc : ZSet K) (x : K) (m : Int) (t : ZSet K) :
    linGo f acc ((x, m) :: t) = (f x).bind (fun ds => (Except.ok (acc.emit ds m)).bind (fun acc' => linGo f acc' t)) := by
  rw [linGo]; cases f x <;> rfl

theorem selectGo_does {c : Cfg K J} {e : HEv} {f : Ev K} (hev : EvReads c e f) {A R : Region} (hAR : ∀ b, A b → R b) {z : HZ K} {Z : ZSet K} :
    ∀ {h : Heap} {acc : HZ K} {Acc : ZSet K}, (∀ b, h.length ≤ b → R b) → ZIs c h A z Z → ZIs c h R acc Acc →
    Does nowhere h (selectGo c e acc z) (linGo f Acc Z) (fun h' r R' => ZIs c h' R r R') := by
  induction z generalizing Z with
  | nil => intro h acc Acc hR hz hacc; cases hz; exact Does.pure hacc
  | cons e' t ih =>
    obtain ⟨k, a, m⟩ := e'
    intro h acc Acc hR hz hacc
    cases hz with
    | @cons _ p _ T he ht =>
      obtain ⟨k', m'⟩ := p
      obtain ⟨h1, h2, h3⟩ := he
      simp only at h1 h2 h3
      subst h1 h2
      rw [linGo_cons]
      refine (hev h A a k h3).then (fun h1 as ks he1 hq => ?_)
      have hq' : All2 (DocIs c h1 R) as ks := hq.imp (fun _ _ hd => hd.mono (fun b _ hb => hb.elim (hAR b) (hR b)))
      refine (addDocs_does m hq' (ZIs.grow hacc he1)).then (fun h2 acc' Acc' he2 hacc' => ?_)
      exact ih (fun b hb => hR b (Nat.le_trans he1.1 (Nat.le_trans he2.1 hb))) (ZIs.grow (ZIs.grow ht he1) he2) hacc'

theorem bindDocs_emit_cons (f : Ev K) (Acc : ZSet K) (m : Int) (k : K) (ks : List K) :
    (bindDocs f (k :: ks)).map (fun ds => Acc.emit ds m) =
    (f k).bind (fun ys => (Except.ok (Acc.emit ys m)).bind (fun Acc' => (bindDocs f ks).map (fun ds => Acc'.emit ds m))) := by
  rw [bindDocs]
  cases f k with
  | error e => rfl
  | ok ys =>
    cases hb : bindDocs f ks with
    | error e => rfl
    | ok zs => simp [Except.map, Except.bind, ZSet.emit, List.foldl_append]

theorem selectDocs_does {c : Cfg K J} {e : HEv} {f : Ev K} (hev : EvReads c e f) (m : Int) {A R : Region} (hAR : ∀ b, A b → R b) {as : List Nat} {ks : List K} :
    ∀ {h : Heap} {acc : HZ K} {Acc : ZSet K}, (∀ b, h.length ≤ b → R b) → All2 (DocIs c h A) as ks → ZIs c h R acc Acc →
    Does nowhere h (selectDocs c e m acc as) ((bindDocs f ks).map (fun ds => Acc.emit ds m)) (fun h' r R' => ZIs c h' R r R') := by
  induction as generalizing ks with
  | nil => intro h acc Acc hR hz hacc; cases hz; exact Does.pure hacc
  | cons a t ih =>
    intro h acc Acc hR hz hacc
    cases hz with
    | @cons _ k _ ks ha ht =>
      rw [bindDocs_emit_cons]
      refine (hev h A a k ha).then (fun h1 bs ys he1 hq => ?_)
      have hq' : All2 (DocIs c h1 R) bs ys := hq.imp (fun _ _ hd => hd.mono (fun b _ hb => hb.elim (hAR b) (hR b)))
      refine (addDocs_does m hq' (ZIs.grow hacc he1)).then (fun h2 acc' Acc' he2 hacc' => ?_)
      exact ih (fun b hb => hR b (Nat.le_trans he1.1 (Nat.le_trans he2.1 hb))) (ht.imp (fun _ _ h => (h.grow he1).grow he2)) hacc'

theorem linGo_projSel_cons (p s : Ev K) (acc : ZSet K) (x : K) (m : Int) (t : ZSet K) :
    linGo (projSelEv p s) acc ((x, m) :: t) =
    (p x).bind (fun ks => ((bindDocs s ks).map (fun ds => acc.emit ds m)).bind (fun acc' => linGo (projSelEv p s) acc' t)) := by
  rw [linGo, projSelEv]
  cases p x with
  | error e => rfl
  | ok ks =>
    simp only [Except.bind]
    cases bindDocs s ks <;> rfl

theorem projSelGo_does {c : Cfg K J} {p s : HEv} {p' s' : Ev K} (hp : EvReads c p p') (hs : EvReads c s s') {A R : Region}
    (hAR : ∀ b, A b → R b) {z : HZ K} {Z : ZSet K} : ∀ {h : Heap} {acc : HZ K} {Acc : ZSet K}, (∀ b, h.length ≤ b → R b) → ZIs c h A z Z → ZIs c h R acc Acc →
    Does nowhere h (projSelGo c p s acc z) (linGo (projSelEv p' s') Acc Z) (fun h' r R' => ZIs c h' R r R') := by
  induction z generalizing Z with
  | nil => intro h acc Acc hR hz hacc; cases hz; exact Does.pure hacc
  | cons e' t ih =>
    obtain ⟨k, a, m⟩ := e'
    intro h acc Acc hR hz hacc
    cases hz with
    | @cons _ q _ T he ht =>
      obtain ⟨k', m'⟩ := q
      obtain ⟨h1, h2, h3⟩ := he
      simp only at h1 h2 h3
      subst h1 h2
      rw [linGo_projSel_cons]
      refine (hp h A a k h3).then (fun h1 as ks he1 hq => ?_)
      have hq' : All2 (DocIs c h1 R) as ks := hq.imp (fun _ _ hd => hd.mono (fun b _ hb => hb.elim (hAR b) (hR b)))
      refine (selectDocs_does hs m (fun _ h => h) (fun b hb => hR b (Nat.le_trans he1.1 hb)) hq' (ZIs.grow hacc he1)).then (fun h2 acc' Acc' he2 hacc' => ?_)
      exact ih (fun b hb => hR b (Nat.le_trans he1.1 (Nat.le_trans he2.1 hb))) (ZIs.grow (ZIs.grow ht he1) he2) hacc'

theorem selProjsGo_eq (c : Cfg K J) (s : Option HEv) (ps : List HEv) : ∀ (z acc : HZ K),
    selProjsGo c s ps acc z = projSelGo c (selOpt s) (fun b => (projChainH ps b).bind (fun r => .pure [r])) acc z
  | [], _ => rfl
  | (k, a, m) :: t, acc => by
    rw [selProjsGo, projSelGo]
    simp only [selProjsGo_eq c s ps t]

theorem projChainH_does {c : Cfg K J} {ps : List HEv} {ps' : List (Ev K)} (hps : All2 (EvReads c) ps ps') : ∀ {h : Heap} {A : Region} {a : Nat} {k : K}, DocIs c h A a k →
    Does nowhere h (projChainH ps a) (projChain ps' k) (fun h' r q => DocIs c h' (orNew A h) r q) := by
  induction hps with
  | nil => intro h A a k ha; exact Does.pure (ha.mono (fun _ _ h => Or.inl h))
  | @cons p p' ps ps' hp _ ih =>
    intro h A a k ha
    have hx : projChain (p' :: ps') k = (p' k).bind (fun ys => match ys with
        | [y] => projChain ps' y
        | _ => .error "projection evaluator did not produce exactly 1 document") := by
      rw [projChain]
      cases p' k with
      | error e => rfl
      | ok ys =>
        match ys with
        | [] => rfl
        | [y] => rfl
        | _ :: _ :: _ => rfl
    rw [hx, projChainH]
    refine (hp h A a k ha).then (fun h1 as ks he1 hq => ?_)
    match as, ks, hq with
    | [], [], _ => exact Does.fail
    | [b], [y], .cons hb .nil =>
      refine (ih hb).weaken (fun _ _ h => h) (fun h2 r q he2 hq => hq.mono (fun b _ hb => ?_))
      rcases hb with (hb | hb) | hb
      · exact .inl hb
      · exact .inr hb
      · exact .inr (Nat.le_trans he1.1 hb)
    | _ :: _ :: _, _ :: _ :: _, _ => exact Does.fail

theorem projChain_ev {c : Cfg K J} {ps : List HEv} {ps' : List (Ev K)} (hps : All2 (EvReads c) ps ps') :
    EvReads c (fun b => (projChainH ps b).bind (fun r => .pure [r])) (fun d => match projChain ps' d with
      | .error e => .error e
      | .ok y => .ok [y]) := by
  intro h A a k ha
  have hx : (match projChain ps' k with
      | .error e => .error e
      | .ok y => .ok [y]) = (projChain ps' k).bind (fun y => .ok [y]) := by cases projChain ps' k <;> rfl
  simp only [hx]
  exact (projChainH_does hps ha).then (fun h1 r q he hq => Does.pure (.cons hq .nil))

/-- The selection of `selProjsEv`. -/
def optEv (s : Option (Ev K)) : Ev K := fun x => match s with
  | some s => s x
  | none => .ok [x]

theorem selOpt_ev {c : Cfg K J} {s : Option HEv} {s' : Option (Ev K)} (hs : OptIs (EvReads c) s s') : EvReads c (selOpt s) (optEv s') := by
  match s, s', hs with
  | some s, some s', hs => exact hs
  | none, none, _ => exact fun h A a k ha => Does.pure (.cons (ha.mono (fun _ _ h => Or.inl h)) .nil)

theorem selProjsEv_eq (s : Option (Ev K)) (ps : List (Ev K)) : selProjsEv s ps = projSelEv (optEv s) (fun d => match projChain ps d with
      | .error e => .error e
      | .ok y => .ok [y]) := by
  funext x
  cases s <;> rfl

end Mem
end Dctl
