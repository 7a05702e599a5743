import Verif.Dbsp.HeapRunLemmas
/-!
# Lemmas for C110: joins, chains and graphs in memory
-/
set_option autoImplicit false
set_option linter.unusedSectionVars false
namespace Dctl
namespace Mem
variable {K J : Type} [DecidableEq K] [DecidableEq J]

/-! ### joins -/

theorem addCopies_does {c : Cfg K J} {A R : Region} (m : Int) {as : List Nat} {ks : List K} : ∀ {h : Heap} {z : HZ K} {Z : ZSet K}, (∀ b, h.length ≤ b → R b) →
    All2 (DocIs c h A) as ks → ZIs c h R z Z → Does nowhere h (addCopies c m z as) (.ok (Z.emit ks m)) (fun h' z' Z' => ZIs c h' R z' Z') := by
  induction as generalizing ks with
  | nil => intro h z Z _ hd hz; cases hd; exact Does.pure hz
  | cons a t ih =>
    intro h z Z hR hd hz
    cases hd with
    | @cons _ k _ ks ha ht =>
      refine ((copyDoc_does ha).then (g := fun _ => (Except.ok (Z.addDoc k m)).bind (fun Z' => .ok (Z'.emit ks m))) (fun h' a' _ he ha' => ?_)).congr rfl rfl
      refine (addDoc_does (ha'.mono (fun b _ => hR b)) m (ZIs.grow hz he)).then (fun h'' z' Z' he' hz' => ?_)
      exact ih (fun b hb => hR b (Nat.le_trans he.1 (Nat.le_trans he'.1 hb))) (ht.imp (fun _ _ h => (h.grow he).grow he')) hz'

theorem newMap_does (m : List (String × Val)) (h : Heap) :
    Does nowhere h (newMap m) (.ok ()) (fun h' a _ => h' = h ++ [.map m] ∧ a = h.length) :=
  ⟨h ++ [.map m], .ok h.length, ⟨0, fun _ _ => rfl⟩, Ext.append _ _ _, rfl, rfl⟩

theorem sumTerms_cons (f : K → Int → Except Err (ZSet K)) (acc : ZSet K) (x : K) (m : Int) (t : ZSet K) :
    sumTerms f acc ((x, m) :: t) = (f x m).bind (fun r => (Except.ok (acc.add r)).bind (fun acc' => sumTerms f acc' t)) := by
  rw [sumTerms]; cases f x m <;> rfl

theorem sumTermsH_does {c : Cfg K J} {A R : Region} {fH : Nat → Int → M (HZ K)} {f : K → Int → Except Err (ZSet K)} {z : HZ K} {Z : ZSet K} :
    ∀ {h : Heap} {acc : HZ K} {Acc : ZSet K},
    (∀ h' a k m, Ext nowhere h h' → DocIs c h' A a k → Does nowhere h' (fH a m) (f k m) (fun h'' r R' => ZIs c h'' (fun b => h'.length ≤ b) r R')) →
    (∀ b, h.length ≤ b → R b) → ZIs c h A z Z → ZIs c h R acc Acc →
    Does nowhere h (sumTermsH c fH acc z) (sumTerms f Acc Z) (fun h' r R' => ZIs c h' R r R') := by
  induction z generalizing Z with
  | nil => intro h acc Acc hf hR hz hacc; cases hz; exact Does.pure hacc
  | cons e' t ih =>
    obtain ⟨k, a, m⟩ := e'
    intro h acc Acc hf hR hz hacc
    cases hz with
    | @cons _ p _ T he ht =>
      obtain ⟨k', m'⟩ := p
      obtain ⟨h1, h2, h3⟩ := he
      simp only at h1 h2 h3
      subst h1 h2
      rw [sumTerms_cons]
      refine (hf h a k m (Ext.refl _ _) h3).then (fun h1 r R' he1 hq => ?_)
      refine (addZ_does (ZIs.grow hacc he1) hq).then (fun h2 acc' Acc' he2 hacc' => ?_)
      have he12 : Ext nowhere h h2 := he1.trans he2 (fun _ _ h => h)
      refine ih (fun h' a k m he => hf h' a k m (he12.trans he (fun _ _ h => h))) (fun b hb => hR b (Nat.le_trans he12.1 hb)) (ZIs.grow ht he12)
        (ZIs.mono hacc' (fun b _ hb => hR b ?_))
      rcases hb with hb | hb
      · exact hb
      · exact Nat.le_trans he1.1 hb

theorem cartH_does {c : Cfg K J} {e : HEv} {names : List String} {f : JEv K} (hev : JoinReads c e names f) {A : Region} {zs : List (HZ K)} {Zs : List (ZSet K)} :
    ∀ {h : Heap} {docs : List Nat} {ks : List K} (m : Int), zs.length + docs.length = names.length → All2 (ZIs c h A) zs Zs → All2 (DocIs c h A) docs ks →
    Does nowhere h (cartH c e names zs docs m) (cartesianJoin f Zs ks m) (fun h' r R => ZIs c h' (fun b => h.length ≤ b) r R) := by
  induction zs generalizing Zs with
  | nil =>
    intro h docs ks m hl hz hd
    cases hz
    have hx : cartesianJoin f [] ks m = (f ks.reverse).bind (fun ds => .ok (ZSet.emit [] ds m)) := by
      rw [cartesianJoin]; cases f ks.reverse <;> rfl
    rw [hx]
    refine ((newMap_does _ h).then (g := fun _ => (f ks.reverse).bind (fun ds => .ok (ZSet.emit [] ds m))) (fun h' a _ he hq => ?_)).congr rfl rfl
    obtain ⟨rfl, rfl⟩ := hq
    refine (hev _ A h.length docs.reverse ks.reverse (by simp) (by simpa using hl) (hd.reverse.imp (fun _ _ hd => hd.grow he))).then (fun h2 rs qs he2 hq => ?_)
    exact addCopies_does m (fun b hb => Nat.le_trans (he.trans he2 (fun _ _ h => h)).1 hb) hq .nil
  | cons z zs ih =>
    intro h docs ks m hl hz hd
    cases hz with
    | @cons _ Z _ Zs hz hzs =>
      rw [cartH, cartesianJoin]
      refine sumTermsH_does (fun h' a k i he ha => ?_) (fun b hb => hb) hz .nil
      exact ih (m * i) (by simp only [List.length_cons] at hl ⊢; omega) (hzs.imp (fun _ _ h => ZIs.grow h he))
        (.cons ha (hd.imp (fun _ _ h => h.grow he)))

theorem termInputsH_is {c : Cfg K J} {h : Heap} {A : Region} {ds : List (HZ K)} {Ds : List (ZSet K)} (hd : All2 (ZIs c h A) ds Ds) :
    ∀ {ps : List (HZ K)} {Ps : List (ZSet K)} (mask : Nat), All2 (ZIs c h A) ps Ps → All2 (ZIs c h A) (termInputsH ds ps mask) (termInputs Ds Ps mask) := by
  induction hd with
  | nil => intro ps Ps mask hp; exact .nil
  | cons hz _ ih =>
    intro ps Ps mask hp
    cases hp with
    | nil => exact .nil
    | cons hp hps =>
      rw [termInputsH, termInputs]
      refine .cons ?_ (ih _ hps)
      split
      · exact hz
      · exact hp

theorem termInputsH_length {K : Type} : ∀ (ds ps : List (HZ K)) (mask : Nat), ds.length = ps.length → (termInputsH ds ps mask).length = ds.length
  | [], _, _, _ => rfl
  | d :: ds, [], _, h => by simp at h
  | d :: ds, p :: ps, mask, h => by simp only [termInputsH, List.length_cons] at h ⊢; rw [termInputsH_length ds ps _ (by omega)]

theorem sumMasks_cons (f : JEv K) (Ds Ps : List (ZSet K)) (acc : ZSet K) (k : Nat) (ks : List Nat) :
    sumMasks f Ds Ps acc (k :: ks) = (cartesianJoin f (termInputs Ds Ps k) [] 1).bind (fun t => (Except.ok (acc.add t)).bind (fun acc' => sumMasks f Ds Ps acc' ks)) := by
  rw [sumMasks]; cases cartesianJoin f (termInputs Ds Ps k) [] 1 <;> rfl

theorem sumMasksH_does {c : Cfg K J} {e : HEv} {names : List String} {f : JEv K} (hev : JoinReads c e names f) {A R : Region} {ds ps : List (HZ K)}
    {Ds Ps : List (ZSet K)} (hl : ds.length = names.length) (hl' : ps.length = names.length) {masks : List Nat} : ∀ {h : Heap} {acc : HZ K} {Acc : ZSet K},
    (∀ b, h.length ≤ b → R b) → All2 (ZIs c h A) ds Ds → All2 (ZIs c h A) ps Ps → ZIs c h R acc Acc →
    Does nowhere h (sumMasksH c e names ds ps acc masks) (sumMasks f Ds Ps Acc masks) (fun h' r R' => ZIs c h' R r R') := by
  induction masks with
  | nil => intro h acc Acc hR hd hp hacc; exact Does.pure hacc
  | cons k ks ih =>
    intro h acc Acc hR hd hp hacc
    rw [sumMasks_cons, sumMasksH]
    refine (cartH_does hev 1 (by rw [termInputsH_length _ _ _ (by omega)]; exact hl) (termInputsH_is hd k hp) .nil).then (fun h1 t T he1 hq => ?_)
    refine (addZ_does (ZIs.grow hacc he1) hq).then (fun h2 acc' Acc' he2 hacc' => ?_)
    have he12 : Ext nowhere h h2 := he1.trans he2 (fun _ _ h => h)
    refine ih (fun b hb => hR b (Nat.le_trans he12.1 hb)) (hd.imp (fun _ _ h => ZIs.grow h he12)) (hp.imp (fun _ _ h => ZIs.grow h he12))
        (ZIs.mono hacc' (fun b _ hb => hR b ?_))
    rcases hb with hb | hb
    · exact hb
    · exact Nat.le_trans he1.1 hb

theorem addStates_does {c : Cfg K J} {A B R : Region} (hBR : ∀ b, B b → R b) {ps : List (HZ K)} {Ps : List (ZSet K)} : ∀ {h : Heap} {ds : List (HZ K)} {Ds : List (ZSet K)},
    (∀ b, h.length ≤ b → R b) → All2 (ZIs c h A) ps Ps → All2 (ZIs c h B) ds Ds →
    Does nowhere h (addStates c ps ds) (.ok (List.zipWith ZSet.add Ps Ds)) (fun h' r R' => All2 (ZIs c h' R) r R') := by
  induction ps generalizing Ps with
  | nil => intro h ds Ds hR hp hd; cases hp; rw [List.zipWith_nil_left]; cases hd <;> exact Does.pure .nil
  | cons p ps ih =>
    intro h ds Ds hR hp hd
    cases hp with
    | @cons _ P _ Ps hp hps =>
      cases hd with
      | nil => exact Does.pure .nil
      | @cons d D ds Ds hd hds =>
        refine ((addZ_does hp hd).then (g := fun Q => (Except.ok (List.zipWith ZSet.add Ps Ds)).bind (fun Qs => .ok (Q :: Qs))) (fun h1 p' P' he1 hq => ?_)).congr rfl rfl
        refine (ih (fun b hb => hR b (Nat.le_trans he1.1 hb)) (hps.imp (fun _ _ h => ZIs.grow h he1)) (hds.imp (fun _ _ h => ZIs.grow h he1))).then
          (fun h2 ps' Ps' he2 hq' => Does.pure ?_)
        exact .cons (ZIs.grow (ZIs.mono hq (fun b _ hb => hb.elim (hBR b) (hR b))) he2) hq'

/-! ### what is held -/

theorem ZIs.held {c : Cfg K J} {h : Heap} {A : Region} {z : HZ K} {Z : ZSet K} (hz : ZIs c h A z Z) {zs : List (HZ K)} (hm : z ∈ zs) : ZIs c h (Held h zs) z Z := by
  refine All2.imp_mem hz (fun e p he hd => ⟨hd.1, hd.2.1, ?_⟩)
  obtain ⟨j, h1, h2, h3⟩ := hd.2.2
  exact ⟨j, h1, h2, fun b hb => ⟨z, hm, e, he, hb⟩⟩

theorem ZIs.held_sub {c : Cfg K J} {h : Heap} {A : Region} {z : HZ K} {Z : ZSet K} (hz : ZIs c h A z Z) {e : K × Nat × Int} (he : e ∈ z) {b : Nat}
    (hb : Reach h (.ref e.2.1) b) : A b ∧ b < h.length := by
  obtain ⟨p, _, _, hp⟩ := All2.mem_left hz he
  obtain ⟨j, h1, h2, h3⟩ := hp
  exact ⟨h3 b hb, hb.lt h1.choose_spec⟩

/-- All the Z-sets can be read. -/
def Fine (c : Cfg K J) (h : Heap) (zs : List (HZ K)) : Prop := ∀ z ∈ zs, ∃ A Z, ZIs c h A z Z

theorem Fine.lt {c : Cfg K J} {h : Heap} {zs : List (HZ K)} (hf : Fine c h zs) {b : Nat} (hb : Held h zs b) : b < h.length := by
  obtain ⟨z, hz, e, he, hb⟩ := hb
  obtain ⟨A, Z, hZ⟩ := hf z hz
  exact (hZ.held_sub he hb).2

theorem held_agree {h h' : Heap} {zs : List (HZ K)} (hag : ∀ b, Held h zs b → h'[b]? = h[b]?) {b : Nat} :
    Held h' zs b ↔ Held h zs b := by
  constructor
  · rintro ⟨z, hz, e, he, hb⟩
    exact ⟨z, hz, e, he, reach_frame hb (fun b hb => hag b ⟨z, hz, e, he, hb⟩)⟩
  · rintro ⟨z, hz, e, he, hb⟩
    refine ⟨z, hz, e, he, reach_frame hb (fun b hb => ?_)⟩
    have := reach_frame hb (fun b hb => hag b ⟨z, hz, e, he, hb⟩)
    exact (hag b ⟨z, hz, e, he, this⟩).symm

theorem Fine.held_ext {c : Cfg K J} {h h' : Heap} {zs : List (HZ K)} (hf : Fine c h zs) (he : Ext nowhere h h') {b : Nat} : Held h' zs b ↔ Held h zs b :=
  held_agree (fun _ hb => he.get (hf.lt hb))

theorem ZIs.agree {c : Cfg K J} {h h' : Heap} {A : Region} {z : HZ K} {Z : ZSet K} (hz : ZIs c h A z Z) (hag : ∀ b, A b → h'[b]? = h[b]?) : ZIs c h' A z Z := by
  refine All2.imp hz (fun e p hd => ⟨hd.1, hd.2.1, ?_⟩)
  obtain ⟨j, h1, h2, h3⟩ := hd.2.2
  exact ⟨j, h1.frame (fun b hb => hag b (h3 b hb)), h2, fun b hb => h3 b (reach_frame hb (fun b hb => hag b (h3 b hb)))⟩

theorem OpIs.held {c : Cfg K J} {h : Heap} {S : Region} {o : HOp K} {O : Op K J} (ho : OpIs c h S o O) :
    OpIs c h (Held h o.kept) o O ∧ Fine c h o.kept ∧ ∀ b, Held h o.kept b → S b ∧ b < h.length := by
  have hnil : ∀ {S : Region} b, Held h ([] : List (HZ K)) b → S b ∧ b < h.length := by rintro S b ⟨z, hz, _⟩; cases hz
  have hnil' : Fine c h ([] : List (HZ K)) := by intro z hz; cases hz
  have hone : ∀ {z : HZ K} {Z : ZSet K}, ZIs c h S z Z → Fine c h [z] ∧ ∀ b, Held h [z] b → S b ∧ b < h.length := by
    intro z Z hz
    refine ⟨?_, ?_⟩
    · intro z' hz'; rw [List.mem_singleton] at hz'; subst hz'; exact ⟨S, Z, hz⟩
    · rintro b ⟨z', hz', e, he, hb⟩
      rw [List.mem_singleton] at hz'; subst hz'
      exact hz.held_sub he hb
  cases ho with
  | project h1 => exact ⟨.project h1, hnil', hnil⟩
  | select h1 => exact ⟨.select h1, hnil', hnil⟩
  | unwind h1 h2 => exact ⟨.unwind h1 h2, hnil', hnil⟩
  | gather h1 h2 h3 h4 => exact ⟨.gather h1 h2 h3 h4, hnil', hnil⟩
  | distinct => exact ⟨.distinct, hnil', hnil⟩
  | integ h1 => exact ⟨.integ (h1.held (List.mem_singleton.mpr rfl)), hone h1⟩
  | diff h1 => exact ⟨.diff (h1.held (List.mem_singleton.mpr rfl)), hone h1⟩
  | delay h1 => exact ⟨.delay (h1.held (List.mem_singleton.mpr rfl)), hone h1⟩
  | negate => exact ⟨.negate, hnil', hnil⟩
  | projSel h1 h2 => exact ⟨.projSel h1 h2, hnil', hnil⟩
  | selProjs h1 h2 => exact ⟨.selProjs h1 h2, hnil', hnil⟩

theorem OpIs.agree {c : Cfg K J} {h h' : Heap} {S : Region} {o : HOp K} {O : Op K J} (ho : OpIs c h S o O) (hag : ∀ b, S b → h'[b]? = h[b]?) : OpIs c h' S o O := by
  cases ho with
  | project h1 => exact .project h1
  | select h1 => exact .select h1
  | unwind h1 h2 => exact .unwind h1 h2
  | gather h1 h2 h3 h4 => exact .gather h1 h2 h3 h4
  | distinct => exact .distinct
  | integ h1 => exact .integ (h1.agree hag)
  | diff h1 => exact .diff (h1.agree hag)
  | delay h1 => exact .delay (h1.agree hag)
  | negate => exact .negate
  | projSel h1 h2 => exact .projSel h1 h2
  | selProjs h1 h2 => exact .selProjs h1 h2

theorem JoinIs.held {c : Cfg K J} {h : Heap} {S : Region} {o : HJoin K} {O : JoinOp K} (ho : JoinIs c h S o O) :
    JoinIs c h (Held h o.kept) o O ∧ Fine c h o.kept ∧ ∀ b, Held h o.kept b → S b ∧ b < h.length := by
  cases ho with
  | snap h1 => exact ⟨.snap h1, (by intro z hz; cases hz), (by rintro b ⟨z, hz, _⟩; cases hz)⟩
  | incr h1 h2 h3 =>
    refine ⟨.incr h1 (All2.imp_mem h2 (fun z Z hm hz => hz.held hm)) h3, ?_, ?_⟩
    · intro z hz; obtain ⟨Z, hZ⟩ := h2.mem_left hz; exact ⟨S, Z, hZ⟩
    · rintro b ⟨z, hz, e, he, hb⟩; obtain ⟨Z, hZ⟩ := h2.mem_left hz; exact hZ.held_sub he hb

theorem JoinIs.agree {c : Cfg K J} {h h' : Heap} {S : Region} {o : HJoin K} {O : JoinOp K} (ho : JoinIs c h S o O) (hag : ∀ b, S b → h'[b]? = h[b]?) : JoinIs c h' S o O := by
  cases ho with
  | snap h1 => exact .snap h1
  | incr h1 h2 h3 => exact .incr h1 (h2.imp (fun _ _ h => h.agree hag)) h3

/-! ### one operator -/

/-- What a step leaves behind: what it keeps and what it returns come from `S`, from `A` or are new, and share nothing. -/
def Leaves (h h' : Heap) (S A : Region) (kept : List (HZ K)) (r : HZ K) : Prop :=
  (∀ b, Held h' kept b → S b ∨ A b ∨ h.length ≤ b) ∧ (∀ b, Held h' [r] b → S b ∨ A b ∨ h.length ≤ b) ∧ Apart (Held h' kept) (Held h' [r])

theorem leaves_stateless {c : Cfg K J} {h h' : Heap} {S A R : Region} {r : HZ K} {r' : ZSet K} (hr : ZIs c h' R r r') (hR : ∀ b, R b → S b ∨ A b ∨ h.length ≤ b) :
    Leaves h h' S A [] r := by
  refine ⟨?_, ?_, ?_⟩
  · rintro b ⟨z, hz, _⟩; cases hz
  · rintro b ⟨z, hz, e, he, hb⟩
    rw [List.mem_singleton] at hz; subst hz
    exact hR b (hr.held_sub he hb).1
  · rintro b ⟨z, hz, _⟩; cases hz

theorem leaves_state {c : Cfg K J} {h h' : Heap} {S A P R : Region} {p r : HZ K} {p' r' : ZSet K} (hp : ZIs c h' P p p') (hr : ZIs c h' R r r')
    (hP : ∀ b, P b → S b ∨ A b ∨ h.length ≤ b) (hR : ∀ b, R b → S b ∨ A b ∨ h.length ≤ b) (hd : ∀ b, P b → ¬ R b) : Leaves h h' S A [p] r := by
  have h1 : ∀ b, Held h' [p] b → P b := by
    rintro b ⟨z, hz, e, he, hb⟩
    rw [List.mem_singleton] at hz; subst hz
    exact (hp.held_sub he hb).1
  have h2 : ∀ b, Held h' [r] b → R b := by
    rintro b ⟨z, hz, e, he, hb⟩
    rw [List.mem_singleton] at hz; subst hz
    exact (hr.held_sub he hb).1
  exact ⟨fun b hb => hP b (h1 b hb), fun b hb => hR b (h2 b hb), fun b hb hb' => hd b (h1 b hb) (h2 b hb')⟩

/-- The outcome of a step of an operator, as one value. -/
def outcome {O R : Type} : O × Except Err R → Except Err (O × R)
  | (o, .ok r) => .ok (o, r)
  | (_, .error e) => .error e

theorem outcome_bind {O R : Type} (o : O) (x : Except Err R) : outcome (o, x) = x.bind (fun r => .ok (o, r)) := by cases x <;> rfl

theorem HOp.proc_does {c : Cfg K J} {h : Heap} {S A : Region} {o : HOp K} {O : Op K J} (ho : OpIs c h S o O) {z : HZ K} {Z : ZSet K} (hz : ZIs c h A z Z) :
    Does nowhere h (o.proc c z) (outcome (O.proc Z)) (fun h' p P => (∃ S', OpIs c h' S' p.1 P.1) ∧ (∃ R', ZIs c h' R' p.2 P.2) ∧ Leaves h h' S A p.1.kept p.2) := by
  have hnew : ∀ {A : Region} b, h.length ≤ b → orNew A h b := fun b hb => Or.inr hb
  have hold : ∀ {A : Region} b, A b → orNew A h b := fun b hb => Or.inl hb
  have hR : ∀ b, orNew A h b → S b ∨ A b ∨ h.length ≤ b := fun b hb => .inr hb
  cases ho with
  | project hev =>
    rw [HOp.proc, projectGo_eq, Op.proc, outcome_bind]
    exact (selectGo_does hev.copied hold hnew hz .nil).then (fun h' r r' he hr => Does.pure ⟨⟨S, .project hev⟩, ⟨_, hr⟩, leaves_stateless hr hR⟩)
  | select hev =>
    rw [HOp.proc, Op.proc, outcome_bind]
    exact (selectGo_does hev hold hnew hz .nil).then (fun h' r r' he hr => Does.pure ⟨⟨S, .select hev⟩, ⟨_, hr⟩, leaves_stateless hr hR⟩)
  | unwind h1 h2 =>
    rw [HOp.proc, Op.proc, outcome_bind]
    exact (unwindGo_does h1 h2 hold hnew hz .nil).then (fun h' r r' he hr => Does.pure ⟨⟨S, .unwind h1 h2⟩, ⟨_, hr⟩, leaves_stateless hr hR⟩)
  | @gather g G h1 h2 h3 h4 =>
    have hx : gatherProc G Z = (gatherGroups G [] Z).bind (gatherAgg G []) := by rw [gatherProc]; cases gatherGroups G [] Z <;> rfl
    rw [HOp.proc, Op.proc, outcome_bind, hx]
    refine Does.then (Does.then (gatherGroupsH_does h1 h2 hold hnew hz .nil) (fun h' gs Gs he hg =>
      gatherAggH_does h3 h4 (fun b hb => hnew b (Nat.le_trans he.1 hb)) hg .nil)) (fun h' r r' he hr =>
        Does.pure ⟨⟨S, .gather h1 h2 h3 h4⟩, ⟨_, hr⟩, leaves_stateless hr hR⟩)
  | distinct =>
    rw [HOp.proc, Op.proc, outcome_bind]
    exact (distinctZ_does hz .nil).then (fun h' r r' he hr => Does.pure ⟨⟨S, .distinct⟩, ⟨_, hr⟩, leaves_stateless hr (fun b hb => .inr (.inl hb))⟩)
  | integ hs =>
    rw [HOp.proc, Op.proc]
    refine ((addZ_does hs hz).then (g := fun s => (Except.ok s).bind (fun r => .ok (.integ s, r))) (fun h1 s' S' he1 hs' => ?_)).congr rfl rfl
    refine (copyZ_does hs').then (fun h2 r r' he2 hr => Does.pure ?_)
    have hs2 := hs'.old he2
    exact ⟨⟨_, .integ hs2⟩, ⟨_, hr⟩, leaves_state hs2 hr (fun b hb => hR b hb.1) (fun b hb => .inr (.inr (Nat.le_trans he1.1 hb))) (fun b hb hb' => Nat.not_lt.mpr hb' hb.2)⟩
  | diff hp =>
    rw [HOp.proc, Op.proc]
    refine ((subZ_does hz hp).then (g := fun r => (Except.ok Z).bind (fun p => .ok (.diff p, r))) (fun h1 r r' he1 hr => ?_)).congr rfl rfl
    refine (copyZ_does (ZIs.grow hz he1)).then (fun h2 p' P' he2 hp' => Does.pure ?_)
    have hr2 := hr.old he2
    refine ⟨⟨_, .diff hp'⟩, ⟨_, hr2⟩, leaves_state hp' hr2 (fun b hb => .inr (.inr (Nat.le_trans he1.1 hb))) (fun b hb => ?_) (fun b hb hb' => Nat.not_lt.mpr hb hb'.2)⟩
    rcases hb.1 with hb | hb
    · exact .inl hb
    · exact .inr (.inr hb)
  | delay hb =>
    rw [HOp.proc, Op.proc]
    refine ((copyZ_does hb).then (g := fun r => (Except.ok Z).bind (fun p => .ok (.delay p, r))) (fun h1 r r' he1 hr => ?_)).congr rfl rfl
    refine (copyZ_does (ZIs.grow hz he1)).then (fun h2 p' P' he2 hp' => Does.pure ?_)
    have hr2 := hr.old he2
    exact ⟨⟨_, .delay hp'⟩, ⟨_, hr2⟩, leaves_state hp' hr2 (fun b hb => .inr (.inr (Nat.le_trans he1.1 hb))) (fun b hb => .inr (.inr hb.1))
      (fun b hb hb' => Nat.not_lt.mpr hb hb'.2)⟩
  | negate =>
    rw [HOp.proc, Op.proc, outcome_bind]
    exact (subZ_does (c := c) (A := nowhere) (z := []) (Z := []) .nil hz).then (fun h' r r' he hr => Does.pure ⟨⟨S, .negate⟩, ⟨_, hr⟩, leaves_stateless hr hR⟩)
  | projSel h1 h2 =>
    rw [HOp.proc, Op.proc, outcome_bind]
    exact (projSelGo_does h1 h2 hold hnew hz .nil).then (fun h' r r' he hr => Does.pure ⟨⟨S, .projSel h1 h2⟩, ⟨_, hr⟩, leaves_stateless hr hR⟩)
  | selProjs h1 h2 =>
    rw [HOp.proc, selProjsGo_eq, Op.proc, outcome_bind, selProjsEv_eq]
    exact (projSelGo_does (selOpt_ev h1) (projChain_ev h2) hold hnew hz .nil).then (fun h' r r' he hr => Does.pure ⟨⟨S, .selProjs h1 h2⟩, ⟨_, hr⟩, leaves_stateless hr hR⟩)

/-! ### one join -/

theorem held_sub_all {c : Cfg K J} {h : Heap} {A : Region} {zs : List (HZ K)} {Zs : List (ZSet K)} (hz : All2 (ZIs c h A) zs Zs) {b : Nat} (hb : Held h zs b) : A b := by
  obtain ⟨z, hm, e, he, hb⟩ := hb
  obtain ⟨Z, hZ⟩ := hz.mem_left hm
  exact (hZ.held_sub he hb).1

theorem HJoin.proc_does {c : Cfg K J} {h : Heap} {S A : Region} {o : HJoin K} {O : JoinOp K} (ho : JoinIs c h S o O)
    {zs : List (HZ K)} {Zs : List (ZSet K)} (hz : All2 (ZIs c h A) zs Zs) :
    Does nowhere h (o.proc c zs) (outcome (O.proc Zs)) (fun h' p P => (∃ S', JoinIs c h' S' p.1 P.1) ∧ (∃ R', ZIs c h' R' p.2 P.2) ∧ Leaves h h' S A p.1.kept p.2) := by
  cases ho with
  | @snap e names f hev =>
    rw [HJoin.proc, JoinOp.proc, snapJoin, ← hz.length]
    by_cases hl : zs.length = names.length
    · simp only [hl, ne_eq, not_true, if_false, outcome_bind]
      refine (cartH_does hev 1 (by simpa using hl) hz .nil).then (fun h' r r' he hr => Does.pure ⟨⟨S, .snap hev⟩, ⟨_, hr⟩, leaves_stateless hr (fun b hb => .inr (.inr hb))⟩)
    · simp only [hl, ne_eq, not_false_eq_true, if_true, outcome]
      exact Does.fail
  | @incr e names f ps Ps hev hps hpl =>
    rw [HJoin.proc, JoinOp.proc, incJoin, ← hz.length]
    by_cases hl : zs.length = names.length
    · simp only [hl, ne_eq, not_true, if_false]
      refine Does.congr (x := (sumMasks f Zs Ps [] (List.range' 1 (2 ^ names.length - 1))).bind (fun r =>
        (Except.ok (List.zipWith ZSet.add Ps Zs)).bind (fun ps' => .ok (.incr f names.length ps', r)))) ?_ rfl (by
          cases sumMasks f Zs Ps [] (List.range' 1 (2 ^ names.length - 1)) <;> rfl)
      refine (sumMasksH_does hev (A := fun b => S b ∨ A b) (R := fun b => h.length ≤ b) hl hpl (fun b hb => hb) (hz.imp (fun _ _ h => ZIs.mono h (fun _ _ h => Or.inr h)))
        (hps.imp (fun _ _ h => ZIs.mono h (fun _ _ h => Or.inl h))) .nil).then (fun h1 r r' he1 hr => ?_)
      refine (addStates_does (R := fun b => (A b ∧ b < h.length) ∨ h1.length ≤ b) (fun b hb => .inl hb) (fun b hb => .inr hb) (hps.imp (fun _ _ h => ZIs.grow h he1))
        (hz.imp (fun _ _ h => ZIs.old h he1))).known.then (fun h2 qs Qs he2 hq => Does.pure ?_)
      obtain ⟨hq, rfl⟩ := hq
      have hr2 := hr.old he2
      refine ⟨⟨_, .incr hev hq ?_⟩, ⟨_, hr2⟩, fun b hb => ?_, ?_, ?_⟩
      · rw [hq.length, List.length_zipWith, ← hps.length, ← hz.length, hl, hpl, Nat.min_self]
      · rcases held_sub_all hq hb with hb | hb
        · exact .inr (.inl hb.1)
        · exact .inr (.inr (Nat.le_trans he1.1 hb))
      · rintro b ⟨z, hm, e, he, hb⟩
        rw [List.mem_singleton] at hm; subst hm
        exact .inr (.inr (hr2.held_sub he hb).1.1)
      · rintro b hb ⟨z, hm, e, he, hb'⟩
        rw [List.mem_singleton] at hm; subst hm
        have h3 := (hr2.held_sub he hb').1
        rcases held_sub_all hq hb with hb | hb
        · exact absurd hb.2 (Nat.not_lt.mpr h3.1)
        · exact absurd h3.2 (Nat.not_lt.mpr hb)
    · simp only [hl, ne_eq, not_false_eq_true, if_true, outcome]
      exact Does.fail

/-! ### a chain of operators -/

theorem Op.proc_failed (O : Op K J) (Z : ZSet K) (e : Err) (h : (O.proc Z).2 = .error e) : (O.proc Z).1 = O := by
  cases O <;> first | rfl | (simp [Op.proc] at h)

theorem JoinIs.proc_failed {c : Cfg K J} {h : Heap} {S : Region} {o : HJoin K} {O : JoinOp K} (ho : JoinIs c h S o O) (Zs : List (ZSet K)) (e : Err)
    (hx : (O.proc Zs).2 = .error e) : (O.proc Zs).1 = O := by
  cases ho with
  | snap _ => rfl
  | @incr e' names f ps Ps _ _ _ =>
    simp only [JoinOp.proc] at hx ⊢
    unfold incJoin at hx ⊢
    split
    · rfl
    · rename_i hl
      rw [if_neg hl] at hx
      revert hx
      cases sumMasks f Zs Ps [] (List.range' 1 (2 ^ names.length - 1)) with
      | error e => intro _; rfl
      | ok r => intro h; exact absurd h (by simp)

/-- What a chain of steps leaves behind. -/
def After (h h' : Heap) (ks : List (List (HZ K))) (A : Region) (ks' : List (List (HZ K))) (r : Except Err (HZ K)) : Prop :=
  ks'.Pairwise (fun x y => Apart (Held h' x) (Held h' y)) ∧
  (∀ k ∈ ks', ∀ b, Held h' k b → (∃ k ∈ ks, Held h k b) ∨ A b ∨ h.length ≤ b) ∧
  ∀ z, r = .ok z → (∀ b, Held h' [z] b → (∃ k ∈ ks, Held h k b) ∨ A b ∨ h.length ≤ b) ∧ ∀ k ∈ ks', Apart (Held h' k) (Held h' [z])

theorem After.failed {c : Cfg K J} {h h' : Heap} {ks : List (List (HZ K))} {A : Region} {e : Err} (hf : ∀ k ∈ ks, Fine c h k)
    (hp : ks.Pairwise (fun x y => Apart (Held h x) (Held h y))) (he : Ext nowhere h h') : After h h' ks A ks (.error e) := by
  refine ⟨?_, fun k hk b hb => .inl ⟨k, hk, ((hf k hk).held_ext he).mp hb⟩, fun z hz => by cases hz⟩
  exact hp.imp_of_mem (fun hx hy ha b hb hb' => ha b (((hf _ hx).held_ext he).mp hb) (((hf _ hy).held_ext he).mp hb'))

theorem After.cons {c : Cfg K J} {h h1 h2 : Heap} {k0 k1 : List (HZ K)} {ks ks' : List (List (HZ K))} {A : Region} {r1 : HZ K} {r : Except Err (HZ K)}
    (hf : ∀ k ∈ k0 :: ks, Fine c h k) (hf1 : Fine c h1 k1)
    (hp : (k0 :: ks).Pairwise (fun x y => Apart (Held h x) (Held h y))) (hA : ∀ k ∈ k0 :: ks, Apart (Held h k) A)
    (hl : Leaves h h1 (Held h k0) A k1 r1) (he : Ext nowhere h h1) (he2 : Ext nowhere h1 h2)
    (ha : After h1 h2 ks (Held h1 [r1]) ks' r) : After h h2 (k0 :: ks) A (k1 :: ks') r := by
  rw [List.pairwise_cons] at hp
  have hold : ∀ k ∈ ks, ∀ b, Held h1 k b → Held h k b := fun k hk b hb => ((hf k (List.mem_cons_of_mem _ hk)).held_ext he).mp hb
  have hk1 : ∀ b, Held h2 k1 b → Held h1 k1 b := fun b hb => (hf1.held_ext he2).mp hb
  have hsep : ∀ b, Held h1 k1 b → ∀ k ∈ ks, ¬ Held h1 k b := by
    intro b hb k hk hb'
    have hb' := hold k hk b hb'
    rcases hl.1 b hb with h3 | h3 | h3
    · exact hp.1 k hk b h3 hb'
    · exact hA k (List.mem_cons_of_mem _ hk) b hb' h3
    · exact Nat.not_lt.mpr h3 ((hf k (List.mem_cons_of_mem _ hk)).lt hb')
  have hthree : ∀ b, (∃ k ∈ ks, Held h1 k b) ∨ Held h1 [r1] b ∨ h1.length ≤ b → (∃ k ∈ k0 :: ks, Held h k b) ∨ A b ∨ h.length ≤ b := by
    rintro b (⟨k, hk, hb⟩ | hb | hb)
    · exact .inl ⟨k, List.mem_cons_of_mem _ hk, hold k hk b hb⟩
    · rcases hl.2.1 b hb with h3 | h3
      · exact .inl ⟨k0, List.mem_cons_self, h3⟩
      · exact .inr h3
    · exact .inr (.inr (Nat.le_trans he.1 hb))
  have hno : ∀ b, Held h2 k1 b → ¬ ((∃ k ∈ ks, Held h1 k b) ∨ Held h1 [r1] b ∨ h1.length ≤ b) := by
    rintro b hb (⟨k, hk, hb'⟩ | hb' | hb')
    · exact hsep b (hk1 b hb) k hk hb'
    · exact hl.2.2 b (hk1 b hb) hb'
    · exact Nat.not_lt.mpr hb' (hf1.lt (hk1 b hb))
  refine ⟨?_, ?_, ?_⟩
  · rw [List.pairwise_cons]
    exact ⟨fun k hk b hb hb' => hno b hb (ha.2.1 k hk b hb'), ha.1⟩
  · intro k hk b hb
    rcases List.mem_cons.mp hk with rfl | hk
    · rcases hl.1 b (hk1 b hb) with h3 | h3
      · exact .inl ⟨k0, List.mem_cons_self, h3⟩
      · exact .inr h3
    · exact hthree b (ha.2.1 k hk b hb)
  · intro z hz
    obtain ⟨h3, h4⟩ := ha.2.2 z hz
    refine ⟨fun b hb => hthree b (h3 b hb), fun k hk => ?_⟩
    rcases List.mem_cons.mp hk with rfl | hk
    · exact fun b hb hb' => hno b hb (h3 b hb')
    · exact h4 k hk

/-- What is left to run is still as it was, and separate from the intermediate result. -/
theorem rest_ready {c : Cfg K J} {h h1 : Heap} {k0 k1 : List (HZ K)} {ks : List (List (HZ K))} {A : Region} {r1 : HZ K}
    (hf : ∀ k ∈ k0 :: ks, Fine c h k) (hp : (k0 :: ks).Pairwise (fun x y => Apart (Held h x) (Held h y)))
    (hA : ∀ k ∈ k0 :: ks, Apart (Held h k) A) (hl : Leaves h h1 (Held h k0) A k1 r1) (he : Ext nowhere h h1) :
    ks.Pairwise (fun x y => Apart (Held h1 x) (Held h1 y)) ∧ ∀ k ∈ ks, Apart (Held h1 k) (Held h1 [r1]) := by
  rw [List.pairwise_cons] at hp
  have hold : ∀ k ∈ ks, ∀ b, Held h1 k b → Held h k b := fun k hk b hb => ((hf k (List.mem_cons_of_mem _ hk)).held_ext he).mp hb
  refine ⟨hp.2.imp_of_mem (fun hx hy ha b hb hb' => ha b (hold _ hx b hb) (hold _ hy b hb')), fun k hk b hb hb' => ?_⟩
  have hb := hold k hk b hb
  rcases hl.2.1 b hb' with h3 | h3 | h3
  · exact hp.1 k hk b h3 hb
  · exact hA k (List.mem_cons_of_mem _ hk) b hb h3
  · exact Nat.not_lt.mpr h3 ((hf k (List.mem_cons_of_mem _ hk)).lt hb)

theorem Gives.andThen {X Y : Type} {m : Nat → Heap → Option X} {f : X → Nat → Option Y} {h : Heap} {x : X} {y : Y} (hm : Gives m h x) (hf : ∃ N, ∀ n, N ≤ n → f x n = some y) :
    ∃ N, ∀ n, N ≤ n → (m n h).bind (fun x => f x n) = some y := by
  obtain ⟨N, hN⟩ := hm
  obtain ⟨N', hN'⟩ := hf
  exact ⟨max N N', fun n hn => by rw [hN n (by omega)]; exact hN' n (by omega)⟩

theorem ZIs.fine {c : Cfg K J} {h : Heap} {A : Region} {z : HZ K} {Z : ZSet K} (hz : ZIs c h A z Z) : Fine c h [z] := by
  intro z' hz'; rw [List.mem_singleton] at hz'; subst hz'; exact ⟨A, Z, hz⟩

theorem chain_fine {c : Cfg K J} {h : Heap} {os : List (HOp K)} {nds : List (Node K J)}
    (hs : All2 (fun o (nd : Node K J) => OpIs c h (Held h o.kept) o nd.op) os nds) : ∀ k ∈ os.map HOp.kept, Fine c h k := by
  intro k hk
  obtain ⟨o, ho, rfl⟩ := List.mem_map.mp hk
  obtain ⟨nd, hnd⟩ := hs.mem_left ho
  exact hnd.held.2.1

theorem chain_ext {c : Cfg K J} {h h' : Heap} {os : List (HOp K)} {nds : List (Node K J)}
    (hs : All2 (fun o (nd : Node K J) => OpIs c h (Held h o.kept) o nd.op) os nds) (he : Ext nowhere h h') :
    All2 (fun o (nd : Node K J) => OpIs c h' (Held h' o.kept) o nd.op) os nds :=
  hs.imp (fun _ _ ho => ((ho.agree (fun _ hb => he.get (ho.held.2.1.lt hb))).held).1)

theorem runOps_does {c : Cfg K J} {os : List (HOp K)} : ∀ {nds : List (Node K J)} {h : Heap} {z : HZ K} {Z : ZSet K} {A : Region} (i : Nat),
    All2 (fun o (nd : Node K J) => OpIs c h (Held h o.kept) o nd.op) os nds →
    (os.map HOp.kept).Pairwise (fun x y => Apart (Held h x) (Held h y)) → ZIs c h A z Z → (∀ k ∈ os.map HOp.kept, Apart (Held h k) (Held h [z])) →
    ∃ h' os' r, Gives (runOps c os z) h (h', os', r) ∧ Ext nowhere h h' ∧
      All2 (fun o (nd : Node K J) => OpIs c h' (Held h' o.kept) o nd.op) os' (runChain (fun _ z => z) i nds Z).1 ∧
      SameOutcome (fun z Z => ∃ R, ZIs c h' R z Z) r (runChain (fun _ z => z) i nds Z).2 ∧
      After h h' (os.map HOp.kept) (Held h [z]) (os'.map HOp.kept) r := by
  induction os with
  | nil =>
    intro nds h z Z A i hs _ hz _
    cases hs
    exact ⟨h, [], .ok z, ⟨0, fun _ _ => rfl⟩, Ext.refl _ _, .nil, ⟨A, hz⟩, .nil, (fun k hk => by cases hk), fun z' hz' => by
      cases hz'; exact ⟨fun b hb => .inr (.inl hb), fun k hk => by cases hk⟩⟩
  | cons o os ih =>
    intro nds h z Z A i hs hp hz hA
    have hf := chain_fine hs
    have hs0 := hs
    cases hs with
    | @cons _ nd _ nds ho hs =>
    obtain ⟨h1, r1, hg, he, hso⟩ := HOp.proc_does ho (hz.held (List.mem_singleton.mpr rfl))
    match hx : nd.op.proc Z, r1, hso with
    | (O', .error e'), .error e, hso =>
      have hO : O' = nd.op := by
        have := Op.proc_failed nd.op Z e' (by rw [hx])
        rw [hx] at this; exact this
      refine ⟨h1, o :: os, .error e, ?_, he, ?_, ?_, After.failed hf hp he⟩
      · obtain ⟨N, hN⟩ := hg
        exact ⟨N, fun n hn => by simp [runOps, hN n hn]⟩
      · simp only [runChain, hx, hO]
        exact chain_ext hs0 he
      · simp only [runChain, hx]; exact hso
    | (O', .ok r'), .ok (o', r), hso =>
      obtain ⟨⟨S', ho'⟩, ⟨R', hr⟩, hl⟩ := hso
      obtain ⟨hp1, hA1⟩ := rest_ready hf hp hA hl he
      obtain ⟨h2, os', res, hg2, he2, hos, hres, haf⟩ := ih (i + 1) (chain_ext hs he) hp1 hr hA1
      refine ⟨h2, o' :: os', res, ?_, he.trans he2 (fun _ _ h => h), ?_, ?_, After.cons hf ho'.held.2.1 hp hA hl he he2 haf⟩
      · obtain ⟨N, hN⟩ := hg
        obtain ⟨N', hN'⟩ := hg2
        exact ⟨max N N', fun n hn => by simp [runOps, hN n (by omega), hN' n (by omega)]⟩
      · simp only [runChain, hx]
        exact .cons ((ho'.held.1.agree (fun _ hb => he2.get (ho'.held.2.1.lt hb))).held.1) hos
      · simp only [runChain, hx]; exact hres

/-! ### a graph -/

theorem collect_zip {names : List String} {Zs : List (ZSet K)} (hn : names.Nodup) (hl : Zs.length = names.length) :
    collectInputs names (names.zip Zs) = .ok Zs := by
  unfold collectInputs
  rw [if_neg (by simp [hl])]
  have key : ∀ (names : List String) (Zs : List (ZSet K)) (pre : List (String × ZSet K)), (∀ n ∈ names, pre.lookup n = none) → names.Nodup → Zs.length = names.length →
      names.mapM (fun n => match lookupInput (pre ++ names.zip Zs) n with
        | some z => (Except.ok z : Except Err (ZSet K))
        | none => .error "missing input") = .ok Zs := by
    intro names
    induction names with
    | nil => intro Zs pre _ _ hl; rw [List.eq_nil_of_length_eq_zero hl]; rfl
    | cons n t ih =>
      intro Zs pre hpre hn hl
      cases Zs with
      | nil => simp at hl
      | cons Z Zs =>
        have h0 : (pre ++ (n :: t).zip (Z :: Zs)).lookup n = some Z := by
          rw [List.lookup_append, hpre n (by simp)]; simp
        have := ih Zs (pre ++ [(n, Z)]) (fun m hm => by
          rw [List.lookup_append, hpre m (by simp [hm])]
          have : (m == n) = false := by
            rw [beq_eq_false_iff_ne]; rintro rfl; exact (List.nodup_cons.mp hn).1 hm
          simp [List.lookup, this]) (List.nodup_cons.mp hn).2 (by simpa using hl)
        simp only [List.append_assoc, List.singleton_append] at this
        rw [List.mapM_cons]
        simp only [lookupInput, List.zip_cons_cons] at this h0 ⊢
        rw [this, h0]; rfl
  have := key names Zs [] (by simp) hn hl
  rw [List.nil_append] at this
  refine Eq.trans ?_ this
  congr 1

theorem callGraph_inputs (G : Graph K J) (Ins : List (ZSet K)) : (callGraph G Ins).1.inputs = G.inputs := by
  unfold callGraph Graph.process
  split
  · rfl
  · split
    · split <;> rfl
    · split <;> rfl

theorem held_flatten {h : Heap} {ks : List (List (HZ K))} {b : Nat} : Held h ks.flatten b ↔ ∃ k ∈ ks, Held h k b := by
  constructor
  · rintro ⟨z, hz, e, he, hb⟩
    obtain ⟨k, hk, hz⟩ := List.mem_flatten.mp hz
    exact ⟨k, hk, z, hz, e, he, hb⟩
  · rintro ⟨k, hk, z, hz, e, he, hb⟩
    exact ⟨z, List.mem_flatten.mpr ⟨k, hk, hz⟩, e, he, hb⟩

theorem GraphIs.fine {c : Cfg K J} {h : Heap} {g : HGraph K} {G : Graph K J} (hg : GraphIs c h g G) : ∀ k ∈ g.kept, Fine c h k := by
  intro k hk
  rcases List.mem_cons.mp hk with rfl | hk
  · have := hg.join
    cases hj : g.join with
    | none => intro z hz; cases hz
    | some j =>
      rw [hj] at this
      cases hJ : G.join with
      | none => rw [hJ] at this; cases this
      | some J' => rw [hJ] at this; exact (JoinIs.held (by simpa [OptIs] using this)).2.1
  · exact chain_fine hg.chain k hk

theorem callGraph_eq (G : Graph K J) (Ins : List (ZSet K)) (hn : G.inputs.Nodup) (hl : Ins.length = G.inputs.length) : callGraph G Ins = match G.join with
    | some j =>
      match j.proc Ins with
      | (j', .error e) => ({ G with join := some j' }, .error e)
      | (j', .ok r) => ({ G with join := some j', chain := (runChain (fun _ z => z) 1 G.chain r).1 }, (runChain (fun _ z => z) 1 G.chain r).2)
    | none =>
      match Ins with
      | [] => (G, .error "no input")
      | z :: _ => ({ G with chain := (runChain (fun _ z => z) 1 G.chain z).1 }, (runChain (fun _ z => z) 1 G.chain z).2) := by
  unfold callGraph Graph.process
  rw [collect_zip hn hl]
  simp only [List.map_id_fun', id_eq]
  cases G.join with
  | none => cases Ins <;> rfl
  | some j =>
    dsimp only
    rcases j.proc Ins with ⟨j', e | r⟩ <;> rfl

theorem process_does {c : Cfg K J} {h : Heap} {g : HGraph K} {G : Graph K J} (hg : GraphIs c h g G) {ins : List (HZ K)} {Ins : List (ZSet K)} {A : Region}
    (hi : All2 (ZIs c h A) ins Ins) (ha : ∀ k ∈ g.kept, Apart (Held h k) (Held h ins)) (hl : Ins.length = G.inputs.length) :
    ∃ h' g' r, Gives (g.process c ins) h (h', g', r) ∧ Ext nowhere h h' ∧ GraphIs c h' g' (callGraph G Ins).1 ∧
      SameOutcome (fun z Z => ∃ R, ZIs c h' R z Z) r (callGraph G Ins).2 ∧ After h h' g.kept (Held h ins) g'.kept r := by
  have hf := hg.fine
  have hp := hg.apart
  have hname : (callGraph G Ins).1.inputs.Nodup := by rw [callGraph_inputs]; exact hg.names
  have hi' : All2 (ZIs c h (Held h ins)) ins Ins := All2.imp_mem hi (fun z Z hm hz => hz.held hm)
  have hcall := callGraph_eq G Ins hg.names hl
  obtain ⟨gj, gc⟩ := g
  obtain ⟨Gi, GJ, Gc⟩ := G
  have hj := hg.join
  have hc := hg.chain
  match gj, GJ, hj with
  | none, none, _ =>
    match ins, Ins, hi with
    | [], [], _ =>
      refine ⟨h, ⟨none, gc⟩, .error "no input", ⟨0, fun _ _ => rfl⟩, Ext.refl _ _, ?_, ?_, After.failed hf hp (Ext.refl _ _)⟩
      · rw [hcall]; exact hg
      · rw [hcall]; exact rfl
    | z :: zs, Z :: Zs, .cons hz _ =>
      have hsub : ∀ b, Held h [z] b → Held h (z :: zs) b := by
        rintro b ⟨z', hz', e, he, hb⟩
        rw [List.mem_singleton] at hz'; subst hz'
        exact ⟨z', List.mem_cons_self, e, he, hb⟩
      have hp' := (List.pairwise_cons.mp hp).2
      obtain ⟨h', os', r, hgiv, he, hos, hso, haf⟩ := runOps_does 1 hc hp' hz (fun k hk b hb hb' => ha k (List.mem_cons_of_mem _ hk) b hb (hsub b hb'))
      have hempty : ∀ (h : Heap) b, ¬ Held h ([] : List (HZ K)) b := by rintro h b ⟨z, hz, _⟩; cases hz
      refine ⟨h', ⟨none, os'⟩, r, ?_, he, ?_, ?_, ?_, ?_, ?_⟩
      · obtain ⟨N, hN⟩ := hgiv
        exact ⟨N, fun n hn => by simp [HGraph.process, hN n hn]⟩
      · refine ⟨hname, ?_, ?_, ?_⟩
        · rw [hcall]; trivial
        · rw [hcall]; exact hos
        · exact List.pairwise_cons.mpr ⟨fun k _ b hb => absurd hb (hempty h' b), haf.1⟩
      · rw [hcall]; exact hso
      · exact List.pairwise_cons.mpr ⟨fun k _ b hb => absurd hb (hempty h' b), haf.1⟩
      · intro k hk b hb
        rcases List.mem_cons.mp hk with rfl | hk
        · exact absurd hb (hempty h' b)
        · rcases haf.2.1 k hk b hb with ⟨k', hk', h3⟩ | h3 | h3
          · exact .inl ⟨k', List.mem_cons_of_mem _ hk', h3⟩
          · exact .inr (.inl (hsub b h3))
          · exact .inr (.inr h3)
      · intro z' hz'
        obtain ⟨h4, h5⟩ := haf.2.2 z' hz'
        refine ⟨fun b hb => ?_, fun k hk => ?_⟩
        · rcases h4 b hb with ⟨k', hk', h3⟩ | h3 | h3
          · exact .inl ⟨k', List.mem_cons_of_mem _ hk', h3⟩
          · exact .inr (.inl (hsub b h3))
          · exact .inr (.inr h3)
        · rcases List.mem_cons.mp hk with rfl | hk
          · exact fun b hb => absurd hb (hempty h' b)
          · exact h5 k hk
  | some j, some J', hj =>
    have hj : JoinIs c h (Held h j.kept) j J' := hj
    obtain ⟨h1, r1, hgiv, he, hso⟩ := HJoin.proc_does hj hi'
    match hx : J'.proc Ins, r1, hso with
    | (O', .error e'), .error e, hso =>
      have hO : O' = J' := by
        have := JoinIs.proc_failed hj Ins e' (by rw [hx])
        rw [hx] at this; exact this
      dsimp only at hcall
      rw [hx] at hcall
      refine ⟨h1, ⟨some j, gc⟩, .error e, ?_, he, ?_, ?_, After.failed hf hp he⟩
      · obtain ⟨N, hN⟩ := hgiv
        exact ⟨N, fun n hn => by simp [HGraph.process, hN n hn]⟩
      · refine ⟨hname, ?_, ?_, (After.failed (A := nowhere) (e := e) hf hp he).1⟩
        · rw [hcall, hO]
          exact ((hj.agree (fun _ hb => he.get (hj.held.2.1.lt hb))).held).1
        · rw [hcall]; exact chain_ext hc he
      · rw [hcall]; exact hso
    | (O', .ok r'), .ok (o', r), hso =>
      obtain ⟨⟨S', ho'⟩, ⟨R', hr⟩, hlv⟩ := hso
      obtain ⟨hp1, hA1⟩ := rest_ready hf hp ha hlv he
      obtain ⟨h2, os', res, hg2, he2, hos, hres, haf⟩ := runOps_does 1 (chain_ext hc he) hp1 hr hA1
      dsimp only at hcall
      rw [hx] at hcall
      have haf := After.cons hf ho'.held.2.1 hp ha hlv he he2 haf
      refine ⟨h2, ⟨some o', os'⟩, res, ?_, he.trans he2 (fun _ _ h => h), ⟨hname, ?_, ?_, haf.1⟩, ?_, haf⟩
      · obtain ⟨N, hN⟩ := hgiv
        obtain ⟨N', hN'⟩ := hg2
        exact ⟨max N N', fun n hn => by simp [HGraph.process, hN n (by omega), hN' n (by omega)]⟩
      · rw [hcall]
        exact ((ho'.held.1.agree (fun _ hb => he2.get (ho'.held.2.1.lt hb))).held).1
      · rw [hcall]; exact hos
      · rw [hcall]; exact hres

end Mem
end Dctl
