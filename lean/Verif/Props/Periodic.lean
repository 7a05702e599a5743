import Verif.Reconciler.PeriodicLemmas
import Verif.Props.Kinds
import Verif.Reconciler.SourceLemmas
/-!
# C111: sources and targets are what their type says; periodic sources tick at their period
-/
set_option autoImplicit false
set_option linter.unusedSectionVars false
namespace Dctl

/-! ## Types -/

/-- **C111** (types of sources): exactly the sources of type `Periodic` are periodic, exactly those of type `OneShot` are one-shot sources; all others, also those with a
type that does not exist, watch. -/
theorem C111_types (t : String) :
    (newSourceType t = .periodic ↔ t = "Periodic") ∧ (newSourceType t = .oneShot ↔ t = "OneShot") ∧
    (newSourceType t = .watcher ↔ t ≠ "Periodic" ∧ t ≠ "OneShot") := by
  unfold newSourceType
  by_cases h0 : t = ""
  · subst h0; decide
  · by_cases h1 : t = "OneShot"
    · subst h1; decide
    · by_cases h2 : t = "Periodic"
      · subst h2; decide
      · simp [h0, h1, h2]

example : newSourceType "Watcher" = .watcher ∧ newSourceType "" = .watcher ∧ newSourceType "Periodic" = .periodic := by decide

/-- **C111** (types of sources) is not checked: a misspelt type gives a watcher, without any error. -/
theorem C111_misspelt : newSourceType "periodic" = .watcher ∧ newSourceType "Oneshot" = .watcher := by decide

/-- **C111** (the pipeline): the pipeline of a controller is made for the kinds of its sources that are not of type `Periodic`, in order. -/
theorem C111_pipeline (env : BuildEnv) (op name : String) (srcs : List SourceCfg) (t : Option ResCfg) (ks : List GVK)
    (h : (newDeclarative env op ⟨name, srcs.map SourceCfg.res, t⟩).pipeline = some ks) :
    ks = (srcs.filter (fun s => decide (s.type ≠ "Periodic"))).filterMap (fun s => resourceGVK env.native op s.group s.version s.kind) := by
  have hb : ks = baseKinds env op (srcs.map SourceCfg.res) := by
    unfold newDeclarative at h
    repeat' split at h
    all_goals first | (simp at h; done) | skip
    simp only at h
    split at h
    · rename_i hw
      split at h
      · simp only [Option.some.injEq] at h
        rw [← h]
        exact (watchSources_all env op _ 0 hw).2
      · simp at h
    · simp at h
  rw [hb, baseKinds]
  clear hb h
  induction srcs with
  | nil => rfl
  | cons x l ih =>
    have hx : (!x.res.periodic) = decide (x.type ≠ "Periodic") := by
      simp only [SourceCfg.res, (C111_types x.type).1]
      by_cases hp : x.type = "Periodic" <;> simp [hp]
    simp only [List.map_cons, List.filter_cons, hx]
    split
    · simp only [List.filterMap_cons, ih]
      rfl
    · exact ih

example : (newDeclarative ⟨fun _ _ => none, fun _ => true, fun _ _ => true⟩ "op" ⟨"c", [⟨none, none, "V", "", none⟩, ⟨none, none, "T", "Periodic", none⟩].map SourceCfg.res,
    some ⟨none, none, "W", false⟩⟩).pipeline = some [⟨"op.view.dcontroller.io", "v1alpha1", "V"⟩] := by decide +kernel

/-- **C111** (types of targets): a target without type or of type `Updater` updates, one of type `Patcher` patches, and one of any other type fails every write. -/
theorem C111_target (type : String) (t : GVK) (s s' : Cluster) (ty : DeltaType) (d : SMap Json) (orig : Option (SMap Json)) :
    (type = "" ∨ type = "Updater" → typedWrite type t s s' ty d orig = targetWrite t false s s' ty d orig) ∧
    (type = "Patcher" → typedWrite type t s s' ty d orig = targetWrite t true s s' ty d orig) ∧
    (type ≠ "" → type ≠ "Updater" → type ≠ "Patcher" → typedWrite type t s s' ty d orig = none) := by
  refine ⟨?_, ?_, ?_⟩
  · rintro (rfl | rfl) <;> rfl
  · rintro rfl; rfl
  · intro h1 h2 h3
    simp [typedWrite, newTargetType, writesAs, h1, h2, h3]

example (t : GVK) (s : Cluster) (d : SMap Json) : typedWrite "updater" t s s .added d none = none :=
  (C111_target "updater" t s s .added d none).2.2 (by decide) (by decide) (by decide)

/-! ## Periods -/

/-- The sign of a text of signs. -/
def signed (sign : List Char) (n : Nat) : Int := if sign = ['-'] then -(n : Int) else n

theorem durSign_text {sign t : List Char} (hs : sign ∈ signText) (ht : ∀ c r, t = c :: r → c ≠ '-' ∧ c ≠ '+') :
    durSign (sign ++ t) = (decide (sign = ['-']), t) := by
  simp only [signText, List.mem_cons, List.not_mem_nil, or_false] at hs
  rcases hs with rfl | rfl | rfl
  · cases t with
    | nil => rfl
    | cons c r =>
      obtain ⟨h1, h2⟩ := ht c r rfl
      simp only [List.nil_append]
      unfold durSign
      split
      · rename_i h; cases h; exact absurd rfl h1
      · rename_i h; cases h; exact absurd rfl h2
      · rfl
  · rfl
  · rfl

theorem durStop_sign {c : Char} (h : durStop c = true) : c ≠ '-' ∧ c ≠ '+' := by
  constructor <;> rintro rfl <;> exact absurd h (by decide)

/-- **C111** (durations): the text of a duration is read as the sum of its parts, if the sum fits and fractions have at most 18 digits. -/
theorem C111_duration (fr : Nat → Nat → Nat → Nat) (sign : List Char) (l : List DurPart) (total : Nat) (hs : sign ∈ signText) (hl : l ≠ [])
    (hok : ∀ p ∈ l, p.Ok) (hsh : ∀ p ∈ l, ∀ f, p.frac = some f → f.length ≤ 18) (ht : DurTotal fr l total) (hfit : total < 2 ^ 63) :
    parseDuration fr (sign ++ durText l) = some (signed sign total) := by
  have hfirst := durText_first hok
  have hsign := durSign_text hs (fun c r h => durStop_sign (hfirst c r h))
  have hne : durText l ≠ [] := by
    intro h
    have := durText_length hok
    rw [h] at this
    cases l <;> simp at this hl
  have hz : durText l ≠ ['0'] := by
    intro h
    cases l with
    | nil => exact hl rfl
    | cons p l =>
      obtain ⟨u1, u2, u3, n, u, hu, hun⟩ := hok p (by simp)
      obtain ⟨q1, q2, _⟩ := durUnits_chars u n hu
      rw [← hun] at q1 q2
      obtain ⟨c, r, hc⟩ : ∃ c r, p.unit = c :: r := by
        cases hp : p.unit with
        | nil => exact absurd hp q1
        | cons c r => exact ⟨c, r, rfl⟩
      have hm : c ∈ durText (p :: l) := by simp [durText, DurPart.text, hc]
      rw [h, List.mem_singleton] at hm
      have := q2 c (by simp [hc])
      rw [hm] at this
      exact absurd this (by decide)
  have hloop := durLoop_parts fr l total 0 (durText l).length hok hsh ht (by omega) (durText_length hok)
  unfold parseDuration
  simp only [hsign, if_neg hz, if_neg hne, hloop, Nat.zero_add, signed]
  by_cases hm : sign = ['-']
  · simp [hm]
  · simp only [hm, decide_false, Bool.false_eq_true, if_false]
    rw [if_neg (by omega)]

/-- **C111** (durations, conversely): only texts of durations are read. -/
theorem C111_duration_form (fr : Nat → Nat → Nat → Nat) (s : List Char) (d : Int) (h : parseDuration fr s = some d) : IsDuration s := by
  have hsplit : ∃ sign, sign ∈ signText ∧ s = sign ++ (durSign s).2 := by
    unfold durSign
    split
    · exact ⟨['-'], by simp [signText], rfl⟩
    · exact ⟨['+'], by simp [signText], rfl⟩
    · exact ⟨[], by simp [signText], rfl⟩
  obtain ⟨sign, h1, h2⟩ := hsplit
  refine ⟨sign, (durSign s).2, h1, h2, ?_⟩
  unfold parseDuration at h
  simp only at h
  split at h
  · rename_i hz; exact .inl hz
  · split at h
    · simp at h
    · rename_i hne
      split at h
      · simp at h
      · rename_i v hv
        obtain ⟨l, q1, q2⟩ := durLoop_form fr _ _ _ _ hv
        refine .inr ⟨l, ?_, q1, q2⟩
        rintro rfl
        exact hne q2

/-- **C111** (durations): the text `0`, also with a sign, is the duration zero, without a unit. -/
theorem C111_zero (fr : Nat → Nat → Nat → Nat) (sign : List Char) (hs : sign ∈ signText) : parseDuration fr (sign ++ ['0']) = some 0 := by
  unfold parseDuration
  rw [durSign_text hs (by rintro c r ⟨⟩; decide)]
  rfl

example : parseDuration (fun _ _ _ => 0) "-0".toList = some 0 := C111_zero _ ['-'] (by decide)

/-- `1h30m` as parts. -/
def demoDuration : List DurPart := [⟨['1'], none, ['h']⟩, ⟨['3', '0'], none, ['m']⟩]

example : durText demoDuration = "1h30m".toList := by decide
example : (∀ p ∈ demoDuration, p.Ok) ∧ DurTotal (fun _ _ _ => 0) demoDuration 5400000000000 := by
  refine ⟨?_, ?_⟩
  · intro p hp
    simp only [demoDuration, List.mem_cons, List.not_mem_nil, or_false] at hp
    rcases hp with rfl | rfl
    · exact ⟨by decide, by simp, .inl (by simp), 3600000000000, "h", by simp [durUnits], by decide⟩
    · exact ⟨by decide, by simp, .inl (by simp), 60000000000, "m", by simp [durUnits], by decide⟩
  · exact .cons (a := 3600000000000) (b := 1800000000000) ⟨_, "h", by simp [durUnits]; rfl, by decide, by decide⟩
      (.cons (a := 1800000000000) (b := 0) ⟨_, "m", by simp [durUnits]; rfl, by decide, by decide⟩ .nil)
example : parseDuration (fun _ _ _ => 0) "1h30m".toList = some 5400000000000 := by decide +kernel
example : parseDuration (fun _ _ _ => 0) "30".toList = none ∧ parseDuration (fun _ _ _ => 0) "1d".toList = none := by decide +kernel

/-- The bound on the sum is not the last word: numbers too large can wrap around (in Go's library). -/
theorem C111_wraps : parseDuration (fun _ _ _ => 0) "9223372036854775808ns9223372036854775808ns".toList = some 0 := by decide +kernel

/-- **C111** (the period asked for): a source whose parameters have a text of a duration as `period` has that period. -/
theorem C111_period (fr : Nat → Nat → Nat → Nat) (m : SMap Json) (text : String) (sign : List Char) (l : List DurPart) (total : Nat)
    (hm : SMap.get m "period" = some (.str text)) (htext : text.toList = sign ++ durText l) (hs : sign ∈ signText) (hl : l ≠ [])
    (hok : ∀ p ∈ l, p.Ok) (hsh : ∀ p ∈ l, ∀ f, p.frac = some f → f.length ≤ 18) (ht : DurTotal fr l total) (hfit : total < 2 ^ 63) :
    sourcePeriod fr (some (.map m)) = signed sign total := by
  simp only [sourcePeriod, hm, htext, C111_duration fr sign l total hs hl hok hsh ht hfit, Option.getD_some]

example : sourcePeriod (fun _ _ _ => 0) (some (.map [("period", .str "30s")])) = 30000000000 := by decide +kernel

/-- **C111** (other periods): whatever else is given as parameters — none, no object, no `period`, a number, a text that is no duration — the period is five minutes and
no error is reported. -/
theorem C111_period_default (fr : Nat → Nat → Nat → Nat) (params : Option Json)
    (h : ∀ m text, params = some (.map m) → SMap.get m "period" = some (.str text) → ¬ IsDuration text.toList) :
    sourcePeriod fr params = 5 * 60 * 1000000000 := by
  unfold sourcePeriod
  split
  · rename_i m
    split
    · rename_i text ht
      cases hp : parseDuration fr text.toList with
      | none => rfl
      | some d => exact absurd (C111_duration_form fr _ d hp) (h m text rfl ht)
    · rfl
  · rfl

/-- Thirty seconds given as a number are five minutes. -/
example : sourcePeriod (fun _ _ _ => 0) (some (.map [("period", .int 30)])) = 300000000000 := rfl

/-- **C111** (start): a periodic source starts exactly if its period is positive and its kind is known. -/
theorem C111_start (period : Int) (gvk : Option GVK) (g : GVK) (n : Nat) :
    periodicStart period gvk = some (g, n) ↔ 0 < period ∧ gvk = some g ∧ (n : Int) = period := by
  unfold periodicStart
  split
  · constructor
    · intro h; simp at h
    · rintro ⟨h, _⟩; omega
  · cases gvk with
    | none => simp
    | some g' =>
      simp only [Option.some.injEq, Prod.mk.injEq]
      constructor
      · rintro ⟨rfl, rfl⟩; exact ⟨by omega, rfl, by omega⟩
      · rintro ⟨h1, rfl, h3⟩; exact ⟨rfl, by omega⟩

/-! ## Ticks -/

section
variable (b64 : String → Option String) (g : GVK) (period : Nat)

theorem Ticker.run_append (a : List TStep) (x : TStep) :
    Ticker.run b64 g period (a ++ [x]) = Ticker.step b64 g period (Ticker.run b64 g period a) x := by
  simp [Ticker.run, List.foldl_append]

theorem Ticker.run_append' (a b : List TStep) :
    Ticker.run b64 g period (a ++ b) = b.foldl (Ticker.step b64 g period) (Ticker.run b64 g period a) := by
  simp [Ticker.run, List.foldl_append]

/-- Ticks added or waiting are due. -/
theorem Ticker.budget (steps : List TStep) :
    (Ticker.run b64 g period steps).log.length + (if (Ticker.run b64 g period steps).chan then 1 else 0) ≤ (Ticker.run b64 g period steps).now / period ∧
    ∀ i v, (Ticker.run b64 g period steps).log[i]? = some v → i + 1 ≤ v / period ∧ v ≤ (Ticker.run b64 g period steps).now := by
  induction steps using rev_induct with
  | h0 => simp [Ticker.run]
  | h1 l x ih =>
    rw [Ticker.run_append]
    generalize Ticker.run b64 g period l = t at ih
    obtain ⟨ih1, ih2⟩ := ih
    cases x with
    | wait d =>
      have hmono : t.now / period ≤ (t.now + d) / period := Nat.div_le_div_right (by omega)
      refine ⟨?_, fun i v h => ⟨(ih2 i v h).1, Nat.le_trans (ih2 i v h).2 (by simp [Ticker.step])⟩⟩
      simp only [Ticker.step]
      by_cases hc : t.chan = true
      · simp only [hc, if_true] at ih1
        simp only [hc, Bool.true_or, if_true]
        omega
      · rw [if_neg hc] at ih1
        simp only [Bool.not_eq_true] at hc
        simp only [hc, Bool.false_or]
        split
        · rename_i h
          simp only [Bool.and_eq_true, decide_eq_true_eq] at h
          omega
        · omega
    | recv =>
      simp only [Ticker.step]
      split
      · rename_i h
        simp only [Bool.and_eq_true] at h
        simp only [h.2, if_true] at ih1
        refine ⟨by simp; omega, ?_⟩
        intro i v hi
        simp only [List.getElem?_append] at hi
        split at hi
        · exact ih2 i v hi
        · rename_i hlt
          have : i - t.log.length = 0 := by
            by_cases h0 : i - t.log.length = 0
            · exact h0
            · rw [List.getElem?_eq_none (by simp; omega)] at hi; simp at hi
          rw [this] at hi
          simp only [List.getElem?_cons_zero, Option.some.injEq] at hi
          subst hi
          exact ⟨by omega, Nat.le_refl _⟩
      · exact ⟨ih1, ih2⟩
    | cancel => exact ⟨ih1, ih2⟩
    | quit =>
      simp only [Ticker.step]
      split <;> exact ⟨ih1, ih2⟩
    | work s => cases s <;> exact ⟨ih1, ih2⟩

/-- **C111** (no tick comes early): in every run the i-th request of a periodic source is added at the earliest when i periods are over. -/
theorem C111_not_early (hp : 0 < period) (steps : List TStep) (i v : Nat) (h : (Ticker.run b64 g period steps).log[i]? = some v) : (i + 1) * period ≤ v := by
  have := ((Ticker.budget b64 g period steps).2 i v h).1
  exact (Nat.le_div_iff_mul_le hp).mp this

/-- **C111** (no tick is missing while the goroutine keeps up): then as many requests were added, or one less with a tick waiting, as periods are over. -/
theorem C111_every_period_partial (hp : 0 < period) (steps : List TStep) (h : Prompt b64 g period steps) :
    (Ticker.run b64 g period steps).log.length + (if (Ticker.run b64 g period steps).chan then 1 else 0) = (Ticker.run b64 g period steps).now / period := by
  have key : (Ticker.run b64 g period steps).log.length + (if (Ticker.run b64 g period steps).chan then 1 else 0) = (Ticker.run b64 g period steps).now / period ∧
      (Ticker.run b64 g period steps).done = false ∧ (Ticker.run b64 g period steps).running = true := by
    induction steps using rev_induct with
    | h0 => simp [Ticker.run]
    | h1 l x ih =>
      have hl : Prompt b64 g period l := by
        refine ⟨fun y hy => h.1 y (by simp [hy]), ?_⟩
        intro a b d e
        exact h.2 a (b ++ [x]) d (by rw [e]; simp)
      have hx : ∀ d, x = .wait d → d ≤ period ∧ (Ticker.run b64 g period l).chan = false := fun d e => h.2 l [] d (by rw [e])
      have hc : x ≠ .cancel := h.1 x (by simp)
      obtain ⟨i1, i2, i3⟩ := ih hl
      rw [Ticker.run_append]
      generalize Ticker.run b64 g period l = t at i1 i2 i3 hx
      cases x with
      | wait d =>
        obtain ⟨hd, hch⟩ := hx d rfl
        refine ⟨?_, i2, i3⟩
        simp only [hch, Bool.false_eq_true, if_false, Nat.add_zero] at i1
        simp only [Ticker.step, hch, i3, Bool.false_or, Bool.true_and]
        have h1 : t.now / period ≤ (t.now + d) / period := Nat.div_le_div_right (by omega)
        have h2 : (t.now + d) / period ≤ t.now / period + 1 := by
          rw [← Nat.add_div_right _ hp]
          exact Nat.div_le_div_right (by omega)
        by_cases hlt : t.now / period < (t.now + d) / period
        · simp only [hlt, decide_true, if_true]; omega
        · simp only [hlt, decide_false, Bool.false_eq_true, if_false]; omega
      | recv =>
        simp only [Ticker.step]
        split
        · rename_i hb
          simp only [Bool.and_eq_true] at hb
          simp only [hb.2, if_true] at i1
          exact ⟨by simp; omega, i2, i3⟩
        · exact ⟨i1, i2, i3⟩
      | cancel => exact absurd rfl hc
      | quit => rw [show Ticker.step b64 g period t .quit = t from by simp [Ticker.step, i2]]; exact ⟨i1, i2, i3⟩
      | work s => cases s <;> exact ⟨i1, i2, i3⟩
  exact key.1

/-- **C111** (the end): once the goroutine has seen that the context is cancelled, no request is added any more. -/
theorem C111_stopped (a b : List TStep) (h : (Ticker.run b64 g period a).running = false) :
    (Ticker.run b64 g period (a ++ b)).log = (Ticker.run b64 g period a).log := by
  have key : ∀ b : List TStep, (Ticker.run b64 g period (a ++ b)).log = (Ticker.run b64 g period a).log ∧ (Ticker.run b64 g period (a ++ b)).running = false := by
    intro b
    induction b using rev_induct with
    | h0 => simpa using h
    | h1 l x ih =>
      rw [← List.append_assoc, Ticker.run_append]
      generalize Ticker.run b64 g period (a ++ l) = t at ih
      obtain ⟨i1, i2⟩ := ih
      cases x with
      | wait d => exact ⟨i1, i2⟩
      | recv => rw [show Ticker.step b64 g period t .recv = t from by simp [Ticker.step, i2]]; exact ⟨i1, i2⟩
      | cancel => exact ⟨i1, i2⟩
      | quit => simp only [Ticker.step]; split <;> simp [i1, i2]
      | work s => cases s <;> exact ⟨i1, i2⟩
  exact (key b).1

/-- Is it a tick? -/
def SStep.isTick : SStep → Bool
  | .tick => true
  | _ => false

/-- Is it an event of an informer? -/
def SStep.isEvent : SStep → Bool
  | .event _ => true
  | _ => false

/-- **C111** (the queue): the work queue of a periodic source is in a state that a source reaches with one tick per request added and without events, so all that is
proved of ticks in C68 holds of it: they are merged while they wait, and none is lost. -/
theorem C111_queue (steps : List TStep) : ∃ l : List SStep, (Ticker.run b64 g period steps).src = Src.run b64 [] g l ∧
    l.countP SStep.isTick = (Ticker.run b64 g period steps).log.length ∧ ∀ x ∈ l, x.isEvent = false := by
  induction steps using rev_induct with
  | h0 => exact ⟨[], rfl, rfl, by simp⟩
  | h1 st x ih =>
    obtain ⟨l, i1, i2, i3⟩ := ih
    rw [Ticker.run_append]
    generalize Ticker.run b64 g period st = t at i1 i2
    have ext : ∀ y : SStep, y.isEvent = false → y.isTick = false → ∃ l' : List SStep, t.src.step b64 [] g y = Src.run b64 [] g l' ∧
        l'.countP SStep.isTick = t.log.length ∧ ∀ x ∈ l', x.isEvent = false := by
      intro y h1 h2
      refine ⟨l ++ [y], by rw [i1]; simp [Src.run, List.foldl_append], by simp [List.countP_append, i2, h2], ?_⟩
      intro z hz
      rcases List.mem_append.mp hz with hz | hz
      · exact i3 z hz
      · rw [List.mem_singleton.mp hz]; exact h1
    cases x with
    | wait d => exact ⟨l, i1, i2, i3⟩
    | recv =>
      simp only [Ticker.step]
      split
      · refine ⟨l ++ [.tick], by simp only [i1]; simp [Src.run, List.foldl_append], by simp [List.countP_append, i2, SStep.isTick], ?_⟩
        intro z hz
        rcases List.mem_append.mp hz with hz | hz
        · exact i3 z hz
        · rw [List.mem_singleton.mp hz]; rfl
      · exact ⟨l, i1, i2, i3⟩
    | cancel => exact ⟨l, i1, i2, i3⟩
    | quit => simp only [Ticker.step]; split <;> exact ⟨l, i1, i2, i3⟩
    | work s =>
      cases s with
      | event e => exact ⟨l, i1, i2, i3⟩
      | tick => exact ⟨l, i1, i2, i3⟩
      | take => exact ext .take rfl rfl
      | finish ok => exact ext (.finish ok) rfl rfl
      | due r => exact ext (.due r) rfl rfl

end

/-- A kind. -/
def tickKind : GVK := ⟨"op.view.dcontroller.io", "v1alpha1", "Sync"⟩

/-- A run of 2.5 periods in which the goroutine keeps up. -/
def demoTicks : List TStep := [.wait 10, .recv, .work .take, .wait 7, .wait 3, .recv, .work (.finish true), .wait 5]

example : (Ticker.run (fun _ => none) tickKind 10 demoTicks).log = [10, 20] ∧ (Ticker.run (fun _ => none) tickKind 10 demoTicks).now = 25 := by decide +kernel

example : Prompt (fun _ => none) tickKind 10 demoTicks := by
  refine ⟨by simp [demoTicks], ?_⟩
  intro a b d h
  have ha : a = demoTicks.take a.length := by rw [h]; simp
  have hd : demoTicks[a.length]? = some (.wait d) := by rw [h]; simp
  rw [ha]
  generalize a.length = n at hd
  rcases n with _ | _ | _ | _ | _ | _ | _ | _ | n <;> simp [demoTicks] at hd <;> subst hd <;> decide +kernel

/-- **C111** (no tick is missing) fails if the goroutine does not keep up: the channel holds one tick, the others are dropped. -/
theorem C111_dropped : ¬ ∀ steps : List TStep, (∀ x ∈ steps, x ≠ .cancel) →
    (Ticker.run (fun _ => none) tickKind 10 steps).log.length + (if (Ticker.run (fun _ => none) tickKind 10 steps).chan then 1 else 0) =
      (Ticker.run (fun _ => none) tickKind 10 steps).now / 10 := by
  intro h
  have := h [.wait 30] (by simp)
  exact absurd this (by decide +kernel)

end Dctl
