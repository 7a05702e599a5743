import Verif.Reconciler.Source
import Verif.Operator.Kinds
import Verif.Controller.Target
/-!
# Sources and targets made from their specification, periodic sources (`pkg/reconciler/source.go`, `target.go`)
-/
set_option autoImplicit false
namespace Dctl

/-- `controller_types.go:61-73`: the types of sources. -/
inductive SrcType where
  | watcher
  | periodic
  | oneShot
deriving DecidableEq, Repr

/-- `source.go:45-62` `NewSource`: which kind of source is made for the `type` of a source; the switch falls back to a watcher. `Type()` of the result
(`source.go:91`, `157`, `236`) is the same. -/
def newSourceType (type : String) : SrcType :=
  let sourceType := if type = "" then "Watcher" else type
  if sourceType = "OneShot" then .oneShot
  else if sourceType = "Periodic" then .periodic
  else if sourceType = "Watcher" then .watcher
  else .watcher

/-- `time.ParseDuration` (library, used in `source.go:217`), `unitMap`: nanoseconds per unit; the two letters for micro are U+00B5 and U+03BC. -/
def durUnit (u : List Char) : Option Nat :=
  if u = ['n', 's'] then some 1
  else if u = ['u', 's'] then some 1000
  else if u = [Char.ofNat 0xB5, 's'] then some 1000
  else if u = [Char.ofNat 0x3BC, 's'] then some 1000
  else if u = ['m', 's'] then some 1000000
  else if u = ['s'] then some 1000000000
  else if u = ['m'] then some 60000000000
  else if u = ['h'] then some 3600000000000
  else none

/-- `leadingInt` of `time.ParseDuration` (library, used in `source.go:217`): digits, with the check that the number fits. -/
def leadingInt : Nat → List Char → Option (Nat × List Char)
  | x, [] => some (x, [])
  | x, c :: s =>
    if c.isDigit then
      if x > 2 ^ 63 / 10 then none
      else if x * 10 + (c.toNat - 48) > 2 ^ 63 then none
      else leadingInt (x * 10 + (c.toNat - 48)) s
    else some (x, c :: s)

/-- `leadingFraction` of `time.ParseDuration` (library, used in `source.go:217`): digits after the point; those that do not fit are dropped. Gives the number
read, how many digits it has, and the rest. -/
def leadingFraction : Bool → Nat → Nat → List Char → Nat × Nat × List Char
  | _, x, k, [] => (x, k, [])
  | over, x, k, c :: s =>
    if c.isDigit then
      if over then leadingFraction true x k s
      else if x > (2 ^ 63 - 1) / 10 then leadingFraction true x k s
      else if x * 10 + (c.toNat - 48) > 2 ^ 63 then leadingFraction true x k s
      else leadingFraction false (x * 10 + (c.toNat - 48)) (k + 1) s
    else (x, k, c :: s)

/-- The optional fraction in `time.ParseDuration` (library, used in `source.go:217`): number, digits, was a digit read, rest. -/
def durFraction : List Char → Nat × Nat × Bool × List Char
  | '.' :: t => ((leadingFraction false 0 0 t).1, (leadingFraction false 0 0 t).2.1, decide ((leadingFraction false 0 0 t).2.2.length ≠ t.length),
      (leadingFraction false 0 0 t).2.2)
  | s => (0, 0, false, s)

/-- Does the unit end here (`time.ParseDuration`, library, used in `source.go:217`)? -/
def durStop (c : Char) : Bool := c = '.' || c.isDigit

/-- The loop of `time.ParseDuration` (library, used in `source.go:217`), `d` is what has been added up so far, on 64 bits without sign. `fr f k u` is the number
of nanoseconds of `f/10^k` units of `u` nanoseconds, which Go computes with floats (less than `u`, so that adding it does not wrap). The first argument bounds the
iterations; the length of the text is enough. -/
def durLoop (fr : Nat → Nat → Nat → Nat) : Nat → List Char → Nat → Option Nat
  | _, [], d => some d
  | 0, _ :: _, _ => none
  | n + 1, c :: s, d =>
    if durStop c then
      match leadingInt 0 (c :: s) with
      | none => none
      | some (v, s1) =>
        let f := durFraction s1
        if s1.length = (c :: s).length ∧ f.2.2.1 = false then none
        else
          let u := f.2.2.2.takeWhile (fun c => !durStop c)
          let rest := f.2.2.2.dropWhile (fun c => !durStop c)
          if u = [] then none
          else
            match durUnit u with
            | none => none
            | some unit =>
              if v > 2 ^ 63 / unit then none
              else
                let w := if f.1 > 0 then v * unit + fr f.1 f.2.1 unit else v * unit
                if w > 2 ^ 63 then none
                else if (d + w) % 2 ^ 64 > 2 ^ 63 then none
                else durLoop fr n rest ((d + w) % 2 ^ 64)
    else none

/-- The sign in `time.ParseDuration` (library, used in `source.go:217`): is there a minus, and the rest. -/
def durSign : List Char → Bool × List Char
  | '-' :: s => (true, s)
  | '+' :: s => (false, s)
  | s => (false, s)

/-- `time.ParseDuration` (library, used in `source.go:217`), in nanoseconds. -/
def parseDuration (fr : Nat → Nat → Nat → Nat) (text : List Char) : Option Int :=
  let r := durSign text
  if r.2 = ['0'] then some 0
  else if r.2 = [] then none
  else
    match durLoop fr r.2.length r.2 0 with
    | none => none
    | some d => if r.1 then some (-(d : Int)) else if d > 2 ^ 63 - 1 then none else some d

/-- `source.go:208`: the default period, five minutes. -/
def defaultPeriod : Int := 300000000000

/-- `source.go:202-222` in `NewPeriodicSource`: the period. `params` is the value `json.Unmarshal` finds in the parameters (`none`: no parameters or malformed);
a value that is no object fails to decode into a map, null gives an empty map. -/
def sourcePeriod (fr : Nat → Nat → Nat → Nat) (params : Option Json) : Int :=
  match params with
  | some (.map m) =>
    match SMap.get m "period" with
    | some (.str t) => (parseDuration fr t.toList).getD defaultPeriod
    | _ => defaultPeriod
  | _ => defaultPeriod

/-- `controller_types.go:40-58` `Source` as far as `NewSource` looks at it: resource, type and parameters (`source.go:45-62`, `202-222`). -/
structure SourceCfg where
  group : Option String := none
  version : Option String := none
  kind : String
  type : String := ""
  params : Option Json := none

/-- `declarative.go:77-81,97`: the source as `NewDeclarative` sees it. -/
def SourceCfg.res (s : SourceCfg) : ResCfg := ⟨s.group, s.version, s.kind, decide (newSourceType s.type = .periodic)⟩

/-- A periodic source that was started (`source.go:262-283`). `now` is the time since the start in nanoseconds, `chan` the channel of the ticker (it holds one tick,
further ticks are dropped: `time.NewTicker`, library), `done` the context, `running` the goroutine, `src` the work queue and its worker, `log` the times at which
requests were added. -/
structure Ticker where
  now : Nat := 0
  chan : Bool := false
  done : Bool := false
  running : Bool := true
  src : Src := {}
  log : List Nat := []

/-- What can happen: time passes, the goroutine receives a tick, the context is cancelled, the goroutine sees it, the worker of the queue moves
(`source.go:263-282`; the choice of `select` is free when both cases are ready). -/
inductive TStep where
  | wait (d : Nat)
  | recv
  | cancel
  | quit
  | work (s : SStep)

/-- One step of a periodic source with the given period (`source.go:262-283`). A tick is due at every multiple of the period. -/
def Ticker.step (b64 : String → Option String) (g : GVK) (period : Nat) (t : Ticker) : TStep → Ticker
  | .wait d => { t with now := t.now + d, chan := t.chan || (t.running && decide (t.now / period < (t.now + d) / period)) }
  | .recv =>
    if t.running && t.chan then
      { t with chan := false, src := t.src.step b64 [] g .tick, log := t.log ++ [t.now] }
    else t
  | .cancel => { t with done := true }
  | .quit => if t.done then { t with running := false } else t
  | .work (.event _) => t
  | .work .tick => t
  | .work s => { t with src := t.src.step b64 [] g s }

/-- A run of a started periodic source. -/
def Ticker.run (b64 : String → Option String) (g : GVK) (period : Nat) (steps : List TStep) : Ticker := steps.foldl (Ticker.step b64 g period) {}

/-- `source.go:252-286` `Start` of a periodic source: an error without a positive period or a kind (`gvk`); otherwise the source ticks. -/
def periodicStart (period : Int) (gvk : Option GVK) : Option (GVK × Nat) :=
  if period ≤ 0 then none
  else
    match gvk with
    | none => none
    | some g => some (g, period.toNat)

/-- `controller_types.go:83-91`, `target.go:36-38` `NewTarget`: the type of a target, an updater by default. -/
def newTargetType (type : String) : String := if type = "" then "Updater" else type

/-- `target.go:80-87` in `Write`: which way a target of the type writes, `none` is an error; `true` for a patcher. -/
def writesAs (type : String) : Option Bool :=
  if type = "Updater" ∨ type = "" then some false
  else if type = "Patcher" then some true
  else none

/-- `target.go:35-49,64-88`: a write to a target made for the given type. -/
def typedWrite (type : String) (t : GVK) (s s' : Cluster) (ty : DeltaType) (d : SMap Json) (orig : Option (SMap Json)) : Option Cluster :=
  match writesAs (newTargetType type) with
  | none => none
  | some patcher => targetWrite t patcher s s' ty d orig

end Dctl
