import Verif.Reconciler.Periodic
/-!
# Specification: durations, prompt goroutines
-/
set_option autoImplicit false
namespace Dctl

/-- The number with the given decimal digits. -/
def digitsNat (l : List Char) : Nat := l.foldl (fun n c => n * 10 + (c.toNat - 48)) 0

/-- One part of a duration: a decimal number with a unit, e.g. `1.5h`. -/
structure DurPart where
  int : List Char
  frac : Option (List Char) := none
  unit : List Char

/-- The units and the nanoseconds they stand for. -/
def durUnits : List (String × Nat) :=
  [("ns", 1), ("us", 1000), ("µs", 1000), ("μs", 1000), ("ms", 1000 * 1000), ("s", 1000 * 1000 * 1000), ("m", 60 * (1000 * 1000 * 1000)),
   ("h", 60 * (60 * (1000 * 1000 * 1000)))]

/-- The text of a fraction. -/
def fracText : Option (List Char) → List Char
  | none => []
  | some f => '.' :: f

/-- The text of a part. -/
def DurPart.text (p : DurPart) : List Char := p.int ++ fracText p.frac ++ p.unit

/-- A part is well formed: digits, at least one of them, and a unit. -/
def DurPart.Ok (p : DurPart) : Prop :=
  (∀ c ∈ p.int, c.isDigit = true) ∧ (∀ f, p.frac = some f → ∀ c ∈ f, c.isDigit = true) ∧ (p.int ≠ [] ∨ ∃ c f, p.frac = some (c :: f)) ∧
  ∃ n u, (u, n) ∈ durUnits ∧ p.unit = u.toList

/-- The nanoseconds of a part, `fr f k n` being those of `f/10^k` units of `n` nanoseconds. -/
def DurPart.Is (fr : Nat → Nat → Nat → Nat) (p : DurPart) (ns : Nat) : Prop :=
  ∃ n u, (u, n) ∈ durUnits ∧ p.unit = u.toList ∧
    ns = digitsNat p.int * n + (match p.frac with
      | none => 0
      | some f => if digitsNat f = 0 then 0 else fr (digitsNat f) f.length n)

/-- The text of a duration. -/
def durText (l : List DurPart) : List Char := l.flatMap DurPart.text

/-- The parts add up to the number of nanoseconds. -/
inductive DurTotal (fr : Nat → Nat → Nat → Nat) : List DurPart → Nat → Prop
  | nil : DurTotal fr [] 0
  | cons {p : DurPart} {l : List DurPart} {a b : Nat} : p.Is fr a → DurTotal fr l b → DurTotal fr (p :: l) (a + b)

/-- The texts of signs. -/
def signText : List (List Char) := [[], ['+'], ['-']]

/-- A text that is a duration: an optional sign and `0`, or an optional sign and parts. -/
def IsDuration (s : List Char) : Prop :=
  ∃ sign t, sign ∈ signText ∧ s = sign ++ t ∧ (t = ['0'] ∨ ∃ l : List DurPart, l ≠ [] ∧ (∀ p ∈ l, p.Ok) ∧ t = durText l)

/-- The goroutine keeps up in a run: it is not cancelled, time passes in steps of at most a period, and only when no tick is waiting. -/
def Prompt (b64 : String → Option String) (g : GVK) (period : Nat) (steps : List TStep) : Prop :=
  (∀ x ∈ steps, x ≠ .cancel) ∧
  ∀ (a b : List TStep) (d : Nat), steps = a ++ .wait d :: b → d ≤ period ∧ (Ticker.run b64 g period a).chan = false

end Dctl
