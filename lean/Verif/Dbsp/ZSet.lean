/-!
# Z-sets (`pkg/dbsp/zset.go`)

A document is an element of an arbitrary type `D` with decidable equality: in the code two documents
are the same element of a Z-set iff their canonical JSON keys agree (`zset.go:56`, `document.go:14-27`),
`D` stands for documents up to that key (see `Verif/Json/Key.lean` for the key itself).
Multiplicities are unbounded integers (Go: `int`).
-/
set_option autoImplicit false
namespace Dctl

/-- `pkg/dbsp/zset.go:9-13` `DocumentZSet`. The two Go maps `docs` and `counts` (same key set) become one
association list from documents to multiplicities; the position in the list is the map iteration
order, which Go leaves unspecified. Simplification: the JSON key string and the stored representative
document are identified. -/
abbrev ZSet (D : Type) := List (D × Int)

namespace ZSet
variable {D : Type} [DecidableEq D]

/-- `pkg/dbsp/zset.go:34-39` `NewDocumentZSet`. -/
def empty : ZSet D := []

/-- `pkg/dbsp/zset.go:278-289` `GetMultiplicity` (0 for absent documents). -/
def get : ZSet D → D → Int
  | [], _ => 0
  | (x, m) :: t, d => if x = d then m else get t d

/-- `pkg/dbsp/zset.go:61-71`: the map update inside `AddDocumentMutate` for a non-zero `count`: add
to an existing entry or insert a new one, and drop the entry if its count became 0. -/
def upd : ZSet D → D → Int → ZSet D
  | [], d, c => [(d, c)]
  | (x, m) :: t, d, c =>
    if x = d then (if m + c = 0 then t else (x, m + c) :: t) else (x, m) :: upd t d c

/-- `pkg/dbsp/zset.go:51-74` `AddDocumentMutate` (the new value of the receiver); also `AddDocument`
(`zset.go:43-47`), which does the same on a copy. Key computation errors are not modelled: every
element of `D` has a key. -/
def addDoc (z : ZSet D) (d : D) (c : Int) : ZSet D := if c = 0 then z else upd z d c

/-- `pkg/dbsp/zset.go:77-93` `Add` for a non-nil argument (copy the receiver, add every entry of `w`). -/
def add (z w : ZSet D) : ZSet D := w.foldl (fun acc p => addDoc acc p.1 p.2) z

/-- `pkg/dbsp/zset.go:96-112` `Subtract` for a non-nil argument. -/
def sub (z w : ZSet D) : ZSet D := w.foldl (fun acc p => addDoc acc p.1 (-p.2)) z

/-- `pkg/dbsp/zset.go:77-80` `Add` with a possibly nil argument. -/
def addOpt (z : ZSet D) : Option (ZSet D) → ZSet D
  | none => z
  | some w => add z w

/-- `pkg/dbsp/zset.go:96-99` `Subtract` with a possibly nil argument. -/
def subOpt (z : ZSet D) : Option (ZSet D) → ZSet D
  | none => z
  | some w => sub z w

/-- `pkg/dbsp/zset.go:116-130` `Distinct`. -/
def distinct (z : ZSet D) : ZSet D :=
  z.foldl (fun acc p => if p.2 > 0 then addDoc acc p.1 1 else acc) []

/-- `pkg/dbsp/zset.go:133-148` `Unique`. -/
def unique (z : ZSet D) : ZSet D :=
  z.foldl (fun acc p => addDoc acc p.1 (if p.2 < 0 then -1 else 1)) []

/-- `pkg/dbsp/zset.go:191-202` `List`. -/
def list (z : ZSet D) : List (D × Int) := z

/-- `pkg/dbsp/zset.go:206-221` `GetDocuments`: every document as often as its positive multiplicity. -/
def getDocuments (z : ZSet D) : List D :=
  z.flatMap (fun p => if p.2 ≤ 0 then [] else List.replicate p.2.toNat p.1)

/-- `pkg/dbsp/zset.go:224-235` `GetUniqueDocuments`. -/
def getUniqueDocuments (z : ZSet D) : List D :=
  z.flatMap (fun p => if p.2 > 0 then [p.1] else [])

/-- `pkg/dbsp/zset.go:238-240` `IsZero`. -/
def isZero (z : ZSet D) : Bool := z.length == 0

/-- `pkg/dbsp/zset.go:243-251` `Size`. -/
def size (z : ZSet D) : Int := z.foldl (fun t p => if p.2 > 0 then t + p.2 else t) 0

/-- `pkg/dbsp/zset.go:254-264` `TotalSize`. -/
def totalSize (z : ZSet D) : Int := z.foldl (fun t p => if p.2 > 0 then t + p.2 else t + -p.2) 0

/-- `pkg/dbsp/zset.go:267-275` `UniqueCount`. -/
def uniqueCount (z : ZSet D) : Nat := z.foldl (fun t p => if p.2 > 0 then t + 1 else t) 0

/-- `pkg/dbsp/zset.go:292-298` `Contains`. -/
def contains (z : ZSet D) (d : D) : Bool := decide (get z d > 0)

/-- `pkg/dbsp/zset.go:323-326` `SingletonZSet`. -/
def singleton (d : D) : ZSet D := addDoc [] d 1

/-- `pkg/dbsp/zset.go:329-341` `FromDocuments`. -/
def fromDocuments (ds : List D) : ZSet D := ds.foldl (fun acc d => addDoc acc d 1) []

/-- Representation invariant of the Go maps: map keys are unique and no stored count is zero
(`zset.go:68-71`). Not code; a predicate on the model state. -/
def WF (z : ZSet D) : Prop := (z.map Prod.fst).Nodup ∧ ∀ p ∈ z, p.2 ≠ 0

instance (z : ZSet D) : Decidable (WF z) := by unfold WF; infer_instance

/-- Two Z-sets with the same multiplicities. Not code; used in statements. -/
def Eqv (z w : ZSet D) : Prop := ∀ d, get z d = get w d

end ZSet
end Dctl
