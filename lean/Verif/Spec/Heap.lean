import Verif.Dbsp.Heap
/-!
# What it means that memory represents values, and that parts of it are separate

Specification for C110. Nothing here models code.
-/
set_option autoImplicit false
namespace Dctl
namespace Mem
variable {K J : Type} [DecidableEq K] [DecidableEq J]

/-- A set of addresses. -/
abbrev Region := Nat → Prop

/-- The cell at `b` can be reached from the value `v`. -/
inductive Reach (h : Heap) : Val → Nat → Prop
  | here (a : Nat) : Reach h (.ref a) a
  | field {a b : Nat} {m : List (String × Val)} {k : String} {v : Val} :
    h[a]? = some (.map m) → (k, v) ∈ m → Reach h v b → Reach h (.ref a) b
  | elem {a b : Nat} {l : List Val} {v : Val} : h[a]? = some (.list l) → v ∈ l → Reach h v b → Reach h (.ref a) b

/-- The value `v` stands for `j`: with enough stack it is read as `j`. -/
def Reads (h : Heap) (v : Val) (j : Json) : Prop := ∃ n, read n h v = some j

/-- `h'` comes from `h` by allocating cells and writing to cells in `W` only. -/
def Ext (W : Region) (h h' : Heap) : Prop := h.length ≤ h'.length ∧ ∀ b, b < h.length → ¬ W b → h'[b]? = h[b]?

/-- No cell. -/
def nowhere : Region := fun _ => False

/-- The cells of `A` and those not yet allocated in `h`. -/
def orNew (A : Region) (h : Heap) : Region := fun b => A b ∨ h.length ≤ b

/-- With enough stack, `m` answers `x` from memory `h`. -/
def Gives {X : Type} (m : Nat → Heap → Option X) (h : Heap) (x : X) : Prop := ∃ N, ∀ n, N ≤ n → m n h = some x

/-- Lists of equal length, related position by position. -/
inductive All2 {A B : Type} (R : A → B → Prop) : List A → List B → Prop
  | nil : All2 R [] []
  | cons {a : A} {b : B} {as : List A} {bs : List B} : R a b → All2 R as bs → All2 R (a :: as) (b :: bs)

/-- Both fail with the same message, or both succeed with results in relation. -/
def SameOutcome {A B : Type} (Q : A → B → Prop) : Except Err A → Except Err B → Prop
  | .ok a, .ok b => Q a b
  | .error e, .error e' => e = e'
  | _, _ => False

/-- The computation `m` on memory `h` does what `x` says, writing to cells in `W` only. -/
def Does {A B : Type} (W : Region) (h : Heap) (m : M A) (x : Except Err B) (Q : Heap → A → B → Prop) : Prop :=
  ∃ h' r, Gives m h (h', r) ∧ Ext W h h' ∧ SameOutcome (Q h') r x

/-- The document at `a` has key `k`, and is inside `A`. -/
def DocIs (c : Cfg K J) (h : Heap) (A : Region) (a : Nat) (k : K) : Prop :=
  ∃ j, Reads h (.ref a) j ∧ c.key j = k ∧ ∀ b, Reach h (.ref a) b → A b

/-- The value `v` has key `w`, and is inside `A`. -/
def ValIs (c : Cfg K J) (h : Heap) (A : Region) (v : Val) (w : J) : Prop :=
  ∃ j, Reads h v j ∧ c.vkey j = w ∧ ∀ b, Reach h v b → A b

/-- The indexed element `x` has key `w`, and is inside `A`. -/
def ElemIs (c : Cfg K J) (h : Heap) (A : Region) (x : Nat × Val) (w : J) : Prop :=
  ∃ j, Reads h x.2 j ∧ c.ekey x.1 j = w ∧ ∀ b, Reach h x.2 b → A b

/-- The Z-set in memory has the entries of `Z`, each with a document that has the key it is stored under, inside `A`. -/
def ZIs (c : Cfg K J) (h : Heap) (A : Region) (z : HZ K) (Z : ZSet K) : Prop :=
  All2 (fun e p => e.1 = p.1 ∧ e.2.2 = p.2 ∧ DocIs c h A e.2.1 p.1) z Z

/-- Optional results in relation. -/
def OptIs {A B : Type} (R : A → B → Prop) : Option A → Option B → Prop
  | some a, some b => R a b
  | none, none => True
  | _, _ => False

/-- The evaluator computes `f` and writes to no existing cell. Its results may share cells with the document. -/
def EvReads (c : Cfg K J) (e : HEv) (f : Ev K) : Prop :=
  ∀ h A a k, DocIs c h A a k →
    Does nowhere h (e a) (f k) (fun h' as ks => All2 (DocIs c h' (orNew A h)) as ks)

/-- The evaluator computes `f` and writes to no existing cells but those of the document it was given. -/
def EvWrites (c : Cfg K J) (e : HEv) (f : Ev K) : Prop :=
  ∀ h A a k, DocIs c h A a k →
    Does A h (e a) (f k) (fun h' as ks => All2 (DocIs c h' (orNew A h)) as ks)

/-- The extractor of elements computes `f` and writes to no existing cell. -/
def ElemsRead (c : Cfg K J) (e : Nat → M (Option (List (Nat × Val)))) (f : K → Except Err (Option (List J))) : Prop :=
  ∀ h A a k, DocIs c h A a k →
    Does nowhere h (e a) (f k) (fun h' r s => OptIs (All2 (ElemIs c h' (orNew A h))) r s)

/-- The transformer computes `f` and writes to no existing cells but those of the document it was given, which
shares no cell with the element. -/
def ElemWrites (c : Cfg K J) (t : Nat → Nat × Val → M Nat) (f : K → J → Except Err K) : Prop :=
  ∀ h A B a k x w, DocIs c h A a k → ElemIs c h B x w → (∀ b, A b → ¬ B b) →
    Does A h (t a x) (f k w) (fun h' a' k' => DocIs c h' (orNew (fun b => A b ∨ B b) h) a' k')

/-- The extractor of a value computes `f` and writes to no existing cell. -/
def ValReads (c : Cfg K J) (e : Nat → M (Option Val)) (f : K → Except Err (Option J)) : Prop :=
  ∀ h A a k, DocIs c h A a k → Does nowhere h (e a) (f k) (fun h' r s => OptIs (ValIs c h' (orNew A h)) r s)

/-- The aggregator computes `f` and writes to no existing cells but those of the document it was given, which
shares no cell with the key and the values. -/
def AggWrites (c : Cfg K J) (t : Nat → Val → List Val → M Nat) (f : K → J → List J → Except Err K) : Prop :=
  ∀ h A B a k v w vs ws, DocIs c h A a k → ValIs c h B v w → All2 (ValIs c h B) vs ws → (∀ b, A b → ¬ B b) →
    Does A h (t a v vs) (f k w ws) (fun h' a' k' => DocIs c h' (orNew (fun b => A b ∨ B b) h) a' k')

/-- Sorting moves values and writes to no cell. -/
def SortReads (c : Cfg K J) (s : List Val → M (List Val)) (f : List J → List J) : Prop :=
  ∀ h B vs ws, All2 (ValIs c h B) vs ws → ∃ vs', Gives (s vs) h (h, .ok vs') ∧ All2 (ValIs c h B) vs' (f ws)

/-- The join evaluator computes `f`, of the documents of the map it gets, and writes to no existing cell. -/
def JoinReads (c : Cfg K J) (e : HEv) (names : List String) (f : JEv K) : Prop :=
  ∀ h A a as ks, h[a]? = some (.map (names.zip (as.map .ref))) → as.length = names.length → All2 (DocIs c h A) as ks →
    Does nowhere h (e a) (f ks) (fun h' rs qs => All2 (DocIs c h' (orNew (fun b => A b ∨ b = a) h)) rs qs)

/-- The operator in memory is the abstract operator: the same operator, with evaluators that compute the same, and
a state with the same contents, inside `S`. -/
inductive OpIs (c : Cfg K J) (h : Heap) (S : Region) : HOp K → Op K J → Prop
  | project {e : HEv} {f : Ev K} : EvWrites c e f → OpIs c h S (.project e) (.project f)
  | select {e : HEv} {f : Ev K} : EvReads c e f → OpIs c h S (.select e) (.select f)
  | unwind {u : Unwind} {ex : K → Except Err (Option (List J))} {tr : K → J → Except Err K} :
    ElemsRead c u.extract ex → ElemWrites c u.transform tr → OpIs c h S (.unwind u) (.unwind ex tr)
  | gather {g : HGather} {G : Gather K J} :
    ValReads c g.key G.key → ValReads c g.val G.val → AggWrites c g.agg G.agg → SortReads c g.sort G.sort →
    OpIs c h S (.gather g) (.gather G)
  | distinct : OpIs c h S .distinct .distinct
  | integ {z : HZ K} {Z : ZSet K} : ZIs c h S z Z → OpIs c h S (.integ z) (.integ Z)
  | diff {z : HZ K} {Z : ZSet K} : ZIs c h S z Z → OpIs c h S (.diff z) (.diff Z)
  | delay {z : HZ K} {Z : ZSet K} : ZIs c h S z Z → OpIs c h S (.delay z) (.delay Z)
  | negate : OpIs c h S .negate .negate
  | projSel {p s : HEv} {p' s' : Ev K} : EvReads c p p' → EvReads c s s' → OpIs c h S (.projSel p s) (.projSel p' s')
  | selProjs {s : Option HEv} {s' : Option (Ev K)} {ps : List HEv} {ps' : List (Ev K)} :
    OptIs (EvReads c) s s' → All2 (EvReads c) ps ps' → OpIs c h S (.selProjs s ps) (.selProjs s' ps')

/-- The join in memory is the abstract join. -/
inductive JoinIs (c : Cfg K J) (h : Heap) (S : Region) : HJoin K → JoinOp K → Prop
  | snap {e : HEv} {names : List String} {f : JEv K} : JoinReads c e names f → JoinIs c h S (.snap e names) (.snap f names.length)
  | incr {e : HEv} {names : List String} {f : JEv K} {ps : List (HZ K)} {Ps : List (ZSet K)} :
    JoinReads c e names f → All2 (ZIs c h S) ps Ps → ps.length = names.length → JoinIs c h S (.incr e names ps) (.incr f names.length Ps)

/-- The Z-sets an operator keeps. -/
def HOp.kept : HOp K → List (HZ K)
  | .integ s => [s]
  | .diff p => [p]
  | .delay b => [b]
  | _ => []

/-- The Z-sets a join keeps. -/
def HJoin.kept : HJoin K → List (HZ K)
  | .incr _ _ ps => ps
  | _ => []

/-- The Z-sets each node of a graph keeps. -/
def HGraph.kept (g : HGraph K) : List (List (HZ K)) := (g.join.elim [] HJoin.kept) :: g.chain.map HOp.kept

/-- The cells reachable from documents of the Z-sets. -/
def Held (h : Heap) (zs : List (HZ K)) : Region := fun b => ∃ z ∈ zs, ∃ e ∈ z, Reach h (.ref e.2.1) b

/-- The cells reachable from documents that a graph keeps. -/
def HGraph.Holds (h : Heap) (g : HGraph K) : Region := Held h g.kept.flatten

/-- No cell is reachable from both. -/
def Apart (A B : Region) : Prop := ∀ b, A b → ¬ B b

/-- The graph in memory is the abstract graph, and what its nodes keep is separate. -/
structure GraphIs (c : Cfg K J) (h : Heap) (g : HGraph K) (G : Graph K J) : Prop where
  names : G.inputs.Nodup
  join : OptIs (fun j J' => JoinIs c h (Held h j.kept) j J') g.join G.join
  chain : All2 (fun o (nd : Node K J) => OpIs c h (Held h o.kept) o nd.op) g.chain G.chain
  apart : g.kept.Pairwise (fun x y => Apart (Held h x) (Held h y))

/-- One call of the executor: the environment changes memory from `h` to `h1`, but nothing the graph holds; it passes Z-sets
`ins` that share no cell with what the graph holds, and stand for `Ins`. -/
structure Call (c : Cfg K J) (h h1 : Heap) (g : HGraph K) (ins : List (HZ K)) (Ins : List (ZSet K)) : Prop where
  keeps : ∀ b, g.Holds h b → h1[b]? = h[b]?
  inputs : All2 (ZIs c h1 (Held h1 ins)) ins Ins
  apart : Apart (Held h1 ins) (g.Holds h1)

/-- Calls one after the other, with the results the caller sees right after each call. -/
inductive Session (c : Cfg K J) : Heap → HGraph K → List (List (ZSet K)) → List (Except Err (ZSet K)) → Prop
  | nil {h : Heap} {g : HGraph K} : Session c h g [] []
  | call {h h1 h2 : Heap} {g g' : HGraph K} {ins : List (HZ K)} {Ins : List (ZSet K)} {r : Except Err (HZ K)}
    {R : Except Err (ZSet K)} {Is : List (List (ZSet K))} {Rs : List (Except Err (ZSet K))} :
    Call c h h1 g ins Ins → Gives (g.process c ins) h1 (h2, g', r) → SameOutcome (ZIs c h2 (fun _ => True)) r R →
    Session c h2 g' Is Rs → Session c h g (Ins :: Is) (R :: Rs)

/-- What the abstract graph does with inputs in the order of the graph. -/
def callGraph (G : Graph K J) (Ins : List (ZSet K)) : Graph K J × Except Err (ZSet K) :=
  G.process (fun _ z => z) (G.inputs.zip Ins)

end Mem
end Dctl
