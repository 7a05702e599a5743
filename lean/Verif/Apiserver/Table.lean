import Verif.Cache.View
/-!
# Objects as table rows (`pkg/apiserver/storage.go:344-568`)

Go maps are iterated in any order: the functions on labels take the entries in the order of the iteration.
-/
set_option autoImplicit false
namespace Dctl

/-- `storage.go:482-487` in `extractConditionsSummary`: the entry of `wellKnownTypes`, 0 if there is none. -/
def condRank (t : String) : Nat :=
  if t = "Ready" then 1 else if t = "Available" then 2 else if t = "Progressing" then 3 else if t = "Degraded" then 4 else 0

/-- `storage.go:503`: `strings.Split(existing, ":")[0]`. -/
def condTypeOf (pair : String) : String := String.ofList (pair.toList.takeWhile (· != ':'))

/-- `storage.go:501-512`: insert in priority order. -/
def insertCond (pair : String) (rank : Nat) : List String → List String
  | [] => [pair]
  | x :: xs => if condRank (condTypeOf x) > rank then pair :: x :: xs else x :: insertCond pair rank xs

/-- `storage.go:489-517`: the loop over the conditions, with the lists of well-known and of other conditions. -/
def condLoop : List Json → List String → List String → List String × List String
  | [], p, o => (p, o)
  | .map m :: cs, p, o =>
    match SMap.get m "type", SMap.get m "status" with
    | some (.str t), some (.str s) =>
      if condRank t = 0 then condLoop cs p (o ++ [t ++ ":" ++ s]) else condLoop cs (insertCond (t ++ ":" ++ s) (condRank t) p) o
    | _, _ => condLoop cs p o
  | _ :: cs, p, o => condLoop cs p o

/-- `storage.go:526-533`, `storage.go:549-556`: at most three entries. -/
def showThree (l : List String) : String :=
  if l.length > 3 then ",".intercalate (l.take 3) ++ " +" ++ toString (l.length - 3) ++ " more" else ",".intercalate l

/-- `storage.go:464-534` `extractConditionsSummary`. -/
def conditionsSummary (o : Obj) : String :=
  match nested o ["status", "conditions"] with
  | some (.list cs) =>
    let r := condLoop cs [] []
    if r.1 ++ r.2 = [] then "<none>" else showThree (r.1 ++ r.2)
  | _ => "<none>"

/-- `storage.go:538-557` `formatLabels`, with the labels in the order of the iteration. -/
def formatLabels (labels : List (String × String)) : String :=
  if labels = [] then "<none>" else showThree (labels.map (fun p => p.1 ++ "=" ++ p.2))

/-- `storage.go:561-568` `formatAnnotations`. -/
def formatAnnotations (n : Nat) : String := if n = 0 then "<none>" else toString n

/-- `storage.go:388-430` `getColumnDefinitions`: the names of the columns. -/
def columnNames (namespaced : Bool) : List String :=
  let columns := ["Name", "Conditions", "Labels", "Annotations"]
  if namespaced then "Namespace" :: columns else columns

/-- `storage.go:433-458` `objectToTableRow`: the cells; `order` is the order in which the labels are visited. -/
def tableRow (namespaced : Bool) (order : List (String × String) → List (String × String)) (o : Obj) : List String :=
  let labels := formatLabels (order ((getStrings o "labels").getD []))
  let annotations := formatAnnotations ((getStrings o "annotations").getD []).length
  if namespaced then [(objKey o).1, (objKey o).2, conditionsSummary o, labels, annotations] else [(objKey o).2, conditionsSummary o, labels, annotations]

/-- `storage.go:347-384` `ConvertToTable` of a list: a row for every object. Each row visits the labels in its own order. -/
def tableRows (namespaced : Bool) (order : Nat → List (String × String) → List (String × String)) (os : List Obj) : List (List String) :=
  os.zipIdx.map (fun p => tableRow namespaced (order p.2) p.1)

end Dctl
