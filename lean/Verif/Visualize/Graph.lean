import Verif.Cache.Group
/-!
# The drawing of an operator (`pkg/visualize/visualize.go`)

Of the drawing only the edges with their end points and labels are modelled. Nodes are identified by their ids, as in the `dot` library: resources by their key, controllers
by their name. Colours, shapes, pipeline stages and the output formats (library code) are left out.
-/
set_option autoImplicit false
namespace Dctl

/-- `visualize.go:28-33` `ResourceRef`. -/
structure VRef where
  group : String
  version : String
  kind : String
  type : String
deriving DecidableEq

/-- `visualize.go:20-25` `ControllerNode`, without the pipeline. -/
structure VCtl where
  name : String
  sources : List VRef
  target : VRef
deriving DecidableEq

/-- `visualize.go:36-42` `Connection`. -/
structure VConn where
  fromCtl : String
  toCtl : String
  viewKind : String
  targetType : String
  sourceType : String
deriving DecidableEq

/-- `visualize.go:79-95` `buildResourceRef`. -/
def buildRef (group version : Option String) (kind type : String) : VRef := ⟨group.getD "", version.getD "", kind, type⟩

/-- `visualize.go:61-67` in `BuildGraph`: the reference of a source; the type defaults to a watcher. -/
def sourceRef (group version : Option String) (kind type : String) : VRef := buildRef group version kind (if type = "" then "Watcher" else type)

/-- `Resource` and `Source` or `Target` of a controller (`pkg/api/operator/v1alpha1/types.go`) as far as they are drawn: group, version, kind, type. -/
structure VRes where
  group : Option String
  version : Option String
  kind : String
  type : String
deriving DecidableEq

/-- A controller of an operator as far as it is drawn. -/
structure VSpec where
  name : String
  sources : List VRes
  target : VRes
deriving DecidableEq

/-- `visualize.go:45-76` `BuildGraph`, without the connections (`connections`) and the stages of the pipelines. -/
def visGraph (ctls : List VSpec) : List VCtl :=
  ctls.map fun c => ⟨c.name, c.sources.map fun s => sourceRef s.group s.version s.kind s.type, buildRef c.target.group c.target.version c.target.kind c.target.type⟩

/-- `strings.Contains` (library). -/
def containsStr (s sub : List Char) : Bool :=
  match s with
  | [] => sub.isEmpty
  | c :: cs => sub.isPrefixOf (c :: cs) || containsStr cs sub

/-- `visualize.go:147-149` `isView`. -/
def VRef.isView (r : VRef) : Bool := containsStr r.kind.toList "View".toList || containsStr r.group.toList "view.dcontroller.io".toList

/-- `visualize.go:152-154` `resourceKey`. -/
def VRef.key (r : VRef) : String := r.group ++ "/" ++ r.version ++ "/" ++ r.kind

/-- `visualize.go:110-125` in `buildConnections`: the producer of a view with its target type: the last controller with the view as target. -/
def viewProducer (key : String) : List VCtl → Option (String × String) → Option (String × String)
  | [], r => r
  | c :: cs, r => viewProducer key cs (if c.target.isView ∧ c.target.key = key then some (c.name, c.target.type) else r)

/-- `visualize.go:127-143` in `buildConnections`. -/
def connections (ctls : List VCtl) : List VConn :=
  ctls.flatMap fun c => c.sources.filterMap fun s =>
    if s.isView then
      match viewProducer s.key ctls none with
      | some (p, t) => some ⟨p, c.name, s.kind, t, s.type⟩
      | none => none
    else none

/-- `visualize.go:157-172` `IsTerminalView`. -/
def isTerminal (ctls : List VCtl) (c : VCtl) : Bool :=
  c.target.isView && !(ctls.any fun d => d.sources.any fun s => s.isView && s.key == c.target.key)

/-- An edge of the drawing: from, to, label. -/
abbrev VEdge := String × String × String

/-- The label of an edge, with a default (`visualize.go:249-252,286-289,333-336,343-346`). -/
def labelOr (d t : String) : String := if t = "" then d else t

/-- `visualize.go:233-259` in `BuildDotGraph`: edges from sources that are no views. -/
def sourceEdges (ctls : List VCtl) : List VEdge :=
  ctls.flatMap fun c => c.sources.filterMap fun s => if s.isView then none else some (s.key, c.name, labelOr "Watcher" s.type)

/-- `visualize.go:261-295` in `BuildDotGraph`: edges to targets that are no views, or terminal ones. -/
def targetEdges (ctls : List VCtl) : List VEdge :=
  ctls.filterMap fun c => if !c.target.isView || isTerminal ctls c then some (c.name, c.target.key, labelOr "Updater" c.target.type) else none

/-- `visualize.go:310-316` in `BuildDotGraph`: the view of a connection: the target of the first controller with the name that has a view as target. -/
def connView (ctls : List VCtl) (n : VConn) : VRef :=
  match ctls.find? (fun c => c.name == n.fromCtl && c.target.isView) with
  | some c => c.target
  | none => ⟨"", "", "", ""⟩

/-- `visualize.go:297-351` in `BuildDotGraph`: the two edges of every connection; controllers of connections always exist. -/
def viewEdges (ctls : List VCtl) : List VEdge :=
  (connections ctls).flatMap fun n =>
    [(n.fromCtl, (connView ctls n).key, labelOr "Updater" n.targetType), ((connView ctls n).key, n.toCtl, labelOr "Watcher" n.sourceType)]

/-- `visualize.go:193-354` `BuildDotGraph`: all edges. -/
def drawnEdges (ctls : List VCtl) : List VEdge := sourceEdges ctls ++ targetEdges ctls ++ viewEdges ctls

end Dctl
