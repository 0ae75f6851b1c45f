import Verif.Route.Query

/-!
Model of the debug maps of routing graphs and routes, and of what is exported from a routing graph.

Sources: lanelet2_routing/src/RoutingGraph.cpp 85-98, 736-852, lanelet2_routing/src/Route.cpp 24-78, 202-223,
         lanelet2_routing/include/lanelet2_routing/internal/RoutingGraphVisualization.h, lanelet2_routing/include/lanelet2_routing/Forward.h 82-129,
         lanelet2_core/src/LaneletMap.cpp 75-80, 674-683, 818-822.

`P` is the type of lanelets-or-areas; `idOf` gives their id. A lanelet and its inversion are different elements with the same id. Positions of points
(centroids) are not modelled: a point says of which element it is the centroid.
-/
set_option linter.unusedSectionVars false
namespace Verif.Debug
open Verif.Graph Verif.Graph.RelationType
open Verif.Route (Route)

variable {P K : Type} [DecidableEq P]

/-! ### maps of points and linestrings -/

/-- `unordered_map(begin, end)` as used by toMap, LaneletMap.cpp 75-80: later entries with the same key are dropped -/
def toMap {α β : Type} [DecidableEq α] (l : List (α × β)) : List (α × β) :=
  l.foldl (fun m x => if x.1 ∈ m.map (·.1) then m else m ++ [x]) []

/-- the layers of points and linestrings of a map; LaneletMap.h 318-325. The elements `A`, `B` are handles. `next` is the counter for new ids (Utilities.h, getId). -/
structure DMap (A B : Type) where
  points : List (Int × A)
  lines : List (Int × B)
  next : Int

/-- createMap from linestrings, LaneletMap.cpp 818-822; `ends` are the points of a linestring -/
def createMap {A B : Type} (idP : A → Int) (idL : B → Int) (ends : B → List A) (next : Int) (ls : List B) : DMap A B where
  points := toMap ((ls.flatMap ends).map fun p => (idP p, p))
  lines := toMap (ls.map fun l => (idL l, l))
  next := next

/-- LaneletMap::add of a point, LaneletMap.cpp 674-683. A point without an id gets a new one. -/
def DMap.addPoint {A B : Type} (idP : A → Int) (m : DMap A B) (p : A) : DMap A B :=
  if idP p = 0 then { m with points := m.points ++ [(m.next, p)], next := m.next + 1 }
  else if idP p ∈ m.points.map (·.1) then m
  else { m with points := m.points ++ [(idP p, p)], next := max m.next (idP p + 1) }

/-! ### RoutingGraph::getDebugLaneletMap -/

/-- allowedRelationsfromConfiguration, RoutingGraph.cpp 761-772 -/
def allowedRelations (adjacent conflicting : Bool) : RelationType :=
  let r := Successor ||| Left ||| Right ||| Area
  let r := if adjacent then r ||| AdjacentLeft ||| AdjacentRight else r
  if conflicting then r ||| Conflicting else r

/-- a linestring of the debug map, createLineString, RoutingGraph.cpp 774-782, with the attributes of addEdge 828-829. The end points are given by the
elements they stand for. Costs are kept as numbers, not as text. -/
structure DLine (P K : Type) where
  id : Int
  first : P
  last : P
  relation : RelationType
  cost : K
  reverse : Option (RelationType × K) := none

/-- DebugMapBuilder, RoutingGraph.cpp 839-841: pointMap_ (an element has one point, so the key says it all), lineStringMap_, and the counter for ids -/
structure Builder (P K : Type) where
  points : List P
  lines : List ((P × P) × DLine P K)
  next : Int

/-- getPair, RoutingGraph.cpp 813-815 -/
def getPair (idOf : P → Int) (p q : P) : P × P := if idOf p < idOf q then (p, q) else (q, p)

/-- addPoint, RoutingGraph.cpp 817-822 -/
def addPoint (p : P) (ps : List P) : List P := if p ∈ ps then ps else ps ++ [p]

/-- addEdge, RoutingGraph.cpp 824-837; both points have been added before -/
def addEdge (idOf : P → Int) (p q : P) (info : EdgeInfo K) (s : List ((P × P) × DLine P K) × Int) : List ((P × P) × DLine P K) × Int :=
  let pair := getPair idOf p q
  if pair ∈ s.1.map (·.1) then
    (s.1.map fun l => if l.1 = pair then (l.1, { l.2 with reverse := some (info.relation, info.routingCost) }) else l, s.2)
  else (s.1 ++ [(pair, ⟨s.2, p, q, info.relation, info.routingCost, none⟩)], s.2 + 1)

/-- visitVertex, RoutingGraph.cpp 802-811 -/
def visitVertex (idOf : P → Int) (g : RGraph P K) (costId : Nat) (rels : RelationType) (s : Builder P K) (x : P × Nat) : Builder P K :=
  (g.outEdges costId rels x.2).foldl (fun s e =>
    match g.vertices[e.dst]? with
    | none => s
    | some q =>
      let l := addEdge idOf x.1 q e.info (s.lines, s.next)
      ⟨addPoint q s.points, l.1, l.2⟩)
    { s with points := addPoint x.1 s.points }

/-- run, RoutingGraph.cpp 788-799. `loa` is the look-up table of the graph in the order of the hash map; `shuffleP` and `shuffleL` are the orders of the
hash maps of points and linestrings. -/
def runDebug (idOf : P → Int) (g : RGraph P K) (costId : Nat) (rels : RelationType) (loa : List (P × Nat)) (shuffleP : List P → List P)
    (shuffleL : List ((P × P) × DLine P K) → List ((P × P) × DLine P K)) (next : Int) : DMap P (DLine P K) :=
  let s := loa.foldl (visitVertex idOf g costId rels) ⟨[], [], next⟩
  let m := createMap idOf (·.id) (fun l => [l.first, l.last]) s.next ((shuffleL s.lines).map (·.2))
  (shuffleP s.points).foldl (DMap.addPoint idOf) m

/-- getDebugLaneletMap, RoutingGraph.cpp 844-852; the error is the InvalidInputError -/
def getDebugLaneletMap (idOf : P → Int) (g : RGraph P K) (costId : Nat) (adjacent conflicting : Bool) (loa : List (P × Nat)) (shuffleP : List P → List P)
    (shuffleL : List ((P × P) × DLine P K) → List ((P × P) × DLine P K)) (next : Int) : Except Unit (DMap P (DLine P K)) :=
  if costId ≥ g.numRoutingCosts then .error ()
  else .ok (runDebug idOf g costId (allowedRelations adjacent conflicting) loa shuffleP shuffleL next)

/-! ### Route::getDebugLaneletMap -/

/-- a point of the debug map of a route: the element whose centroid it is and the attribute `lane_id` (createAndAddPoint, Route.cpp 33-42), and whether
it has the attribute `shortest_path` (216). The id of a point that was not made by createAndAddPoint is invalid. -/
structure RPoint (P : Type) where
  id : Int := 0
  of : Option (P × Nat) := none
  shortest : Bool := false

/-- a linestring of the debug map of a route, Route.cpp 62-66: the ids of its end points and the values of its attributes `relation_1`, `relation_2`, … and
`relation_reverse_1`, `relation_reverse_2`, … -/
structure RLine where
  front : Int
  back : Int
  forward : List RelationType
  reverse : List RelationType := []

/-- createAndAddPoint unless there is a point already, Route.cpp 33-42, 51-54, 58-61 -/
def ensurePoint (idOf : P → Int) (p : P) (lane : Nat) (ps : List (Int × RPoint P)) : List (Int × RPoint P) :=
  if idOf p ∈ ps.map (·.1) then ps else ps ++ [(idOf p, ⟨idOf p, some (p, lane), false⟩)]

/-- std::minmax, Route.cpp 55 -/
def minmax (a b : Int) : Int × Int := if b < a then (b, a) else (a, b)

/-- addRelation, Route.cpp 49-78. The loop over the names of attributes stops at the first unused one, so that values are appended. -/
def addRelation (idOf : P → Int) (p q : P) (lp lq : Nat) (rel : RelationType) (s : List ((Int × Int) × RLine) × List (Int × RPoint P)) :
    List ((Int × Int) × RLine) × List (Int × RPoint P) :=
  let ps := ensurePoint idOf p lp s.2
  let pair := minmax (idOf p) (idOf q)
  if pair ∈ s.1.map (·.1) then
    (s.1.map fun l => if l.1 = pair then
        (l.1, if l.2.front = idOf p then { l.2 with forward := l.2.forward ++ [rel] } else { l.2 with reverse := l.2.reverse ++ [rel] }) else l, ps)
  else (s.1 ++ [(pair, ⟨idOf p, idOf q, [rel], []⟩)], ensurePoint idOf q lq ps)

/-- `vertexMap[el.id()].setAttribute("shortest_path", true)`, Route.cpp 216: makes an empty point if there is none -/
def markShortest (id : Int) (ps : List (Int × RPoint P)) : List (Int × RPoint P) :=
  if id ∈ ps.map (·.1) then ps.map fun x => if x.1 = id then (x.1, { x.2 with shortest := true }) else x
  else ps ++ [(id, { shortest := true })]

/-- Route::getDebugLaneletMap, Route.cpp 202-223. The linestrings have no id (62). `ordL` and `ordP` are the orders in which the maps are iterated
(ascending keys; the theorems hold for any order). -/
def routeDebugMap (idOf : P → Int) (r : Route P K) (ordL : List ((Int × Int) × RLine) → List ((Int × Int) × RLine))
    (ordP : List (Int × RPoint P) → List (Int × RPoint P)) (next : Int) : DMap (RPoint P) RLine :=
  let g := r.graph.graph
  let edges := (List.range g.vertices.length).flatMap fun v => g.edges.filter fun e => e.src == v
  let s := edges.foldl (fun s e =>
    match g.vertices[e.src]?, g.vertices[e.dst]? with
    | some p, some q => addRelation idOf p q (r.graph.laneId e.src) (r.graph.laneId e.dst) e.info.relation s
    | _, _ => s) (([], []) : List ((Int × Int) × RLine) × List (Int × RPoint P))
  let ps := r.shortestPath.foldl (fun ps p => markShortest (idOf p) ps) s.2
  let m := createMap RPoint.id (fun _ => 0) (fun l => (ps.filter fun x => x.1 == l.front || x.1 == l.back).map (·.2)) next ((ordL s.1).map (·.2))
  ((ordP ps).map (·.2)).foldl (DMap.addPoint RPoint.id) m

/-! ### export -/

/-- relationToString, Forward.h 83-103 -/
def relationToString (r : RelationType) : String :=
  if r = RelationType.None then "None" else if r = Successor then "Successor" else if r = Left then "Left" else if r = Right then "Right"
  else if r = AdjacentLeft then "AdjacentLeft" else if r = AdjacentRight then "AdjacentRight" else if r = Conflicting then "Conflicting"
  else if r = Area then "Area" else ""

/-- relationToColor, Forward.h 105-125 -/
def relationToColor (r : RelationType) : String :=
  if r = Successor then "green" else if r = Left then "blue" else if r = Right then "magenta" else if r = Conflicting then "red"
  else if r = AdjacentLeft ∨ r = AdjacentRight then "black" else if r = Area then "yellow" else ""

/-- what is exported about an edge: EdgeWriterGraphViz, RoutingGraphVisualization.h 38-56 -/
structure VizEdge (K : Type) where
  src : Nat
  dst : Nat
  label : String
  color : String
  weight : Option K
  costId : Nat

/-- EdgeWriterGraphViz, RoutingGraphVisualization.h 43-52 -/
def vizEdge (e : BaseEdge K) : VizEdge K where
  src := e.src
  dst := e.dst
  label := relationToString e.info.relation
  color := relationToColor e.info.relation
  weight := if e.info.relation ≠ AdjacentLeft ∧ e.info.relation ≠ AdjacentRight ∧ e.info.relation ≠ Conflicting then some e.info.routingCost else none
  costId := e.info.costId

/-- why an export fails -/
inductive ExportError | invalidInput | cannotOpen
  deriving DecidableEq

/-- exportGraphViz, RoutingGraph.cpp 748-758, RoutingGraphVisualization.h 63-93: the labels of the vertices and the edges in the order of the vertices;
`opens` tells whether the file can be opened. The syntax of the file is not modelled. -/
def exportGraphViz (idOf : P → Int) (g : RGraph P K) (filename : String) (exclude : RelationType) (costId : Nat) (opens : Bool) :
    Except ExportError (List Int × List (VizEdge K)) :=
  if filename = "" then .error .invalidInput
  else if costId ≥ g.numRoutingCosts then .error .invalidInput
  else if opens = false then .error .cannotOpen
  else .ok (g.vertices.map idOf, ((List.range g.vertices.length).flatMap (g.outEdges costId (allRelations &&& ~~~exclude))).map vizEdge)

/-- exportGraphML, RoutingGraph.cpp 736-746, RoutingGraphVisualization.h 97-130: the edges with the attributes `relation` and `routingCost` -/
def exportGraphML (g : RGraph P K) (filename : String) (exclude : RelationType) (costId : Nat) (opens : Bool) :
    Except ExportError (List P × List (Nat × Nat × String × K)) :=
  if filename = "" then .error .invalidInput
  else if costId ≥ g.numRoutingCosts then .error .invalidInput
  else if opens = false then .error .cannotOpen
  else .ok (g.vertices, ((List.range g.vertices.length).flatMap (g.outEdges costId (allRelations &&& ~~~exclude))).map fun e =>
    (e.src, e.dst, relationToString e.info.relation, e.info.routingCost))

end Verif.Debug
