import Verif.Search.Paths

/-!
Model of the routing graph container and the queries that look at single edges.

Sources: lanelet2_routing/include/lanelet2_routing/Forward.h (RelationType),
         lanelet2_routing/include/lanelet2_routing/internal/Graph.h,
         lanelet2_routing/src/RoutingGraph.cpp.

`P` is the type of lanelets-or-areas (`ConstLaneletOrArea`; a lanelet and its inversion are different
elements). `none` stands for undefined behaviour or non-termination.
-/
namespace Verif.Graph
open Verif.Search (Cost Rel PossiblePathsParams)

/-- Forward.h 56 : an enum over uint8_t used as a bit set -/
abbrev RelationType := BitVec 8

namespace RelationType
/-- Forward.h 57-64 -/
def None : RelationType := 0
/-- Forward.h 58 -/
def Successor : RelationType := 0b1
/-- Forward.h 59 -/
def Left : RelationType := 0b10
/-- Forward.h 60 -/
def Right : RelationType := 0b100
/-- Forward.h 61 -/
def AdjacentLeft : RelationType := 0b1000
/-- Forward.h 62 -/
def AdjacentRight : RelationType := 0b10000
/-- Forward.h 63 -/
def Conflicting : RelationType := 0b100000
/-- Forward.h 64 -/
def Area : RelationType := 0b1000000
/-- Forward.h 69 -/
def allRelations : RelationType := 0b1111111
end RelationType
open RelationType

/-- Graph.h 36-40 -/
structure EdgeInfo (K : Type) where
  routingCost : K
  costId : Nat
  relation : RelationType
deriving DecidableEq

/-- an edge of the adjacency list; internal/Graph.h 36-43 -/
structure BaseEdge (K : Type) where
  src : Nat
  dst : Nat
  info : EdgeInfo K
deriving DecidableEq

/-- Graph.h 107-243: vertices in order of insertion, edges in order of insertion (`vecS` for both out and in
edges, so the out edges and the in edges of a vertex are subsequences of this list). The look-up table
from primitives to vertices is the first vertex with this primitive (`emplace` does not overwrite). -/
structure RGraph (P K : Type) where
  numRoutingCosts : Nat
  vertices : List P
  edges : List (BaseEdge K)

variable {P K : Type} [DecidableEq P]

/-- What Graph.h 190-195 asks about a cost. -/
structure CostTests (K : Type) where
  isFinite : K → Bool
  negative : K → Bool

/-- Graph.h 114 -/
def RGraph.empty (n : Nat) : RGraph P K := ⟨n, [], []⟩

/-- Graph.h 171-177 -/
def RGraph.addVertex (g : RGraph P K) (p : P) : RGraph P K :=
  { g with vertices := g.vertices ++ [p] }

/-- Graph.h 224-231 -/
def RGraph.getVertex (g : RGraph P K) (p : P) : Option Nat := g.vertices.findIdx? (· == p)

/-- Graph.h 189-199; `Except.error` is the RoutingGraphError -/
def RGraph.addEdgeV (t : CostTests K) (g : RGraph P K) (src dst : Nat) (info : EdgeInfo K) :
    Except Unit (RGraph P K) :=
  if t.isFinite info.routingCost = false then .ok g
  else if t.negative info.routingCost then .error ()
  else .ok { g with edges := g.edges ++ [⟨src, dst, info⟩] }

/-- Graph.h 179-187 (in release mode, where the assertion is not compiled) -/
def RGraph.addEdge (t : CostTests K) (g : RGraph P K) (src dst : P) (info : EdgeInfo K) :
    Except Unit (RGraph P K) :=
  match g.getVertex src, g.getVertex dst with
  | some u, some v => g.addEdgeV t u v info
  | _, _ => .ok g

/-- Graph.h 88-91: the edge filter -/
def passes (costId : Nat) (relations : RelationType) (i : EdgeInfo K) : Bool :=
  i.costId == costId && (relations == allRelations || (relations &&& i.relation) != 0)

/-- out edges of a vertex in a filtered graph; internal/Graph.h 63-100, 234-239 -/
def RGraph.outEdges (g : RGraph P K) (costId : Nat) (relations : RelationType) (v : Nat) :
    List (BaseEdge K) :=
  g.edges.filter fun e => e.src == v && passes costId relations e.info

/-- in edges of a vertex in a filtered graph; internal/Graph.h 63-100, 234-239 -/
def RGraph.inEdges (g : RGraph P K) (costId : Nat) (relations : RelationType) (v : Nat) :
    List (BaseEdge K) :=
  g.edges.filter fun e => e.dst == v && passes costId relations e.info

/-- Graph.h 234-239: `Except.error` is the InvalidInputError -/
def RGraph.getFilteredGraph (g : RGraph P K) (costId : Nat) (relations : RelationType) :
    Except Unit (Nat × RelationType) :=
  if costId ≥ g.numRoutingCosts then .error () else .ok (costId, relations)

/-- Graph.h 121-123 -/
def withLaneChanges : RelationType := Successor ||| Left ||| Right
/-- Graph.h 125-127 -/
def withoutLaneChanges : RelationType := Successor
/-- Graph.h 129-132 -/
def withAreasAndLaneChanges : RelationType := Successor ||| Left ||| Right ||| Area
/-- Graph.h 134-136 -/
def withAreasWithoutLaneChanges : RelationType := Successor ||| Area
/-- Graph.h 138-140 -/
def left : RelationType := Left
/-- Graph.h 141-143 -/
def somehowLeft : RelationType := Left ||| AdjacentLeft
/-- Graph.h 145-147 -/
def right : RelationType := Right
/-- Graph.h 148-150 -/
def somehowRight : RelationType := Right ||| AdjacentRight
/-- Graph.h 152-154 -/
def adjacentLeft : RelationType := AdjacentLeft
/-- Graph.h 156-158 -/
def adjacentRight : RelationType := AdjacentRight
/-- Graph.h 160-162 -/
def conflicting : RelationType := Conflicting
/-- Graph.h 164-166 -/
def withoutConflicting : RelationType := allRelations ||| ~~~Conflicting

/-- `boost::edge(u, v, g)` of the adjacency list: the first out edge of `u` that leads to `v`; internal/Graph.h 209-221 -/
def RGraph.firstEdge (g : RGraph P K) (u v : Nat) : Option (BaseEdge K) :=
  g.edges.find? fun e => e.src == u && e.dst == v

/-- Graph.h 203-205 -/
def RGraph.getEdgeInfo (g : RGraph P K) (src dst : P) : Option (EdgeInfo K) :=
  match g.getVertex src, g.getVertex dst with
  | some u, some v => (g.firstEdge u v).map (·.info)
  | _, _ => none

/-- Graph.h 210-221 on a filtered graph: `boost::edge` of a filtered graph looks up the first edge of the
underlying graph and then applies the filter to it. -/
def RGraph.getEdgeInfoFor (g : RGraph P K) (src dst : P) (costId : Nat) (relations : RelationType) :
    Option (EdgeInfo K) :=
  match g.getVertex src, g.getVertex dst with
  | some u, some v =>
    match g.firstEdge u v with
    | some e => if passes costId relations e.info then some e.info else none
    | none => none
  | _, _ => none

/-- RoutingGraph.cpp 436-444 -/
def RGraph.routingRelation (g : RGraph P K) (src dst : P) (includeConflicting : Bool) :
    Option RelationType :=
  (if includeConflicting then g.getEdgeInfo src dst
   else g.getEdgeInfoFor src dst 0 withoutConflicting).map (·.relation)

/-- RoutingGraph.cpp 160-178 -/
def RGraph.getAllEdges (g : RGraph P K) (costId : Nat) (relations : RelationType) (p : P)
    (edgesOut : Bool) : List P :=
  match g.getVertex p with
  | none => []
  | some v =>
    if edgesOut then (g.outEdges costId relations v).filterMap fun e => g.vertices[e.dst]?
    else (g.inEdges costId relations v).filterMap fun e => g.vertices[e.src]?

/-- RoutingGraph.cpp 180-191; `isLanelet` tells lanelets from areas -/
def RGraph.getLaneletEdges (g : RGraph P K) (isLanelet : P → Bool) (costId : Nat)
    (relations : RelationType) (p : P) (edgesOut : Bool) : List P :=
  (g.getAllEdges costId relations p edgesOut).filter isLanelet

/-- RoutingGraph.cpp 446-449 -/
def RGraph.following (g : RGraph P K) (isLanelet : P → Bool) (p : P) (lc : Bool) : List P :=
  g.getLaneletEdges isLanelet 0 (if lc then withLaneChanges else withoutLaneChanges) p true

/-- RoutingGraph.cpp 460-463 -/
def RGraph.previous (g : RGraph P K) (isLanelet : P → Bool) (p : P) (lc : Bool) : List P :=
  g.getLaneletEdges isLanelet 0 (if lc then withLaneChanges else withoutLaneChanges) p false

/-- RoutingGraph.cpp 451-458; dereferencing an empty optional is undefined behaviour (`none`).
`routingRelation`'s default is `includeConflicting = false` (RoutingGraph.h 184-185). -/
def RGraph.followingRelations (g : RGraph P K) (isLanelet : P → Bool) (p : P) (lc : Bool) :
    Option (List (P × RelationType)) :=
  Search.allSome ((g.following isLanelet p lc).map fun q =>
    (g.routingRelation p q false).map fun r => (q, r))

/-- RoutingGraph.cpp 465-478 in release mode -/
def RGraph.previousRelations (g : RGraph P K) (isLanelet : P → Bool) (p : P) (lc : Bool) :
    List (P × RelationType) :=
  (g.previous isLanelet p lc).filterMap fun q =>
    (g.routingRelation q p false).map fun r => (q, r)

/-- RoutingGraph.cpp 570-572 -/
def RGraph.conflictingOf (g : RGraph P K) (p : P) : List P := g.getAllEdges 0 conflicting p true

/-- RoutingGraph.cpp 106-130 with `ifLaneletInGraph` (141-148); `throwOnError` is never set -/
def RGraph.neighbour (g : RGraph P K) (isLanelet : P → Bool) (costId : Nat) (rel : RelationType)
    (p : P) : Option P :=
  match g.getVertex p with
  | none => none
  | some v =>
    match g.outEdges costId rel v with
    | [] => none
    | e :: _ =>
      match g.vertices[e.dst]? with
      | some q => if isLanelet q then some q else none
      | none => none

/-- RoutingGraph.cpp 150-158 -/
def untilEnd {α : Type} (next : α → Option α) (v : α) : Option (List α) :=
  match next v with
  | none => some []
  | some w => do return w :: (← untilEnd next w)
partial_fixpoint

/-- RoutingGraph.cpp 514-516, 542-544 (`lefts`, `rights`), 518-520, 546-548 (`adjacent…`) -/
def RGraph.neighbours (g : RGraph P K) (isLanelet : P → Bool) (costId : Nat) (rel : RelationType)
    (p : P) : Option (List P) :=
  untilEnd (g.neighbour isLanelet costId rel) p

/-- RoutingGraph.cpp 480-490 -/
def RGraph.besides (g : RGraph P K) (isLanelet : P → Bool) (costId : Nat) (p : P) :
    Option (List P) := do
  let l ← g.neighbours isLanelet costId left p
  let r ← g.neighbours isLanelet costId right p
  return l.reverse ++ [p] ++ r

/-- RoutingGraph.cpp 522-540 and 550-568: `a` is the first kind of neighbour, `b` the second one -/
def relations {α : Type} (nextA nextB : α → Option α) (a b : RelationType) (v : α) :
    Option (List (α × RelationType)) := do
  let as ← untilEnd nextA v
  let cur := as.getLast?.getD v
  let bs ← untilEnd nextB cur
  let cur := bs.getLast?.getD cur
  if as.isEmpty ∧ bs.isEmpty then some []
  else
    let rest ← relations nextA nextB a b cur
    return as.map (·, a) ++ bs.map (·, b) ++ rest
partial_fixpoint

/-- RoutingGraph.cpp 522-540 -/
def RGraph.leftRelations (g : RGraph P K) (isLanelet : P → Bool) (costId : Nat) (p : P) :
    Option (List (P × RelationType)) :=
  relations (g.neighbour isLanelet costId left) (g.neighbour isLanelet costId adjacentLeft)
    Left AdjacentLeft p

/-- RoutingGraph.cpp 550-568 -/
def RGraph.rightRelations (g : RGraph P K) (isLanelet : P → Bool) (costId : Nat) (p : P) :
    Option (List (P × RelationType)) :=
  relations (g.neighbour isLanelet costId right) (g.neighbour isLanelet costId adjacentRight)
    Right AdjacentRight p

/-! ### the queries of Verif/Search on the routing graph -/

/-- the relation of an edge as seen by the search (only `Successor` matters there); helper that connects Verif.Graph with Verif.Search (internal/Graph.h 36-43) -/
def toRel (r : RelationType) : Rel :=
  if r = Successor then .successor else if r = Left then .left else if r = Right then .right
  else if r = AdjacentLeft then .adjacentLeft else if r = AdjacentRight then .adjacentRight
  else if r = Conflicting then .conflicting else .area

/-- The filtered graph as a graph of the search. internal/Graph.h 234-239 -/
def RGraph.filtered (g : RGraph P K) (costId : Nat) (relations : RelationType) : Search.Graph K :=
  fun v => (g.outEdges costId relations v).map fun e =>
    ⟨e.dst, e.info.routingCost, toRel e.info.relation⟩

/-- RoutingGraph.cpp 328-353: the complete function. -/
def RGraph.shortestPath [Cost K] (g : RGraph P K) (pick : Nat → (Nat → K) → List Nat → Nat)
    (src dst : P) (costId : Nat) (lc areas : Bool) : Except Unit (Option (Option (List P))) :=
  match g.getVertex src, g.getVertex dst with
  | some u, some v => do
    let (costId, rels) ← g.getFilteredGraph costId
      (if lc then if areas then withAreasAndLaneChanges else withLaneChanges
       else if areas then withAreasWithoutLaneChanges else withoutLaneChanges)
    match Search.shortestPathImpl (g.filtered costId rels) pick u v with
    | none => .ok none
    | some none => .ok (some none)
    | some (some p) =>
      .ok ((Search.allSome (p.map fun x => x.bind fun v => g.vertices[v]?)).map some)
  | _, _ => .ok (some none)

/-- RoutingGraph.cpp 574-592 (`backw = false`), 594-602 (`backw = true`). -/
def RGraph.reachableSet [Cost K] (g : RGraph P K) (pick : Nat → (Nat → K) → List Nat → Nat)
    (backw : Bool) (src : P) (limit : K) (costId : Nat) (rels : RelationType) :
    Except Unit (Option (List P)) :=
  match g.getVertex src with
  | none => .ok (some [])
  | some u => do
    let (costId, rels) ← g.getFilteredGraph costId rels
    let G := g.filtered costId rels
    let n := g.vertices.length
    match Search.reachableSetImpl (if backw then Search.reverse G n else G) n pick u
      (Search.stopIfCostMoreThan true limit) with
    | none => .ok none
    | some r => .ok (Search.allSome (r.map fun v => g.vertices[v]?))

end Verif.Graph
