import Verif.Graph.Model
import Mathlib.Logic.Function.Basic
import Mathlib.Data.List.Dedup
import Mathlib.Data.List.Rotate

/-!
Model of the construction of routes and of the queries on them.

Sources: lanelet2_routing/src/RouteBuilder.cpp, lanelet2_routing/src/Route.cpp,
         lanelet2_routing/include/lanelet2_routing/internal/GraphUtils.h, internal/Graph.h.

A filtered graph is the list of the edges that pass its edge filter, with its vertex filter as a function; `boost::filtered_graph` applies the
vertex filter to the target of out edges and to the source of in edges. A `std::set` of vertices is a list without repetitions.

The outer `Option` is `none` for a loop that does not end; `Except.error` is undefined behaviour or an exception.
-/
namespace Verif.Route
open Verif.Graph Verif.Graph.RelationType

variable {P K : Type} [DecidableEq P]

/-- The exceptions of RouteBuilder.cpp 276-455, and undefined behaviour. -/
inductive Fault where
  | ub | negativeCost | invalidInput
  deriving DecidableEq

/-! ### GraphUtils.h -/

/-- hasRelation, GraphUtils.h 24-27 -/
def hasRel (r : RelationType) (e : BaseEdge K) : Bool := (e.info.relation &&& r) != 0

/-- out edges of a vertex; RouteBuilder.cpp (boost::out_edges) -/
def outE (E : List (BaseEdge K)) (v : Nat) : List (BaseEdge K) := E.filter fun e => e.src == v

/-- in edges of a vertex; RouteBuilder.cpp (boost::in_edges) -/
def inE (E : List (BaseEdge K)) (v : Nat) : List (BaseEdge K) := E.filter fun e => e.dst == v

/-- getNext, GraphUtils.h 28-36 -/
def getNext (r : RelationType) (E : List (BaseEdge K)) (v : Nat) : Option Nat := ((outE E v).find? (hasRel r)).map (·.dst)

/-- the loops of anySidewayNeighbourIs, GraphUtils.h 79-81, 86-88 -/
def sideLoop (next : Nat → Option Nat) (f : Nat → Bool) (cur : Option Nat) : Option Bool :=
  match cur with
  | none => some false
  | some v => if f v then some true else sideLoop next f (next v)
partial_fixpoint

/-- anySidewayNeighbourIs, GraphUtils.h 76-90 -/
def anySideway (E : List (BaseEdge K)) (f : Nat → Bool) (v : Nat) : Option Bool := do
  if ← sideLoop (getNext Left E) f (some v) then return true
  else sideLoop (getNext Right E) f (getNext Right E v)

/-- OriginalGraphFilter, GraphUtils.h 109-128 -/
def original (g : RGraph P K) (lc : Bool) (costId : Nat) : List (BaseEdge K) :=
  let mask := Successor ||| Conflicting
  let mask := if lc then mask ||| (Left ||| Right ||| AdjacentLeft ||| AdjacentRight) else mask
  g.edges.filter fun e => e.info.costId == costId && hasRel mask e

/-- OnlyDrivableEdgesFilter, GraphUtils.h 143-159 -/
def drivable (e : BaseEdge K) : Bool := hasRel (Successor ||| Left ||| Right) e

/-- NoConflictingFilter, GraphUtils.h 163-174 -/
def noConflicting (e : BaseEdge K) : Bool := decide (e.info.relation ≠ Conflicting)

/-- NextToRouteFilter, GraphUtils.h 177-200 -/
def nextToRoute (E : List (BaseEdge K)) (R : List Nat) (v : Nat) : Bool :=
  decide (v ∈ R) || (outE E v).any fun e => decide (e.dst ∈ R) || decide (e.src ∈ R)

/-- OnlyDrivableEdgesWithinFilter, GraphUtils.h 203-218 -/
def drivableWithin (within : List Nat) (e : BaseEdge K) : Bool := drivable e && (!hasRel Successor e || !decide (e.src ∈ within))

/-- ConflictingSectionFilter, GraphUtils.h 221-262; the pair is isNeighbour, isConflicting -/
def conflictingSection (E : List (BaseEdge K)) (R : List Nat) (v : Nat) : Bool :=
  if v ∈ R then false
  else
    let s := (outE E v).foldl (fun (s : Bool × Bool) e =>
      if e.dst ∉ R then s
      else
        let s := if hasRel (Left ||| Right) e then
            let n := s.1 || (outE E e.dst).any fun o => o.dst == e.src && hasRel (Left ||| Right) o
            (n, s.2 || !n)
          else s
        (s.1, s.2 || hasRel (Conflicting ||| AdjacentLeft ||| AdjacentRight) e)) (false, false)
    s.2 && !s.1

/-- OnRouteAndConflictFilter, GraphUtils.h 265-298 -/
def onRouteAndConflict (E : List (BaseEdge K)) (R conflictWith : List Nat) (start finish : Nat) (v : Nat) : Option Bool :=
  anySideway E (fun u => decide (v ∈ R) && (u == start || u == finish ||
    (outE E u).any fun e => hasRel (Conflicting ||| AdjacentLeft ||| AdjacentRight) e && decide (e.dst ∈ conflictWith))) v

/-- ConnectedPathIterator, GraphUtils.h 323-392: depth first search with the paths it reports. The stack holds the vertices that are not finished
(the path, last vertex first) with the rest of their successors; `forward` is movingForward_. -/
def dfsLoop (out : Nat → Option (List Nat)) (stack : List (Nat × List Nat)) (seen : List Nat) (forward : Bool) : Option (List (List Nat)) :=
  match stack with
  | [] => some []
  | (v, []) :: st => do
    let rest ← dfsLoop out st seen false
    return if forward then (((v, []) :: st).map Prod.fst).reverse :: rest else rest
  | (v, w :: ws) :: st =>
    if w ∈ seen then dfsLoop out ((v, ws) :: st) seen forward
    else do
      let o ← out w
      dfsLoop out ((w, o) :: (v, ws) :: st) (w :: seen) true
partial_fixpoint

/-- forEachPath, GraphUtils.h 359-366: the paths in the order of the calls -/
def paths (out : Nat → Option (List Nat)) (start : Nat) : Option (List (List Nat)) := do
  let o ← out start
  dfsLoop out [(start, o)] [start] true

/-- hasPathFromTo, GraphUtils.h 369-385; the exception that ends the search early is not modelled -/
def hasPathFromTo (out : Nat → Option (List Nat)) (src dst : Nat) : Option Bool := do
  return (← paths out src).any fun p => decide (dst ∈ p)

/-! ### RouteBuilder.cpp -/

/-- boost::breadth_first_visit: one vertex of the queue; newly seen targets are queued; RouteBuilder.cpp 17-21 -/
def discover (ts : List Nat) (q seen : List Nat) : List Nat × List Nat :=
  ts.foldl (fun s t => if t ∈ s.2 then s else (s.1 ++ [t], s.2 ++ [t])) (q, seen)

/-- boost::breadth_first_visit: the vertices in the order in which they are examined. The visitors cannot influence the search: after a vertex
come its out edges. RouteBuilder.cpp 17-21 -/
def bfsLoop (out : Nat → List Nat) (q seen : List Nat) : Option (List Nat) :=
  match q with
  | [] => some []
  | u :: q => do
    let s := discover (out u) q seen
    return u :: (← bfsLoop out s.1 s.2)
partial_fixpoint

/-- breadthFirstSearch, RouteBuilder.cpp 16-21 -/
def bfs (out : Nat → List Nat) (start : Nat) : Option (List Nat) := bfsLoop out [start] [start]

/-- VisitationCount, RouteBuilder.cpp 23-27 -/
structure Count where
  followers : Nat := 0
  laneChanges : Nat := 0

/-- RouteBuilder.cpp 23-29. -/
def Count.isLeaf (c : Count) : Bool := c.followers + c.laneChanges == 0

/-- VisitedLaneletGraph, RouteBuilder.cpp 31-32: a vertex that is not in the map is treated like an empty entry in all functions -/
abbrev Visited := Nat → Option Count

/-- add, RouteBuilder.cpp 46-59 (release mode) -/
def Visited.add (R : List Nat) (v : Nat) (vis : Visited) (e : BaseEdge K) : Visited :=
  if e.info.relation = Left ∨ e.info.relation = Right then
    if e.dst ∈ R then Function.update vis v ((vis v).map fun c => { c with laneChanges := c.laneChanges + 1 }) else vis
  else if e.info.relation = Successor then Function.update vis v ((vis v).map fun c => { c with followers := c.followers + 1 })
  else vis

/-- init, RouteBuilder.cpp 40-43, and the edges of the vertex, NeighbouringGraphVisitor 125-146 -/
def Visited.visit (R : List Nat) (out : Nat → List (BaseEdge K)) (vis : Visited) (v : Nat) : Visited :=
  (out v).foldl (Visited.add R v) (Function.update vis v (some {}))

/-- remove, RouteBuilder.cpp 101-119; `ins` are the in edges in the graph next to the route -/
def Visited.remove (ins : Nat → List (BaseEdge K)) (vis : Visited) (v : Nat) : Visited :=
  (ins v).foldl (fun vis e =>
    if (e.info.relation &&& (Successor ||| Left ||| Right)) = 0 then vis
    else
      match vis e.src with
      | none => vis
      | some c =>
        if e.info.relation = Successor ∧ c.followers > 0 then Function.update vis e.src (some { c with followers := c.followers - 1 })
        else if c.laneChanges > 0 then Function.update vis e.src (some { c with laneChanges := c.laneChanges - 1 })
        else vis)
    (Function.update vis v none)

/-- one pass of pruneLeafsExcluding, RouteBuilder.cpp 65-72; the map is sorted by vertices -/
def Visited.prunePass (ins : Nat → List (BaseEdge K)) (n llt : Nat) (vis : Visited) : Bool × Visited :=
  (List.range n).foldl (fun s v =>
    match s.2 v with
    | none => s
    | some c => if v = llt ∨ c.isLeaf = false then s else (true, s.2.remove ins v)) (false, vis)

/-- pruneLeafsExcluding, RouteBuilder.cpp 62-74 -/
def Visited.prune (ins : Nat → List (BaseEdge K)) (n llt : Nat) (vis : Visited) : Option Visited :=
  let s := vis.prunePass ins n llt
  if s.1 then Visited.prune ins n llt s.2 else some s.2
partial_fixpoint

/-- forAllValidLanelets, RouteBuilder.cpp 84-91 -/
def Visited.valid (vis : Visited) (n : Nat) : List Nat :=
  (List.range n).filter fun v => match vis v with
    | none => false
    | some c => !c.isLeaf

/-- lastLanelets with getLeftAndRightLanelets, RouteBuilder.cpp 148-174 -/
def lastLanelets (E : List (BaseEdge K)) (path : List Nat) : Option (List Nat) :=
  match path.head?, path.getLast? with
  | some a, some b => if a = b then some [] else bfs (fun v => ((outE E v).filter (hasRel (Left ||| Right))).map (·.dst)) b
  | _, _ => some []

/-- neverConflictsWithRoute, RouteBuilder.cpp 232-245 -/
def neverConflicts (E : List (BaseEdge K)) (R path : List Nat) : Bool :=
  let adj := Left ||| Right ||| AdjacentLeft ||| AdjacentRight
  path.all fun v =>
    (inE E v).any (fun e => noConflicting e && hasRel adj e && decide (e.src ∈ R)) ||
    (outE E v).any (fun e => noConflicting e && hasRel adj e && decide (e.dst ∈ R))

/-- the successors in ConflictsWithPathGraph, GraphUtils.h 402 -/
def conflictsWithPath (E : List (BaseEdge K)) (R conflictWith : List Nat) (start finish v : Nat) : Option (List Nat) :=
  (((outE E v).filter noConflicting).map (·.dst)).filterM (onRouteAndConflict E R conflictWith start finish)

/-- alwaysConflictsWithRoute, RouteBuilder.cpp 246-263 -/
def alwaysConflicts (E : List (BaseEdge K)) (R path : List Nat) : Option Bool :=
  match path.head?, path.getLast? with
  | some a, some b =>
    match ((inE E a).filter drivable).find? (fun e => decide (e.src ∈ R)), ((outE E b).filter drivable).find? (fun e => decide (e.dst ∈ R)) with
    | some f, some t => hasPathFromTo (conflictsWithPath E R path f.src t.dst) f.src t.dst
    | _, _ => some false
  | _, _ => some false

/-- the body of testIfPathIsPermitted, RouteBuilder.cpp 205-213: the vertices to mark, if the path is permitted -/
def permitted (E : List (BaseEdge K)) (R path : List Nat) : Option (List Nat) := do
  if neverConflicts E R path then return path
  else if ← alwaysConflicts E R path then return path
  else return []

/-- the successors in ConflictOrAdjacentToRouteGraph, GraphUtils.h 400-401 -/
def conflictOrAdjacent (E : List (BaseEdge K)) (R : List Nat) (v : Nat) : List Nat :=
  (((outE E v).filter drivable).map (·.dst)).filter (conflictingSection E R)

/-- forEachVertexOutOfRoute, RouteBuilder.cpp 196-229: the vertices for which `f` is called. Marking a vertex that is not in the list writes
behind the end of a `vector<bool>`. -/
def outOfRoute (E : List (BaseEdge K)) (R new : List Nat) : Option (Except Fault (List Nat)) := do
  let new := new.filter (conflictingSection E R)
  let starts := new.filter fun v => (inE E v).any fun e => drivable e && decide (e.src ∈ R)
  let marked ← starts.mapM fun v => do
    let ps ← paths (fun u => some (conflictOrAdjacent E R u)) v
    return (← ps.mapM (permitted E R)).flatten
  let marked := marked.flatten
  if marked.any fun v => decide (v ∉ new) then return .error .ub
  else return .ok (new.filter fun v => decide (v ∉ marked))

/-- addAdjacentLaneletsToRoute, RouteBuilder.cpp 392-409: whether there was progress, and the lanelets on the route. `n` is the number of vertices
of the graph. -/
def addAdjacent (E : List (BaseEdge K)) (n start finish : Nat) (within R : List Nat) : Option (Except Fault (Bool × List Nat)) := do
  let out := fun v => (outE E v).filter fun e => drivableWithin within e && nextToRoute E R e.dst
  let ins := fun v => (inE E v).filter fun e => drivableWithin within e && nextToRoute E R e.src
  let order ← bfs (fun v => (out v).map (·.dst)) start
  let vis := order.foldl (Visited.visit R out) fun _ => none
  let vis ← vis.prune ins n finish
  match ← outOfRoute E R (vis.valid n) with
  | .error f => return .error f
  | .ok rem =>
    let vis := rem.foldl (Visited.remove ins) vis
    let new := (vis.valid n).filter fun v => decide (v ∉ R)
    return .ok (!new.isEmpty, R ++ new)

/-- the loop of getRouteFromShortestPath, RouteBuilder.cpp 450-453 -/
def extend (E : List (BaseEdge K)) (n start finish : Nat) (within R : List Nat) : Option (Except Fault (List Nat)) := do
  match ← addAdjacent E n start finish within R with
  | .error f => return .error f
  | .ok (progress, R) => if progress then extend E n start finish within R else return .ok R
partial_fixpoint

/-- RouteGraph, Graph.h 27-33, 248-250: the lane ids and the conflicting elements by vertex -/
structure RouteGraph (P K : Type) where
  graph : RGraph P K
  laneId : Nat → Nat := fun _ => 0
  conflicting : Nat → List P := fun _ => []

/-- RouteConstructionVisitor, RouteBuilder.cpp 368-371 -/
structure Visitor (P K : Type) where
  route : RouteGraph P K
  laneId : Nat := 1000
  source : Nat := 0

/-- `std::uint16_t`; internal/Graph.h 31 (LaneId) -/
def laneIds : Nat := 65536

/-- addVertex of a RouteVertexInfo, Graph.h 171-177 -/
def RouteGraph.addVertex (r : RouteGraph P K) (p : P) (lane : Nat) : Nat × RouteGraph P K :=
  (r.graph.vertices.length, { r with graph := r.graph.addVertex p, laneId := Function.update r.laneId r.graph.vertices.length lane })

/-- `g[v].lanelet()`; internal/Graph.h 18-33 -/
def laneletOf (g : RGraph P K) (v : Nat) : Except Fault P :=
  match g.vertices[v]? with
  | some p => .ok p
  | none => .error .ub

/-- examine_vertex, RouteBuilder.cpp 283-292 -/
def Visitor.examineVertex (g : RGraph P K) (s : Visitor P K) (v : Nat) : Except Fault (Visitor P K) := do
  let llt ← laneletOf g v
  if s.route.graph.vertices.isEmpty then
    let (v', r) := s.route.addVertex llt s.laneId
    return { s with route := r, source := v' }
  else
    match s.route.graph.getVertex llt with
    | some v' => return { s with source := v' }
    | none => .error .ub

/-- hasOneSuccessor, RouteBuilder.cpp 356-366 -/
def hasOneSuccessor (es : List (BaseEdge K)) : Bool := (es.filter fun e => decide (e.info.relation = Successor)).length == 1

/-- isDifferentLane, RouteBuilder.cpp 334-346; `outs` and `ins` are the edges of the graph of the route -/
def isDifferentLane (outs ins : Nat → List (BaseEdge K)) (e : BaseEdge K) : Bool :=
  if e.info.relation ≠ Successor then true
  else if !hasOneSuccessor (ins e.dst) then true
  else !hasOneSuccessor (outs e.src)

/-- setLaneIdFromTo, RouteBuilder.cpp 325-332 -/
def RouteGraph.setLaneIdFromTo (r : RouteGraph P K) (a b : Nat) : RouteGraph P K :=
  { r with laneId := fun v => if v < r.graph.vertices.length ∧ r.laneId v = a then b else r.laneId v }

/-- examine_edge, RouteBuilder.cpp 295-313 -/
def Visitor.examineEdge (t : CostTests K) (g : RGraph P K) (outs ins : Nat → List (BaseEdge K)) (s : Visitor P K) (e : BaseEdge K) :
    Except Fault (Visitor P K) := do
  let llt ← laneletOf g e.dst
  let newLane := isDifferentLane outs ins e
  let (s, dest) := match s.route.graph.getVertex llt with
    | none =>
      let counter := if newLane then (s.laneId + 1) % laneIds else s.laneId
      let lane := if newLane then counter else s.route.laneId s.source
      let (v', r) := s.route.addVertex llt lane
      ({ s with route := r, laneId := counter }, v')
    | some d =>
      if !newLane && decide (e.info.relation = Successor) && decide (s.route.laneId s.source ≠ s.route.laneId d) then
        ({ s with route := s.route.setLaneIdFromTo (s.route.laneId d) (s.route.laneId s.source) }, d)
      else (s, d)
  match s.route.graph.addEdgeV t s.source dest { e.info with costId := 0 } with
  | .ok g' => return { s with route := { s.route with graph := g' } }
  | .error _ => .error .negativeCost

/-- finish_vertex, RouteBuilder.cpp 314-321 -/
def Visitor.finishVertex (g : RGraph P K) (E : List (BaseEdge K)) (s : Visitor P K) (v : Nat) : Except Fault (Visitor P K) := do
  let c ← ((outE E v).filter (hasRel Conflicting)).mapM fun e => laneletOf g e.dst
  return { s with route := { s.route with conflicting := Function.update s.route.conflicting s.source (s.route.conflicting s.source ++ c) } }

/-- the calls for one vertex; RouteBuilder.cpp 276-372 -/
def Visitor.vertex (t : CostTests K) (g : RGraph P K) (E : List (BaseEdge K)) (outs ins : Nat → List (BaseEdge K)) (s : Visitor P K) (v : Nat) :
    Except Fault (Visitor P K) := do
  let s ← s.examineVertex g v
  let s ← (outs v).foldlM (Visitor.examineEdge t g outs ins) s
  s.finishVertex g E v

/-- Route.h 202-203, without the submap -/
structure Route (P K : Type) where
  graph : RouteGraph P K
  shortestPath : List P

/-- out edges of OnRouteGraph, GraphUtils.h 395 -/
def routeOut (E : List (BaseEdge K)) (R : List Nat) (v : Nat) : List (BaseEdge K) := (outE E v).filter fun e => decide (e.dst ∈ R)

/-- in edges of OnRouteGraph; GraphUtils.h 132-141 -/
def routeIn (E : List (BaseEdge K)) (R : List Nat) (v : Nat) : List (BaseEdge K) := (inE E v).filter fun e => decide (e.src ∈ R)

/-- finalizeRoute, RouteBuilder.cpp 412-424; the inner `none` is "no route" -/
def finalize (t : CostTests K) (g : RGraph P K) (E : List (BaseEdge K)) (R : List Nat) (start : Nat) (path : List P) :
    Option (Except Fault (Option (Route P K))) := do
  let order ← bfs (fun v => (routeOut E R v).map (·.dst)) start
  return do
    let s ← order.foldlM (Visitor.vertex t g E (routeOut E R) (routeIn E R)) { route := { graph := .empty 1 } }
    match path.getLast? with
    | none => .error .ub
    | some last =>
      match s.route.graph.getVertex last with
      | none => return none
      | some _ => return some { graph := s.route, shortestPath := path }

/-- getRouteFromShortestPath, RouteBuilder.cpp 440-455 -/
def buildRoute (t : CostTests K) (g : RGraph P K) (path : List P) (lc : Bool) (costId : Nat) : Option (Except Fault (Option (Route P K))) :=
  match path.mapM g.getVertex with
  | none => some (.error .ub)
  | some vs =>
    let E := original g lc costId
    match vs.head?, vs.getLast? with
    | some start, some finish => do
      let within ← lastLanelets E vs
      match ← extend E g.vertices.length start finish within vs.dedup with
      | .error f => return .error f
      | .ok R => finalize t g E R start path
    | _, _ => some (.error .ub)

/-- getRoute, RoutingGraph.cpp 386-393; the exception of shortestPath is the one for an unknown cost module -/
def getRoute [Search.Cost K] (t : CostTests K) (g : RGraph P K) (pick : Nat → (Nat → K) → List Nat → Nat) (src dst : P) (costId : Nat)
    (lc : Bool) : Option (Except Fault (Option (Route P K))) :=
  match g.shortestPath pick src dst costId lc false with
  | .error _ => some (.error .invalidInput)
  | .ok none => none
  | .ok (some none) => some (.ok none)
  | .ok (some (some path)) => buildRoute t g path lc costId

/-! ### Route.cpp -/

/-- remainingLaneImpl, Route.cpp 80-98: the vertices -/
def remainingLaneLoop (g : RGraph P K) (start v : Nat) : Option (List Nat) :=
  match g.outEdges 0 withoutLaneChanges v with
  | [e] =>
    if (g.inEdges 0 withoutLaneChanges e.dst).length ≠ 1 then some [v]
    else if e.dst = start then some [v]
    else do return v :: (← remainingLaneLoop g start e.dst)
  | _ => some [v]
partial_fixpoint

/-- the lanelets of vertices; Route.cpp -/
def lanelets (g : RGraph P K) (vs : List Nat) : List P := vs.filterMap fun v => g.vertices[v]?

/-- remainingLane, Route.cpp 180-186 -/
def Route.remainingLane (r : Route P K) (p : P) : Option (List P) :=
  match r.graph.graph.getVertex p with
  | none => some []
  | some v => (remainingLaneLoop r.graph.graph v v).map (lanelets r.graph.graph)

/-- the loop of fullLane, Route.cpp 163-176 -/
def fullLaneLoop (g : RGraph P K) (start v : Nat) : Option Nat :=
  match g.inEdges 0 withoutLaneChanges v with
  | [e] =>
    if (g.outEdges 0 withoutLaneChanges e.src).length ≠ 1 then some v
    else if e.src = start then some e.src
    else fullLaneLoop g start e.src
  | _ => some v
partial_fixpoint

/-- fullLane, Route.cpp 154-178 -/
def Route.fullLane (r : Route P K) (p : P) : Option (List P) :=
  match r.graph.graph.getVertex p with
  | none => some []
  | some v => do
    let b ← fullLaneLoop r.graph.graph v v
    return lanelets r.graph.graph (← remainingLaneLoop r.graph.graph b b)

/-- remainingShortestPath, Route.cpp 140-152 -/
def Route.remainingShortestPath (r : Route P K) (p : P) : List P :=
  match r.shortestPath.findIdx? fun x => decide (x = p) with
  | none => []
  | some i =>
    if r.shortestPath.head? = r.shortestPath.getLast? then r.shortestPath.dropLast.rotate i
    else r.shortestPath.drop i

/-- numLanes, Route.cpp 193-200 -/
def Route.numLanes (r : Route P K) : Nat := ((List.range r.graph.graph.vertices.length).map r.graph.laneId).dedup.length

/-- size, Route.cpp 225 -/
def Route.size (r : Route P K) : Nat := r.graph.graph.vertices.length

/-- contains, Route.cpp 352 -/
def Route.contains (r : Route P K) (p : P) : Bool := (r.graph.graph.getVertex p).isSome

/-- getRelations, Route.cpp 100-106 and followingRelations, previousRelations 227-233, 243-249 -/
def Route.followingRelations (r : Route P K) (p : P) : List (P × RelationType) :=
  match r.graph.graph.getVertex p with
  | none => []
  | some v => (r.graph.graph.outEdges 0 withoutLaneChanges v).filterMap fun e => (r.graph.graph.vertices[e.dst]?).map (·, e.info.relation)

/-- Route::previousRelations, Route.cpp 243-257. -/
def Route.previousRelations (r : Route P K) (p : P) : List (P × RelationType) :=
  match r.graph.graph.getVertex p with
  | none => []
  | some v => (r.graph.graph.inEdges 0 withoutLaneChanges v).filterMap fun e => (r.graph.graph.vertices[e.src]?).map (·, e.info.relation)

/-- getLanelets, Route.cpp 107-112 and following, previous, conflictingInRoute 235-241, 251-257, 328-334 -/
def Route.following (r : Route P K) (p : P) : List P := r.graph.graph.getAllEdges 0 withoutLaneChanges p true
/-- The lanelets of Route::previousRelations, Route.cpp 243-257. -/
def Route.previous (r : Route P K) (p : P) : List P := r.graph.graph.getAllEdges 0 withoutLaneChanges p false
/-- Route::conflictingInRoute, Route.cpp 328-340. -/
def Route.conflictingInRoute (r : Route P K) (p : P) : List P := r.graph.graph.getAllEdges 0 Graph.conflicting p true

/-- conflictingInMap, Route.cpp 336-342 -/
def Route.conflictingInMap (r : Route P K) (p : P) : List P :=
  match r.graph.graph.getVertex p with
  | none => []
  | some v => r.graph.conflicting v

/-- allConflictingInMap, Route.cpp 344-350 -/
def Route.allConflictingInMap (r : Route P K) : List P := (List.range r.graph.graph.vertices.length).flatMap r.graph.conflicting

/-- getSingleRelation, getNextVertex, Route.cpp 114-129 -/
def nextRelation (g : RGraph P K) (view : RelationType) (v : Nat) : Option (Nat × RelationType) :=
  (g.outEdges 0 view v).head?.map fun e => (e.dst, e.info.relation)

/-- leftRelation and rightRelation, Route.cpp 259-265, 280-286 -/
def Route.sideRelation (r : Route P K) (view : RelationType) (p : P) : Option (P × RelationType) := do
  let v ← r.graph.graph.getVertex p
  let (w, rel) ← nextRelation r.graph.graph view v
  return (← r.graph.graph.vertices[w]?, rel)

/-- the loops of leftRelations and rightRelations, Route.cpp 272-276, 293-297 -/
def sideLoopRel (g : RGraph P K) (view : RelationType) (v : Nat) : Option (List (Nat × RelationType)) :=
  match nextRelation g view v with
  | none => some []
  | some x => do return x :: (← sideLoopRel g view x.1)
partial_fixpoint

/-- leftRelations and rightRelations, Route.cpp 267-278, 288-299; they dereference the vertex without a check -/
def Route.sideRelations (r : Route P K) (view : RelationType) (p : P) : Option (Except Fault (List (P × RelationType))) :=
  match r.graph.graph.getVertex p with
  | none => some (.error .ub)
  | some v => do
    let l ← sideLoopRel r.graph.graph view v
    return .ok (l.filterMap fun x => (r.graph.graph.vertices[x.1]?).map (·, x.2))

/-- the errors of checkValidity -/
inductive RErr (P : Type) where
  | notInRoute (p : P)
  | noRelationBack (p q : P) (r : RelationType)
  | wrongRelation (p q : P) (r back : RelationType)
  | unsupported (p : P) (r : RelationType)
  deriving DecidableEq

/-- checkRelationIs, Route.cpp 354-362 -/
def checkRelationIs (expect : RelationType) (p q : P) (r back : RelationType) : List (RErr P) :=
  if (expect &&& back) ≠ 0 then [.wrongRelation p q r back] else []

/-- the function for one edge, Route.cpp 374-410 -/
def checkEdge (g : RGraph P K) (e : BaseEdge K) : List (RErr P) :=
  match g.vertices[e.src]?, g.vertices[e.dst]? with
  | some p, some q =>
    let r := e.info.relation
    match g.firstEdge e.dst e.src with
    | none => if r ≠ Successor then [.noRelationBack p q r] else []
    | some b =>
      let back := b.info.relation
      if r = Conflicting then checkRelationIs Conflicting p q r back
      else if r = Left ∨ r = AdjacentLeft then checkRelationIs (Right ||| AdjacentRight) p q r back
      else if r = Right ∨ r = AdjacentRight then checkRelationIs (Left ||| AdjacentLeft) p q r back
      else if r = Successor then []
      else [.unsupported p back]
  | _, _ => []

/-- checkValidity without throwing, Route.cpp 363-421; `edges` is the order in which boost lists the edges -/
def Route.checkValidity (r : Route P K) (edges : List (BaseEdge K)) : List (RErr P) :=
  (r.shortestPath.filter fun p => !r.contains p).map .notInRoute ++ edges.flatMap (checkEdge r.graph.graph)

end Verif.Route
