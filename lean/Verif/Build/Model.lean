import Verif.Graph.Model
import Verif.Lanelet.Model

/-!
Model of the construction of the routing graph.

Source: lanelet2_routing/src/RoutingGraphBuilder.cpp.

Traffic rules, routing cost modules, bounding boxes and the overlap tests are parameters: the theorems hold for all of
them. The iteration order of hash containers and of r-tree queries is a parameter too. `none` is undefined behaviour (front
of an empty linestring, dereferencing an empty optional), an exception (negative costs) or non-termination.
-/
namespace Verif.Build
open Verif.Graph (RGraph EdgeInfo BaseEdge CostTests RelationType)
open Verif.Graph.RelationType
open Verif.Lanelet (LH World points leftBound rightBound follows leftOf rightOf invertL)
open Verif.LineStr (LS)

/-- ConstLaneletOrArea; LaneletOrArea.h 10-100 -/
abbrev Prim := LH ⊕ Nat

/-- the virtual functions of TrafficRules used by the builder; RoutingGraphBuilder.cpp 107-122, 127, 178, 206, 272-284, 305 -/
structure Rules where
  passL : LH → Bool
  passA : Nat → Bool
  passLL : LH → LH → Bool
  passLA : LH → Nat → Bool
  passAL : Nat → LH → Bool
  passAA : Nat → Nat → Bool
  change : LH → LH → Bool

/-- RoutingCost.h 32-33, 42-43: getCostSucceeding and getCostLaneChange of one module -/
structure CostModule (K : Type) where
  succ : Prim → Prim → K
  change : List LH → List LH → K

/-- an element of LaneChangeMap, RoutingGraphBuilder.cpp 22-26 -/
structure Entry where
  src : LH
  target : LH
  visited : Bool
  deriving DecidableEq

/-- IdPair, RoutingGraphBuilder.h 23: a pair of point ids. -/
abbrev Key := Int × Int

/-- everything the builder gets from outside: the map (`lanelets` and `areas` in the order of the layers, `ptId`: id of a
point, `llId`: id of a lanelet), rules, cost modules (`one`: the cost 1), bounding box tests and overlap tests of the
geometry module, and orders of iteration (`orderRange`: equal_range of an unordered_multimap, `orderSearch`: r-tree query,
`shuffle`: unordered_map) -/
structure Input (P K : Type) where
  w : World P
  ptId : P → Int
  llId : Nat → Int
  lanelets : List LH
  areas : List Nat
  rules : Rules
  costs : List (CostModule K)
  tests : CostTests K
  one : K
  boxLL : LH → LH → Bool
  boxAL : Nat → LH → Bool
  boxAA : Nat → Nat → Bool
  overlapsLL : LH → LH → Bool
  overlapsAL : Nat → LH → Bool
  overlapsAA : Nat → Nat → Bool
  orderRange : List LH → List LH
  orderSearch : List LH → List LH
  orderSearchA : List Nat → List Nat
  shuffle : List Entry → List Entry

variable {P K : Type} [DecidableEq P]

/-- ids of front() and back() of a bound; RoutingGraphBuilder.cpp 325-335 -/
def ends (i : Input P K) (ls : LS) : Option (Int × Int) := do
  let f ← (points i.w ls).head?
  let b ← (points i.w ls).getLast?
  return (i.ptId f, i.ptId b)

/-- RoutingGraphBuilder.cpp 17 -/
def orderedIdPair (a b : Int) : Key := if a < b then (a, b) else (b, a)

/-- the four keys of addPointsToSearchIndex, RoutingGraphBuilder.cpp 325-335 -/
def indexKeys (i : Input P K) (ll : LH) : Option (List Key) := do
  let (lf, lb) ← ends i (leftBound i.w ll)
  let (rf, rb) ← ends i (rightBound i.w ll)
  return [orderedIdPair lf rf, orderedIdPair lb rb, orderedIdPair lf lb, orderedIdPair rf rb]

/-- members of RoutingGraphBuilder: graph_, bothWaysLaneletIds_, pointsToLanelets_; RoutingGraphBuilder.h 15-60 -/
structure St (K : Type) where
  g : RGraph Prim K
  both : List Int
  index : List (Key × LH)

/-- pointsToLanelets_.equal_range(key); RoutingGraphBuilder.cpp 172-214 -/
def equalRange (i : Input P K) (s : St K) (k : Key) : List LH :=
  i.orderRange ((s.index.filter fun e => e.1 == k).map (·.2))

/-- hasEdge, RoutingGraphBuilder.cpp 337-339 -/
def hasEdge (g : RGraph Prim K) (a b : LH) : Bool := (g.getEdgeInfo (.inl a) (.inl b)).isSome

/-- assignCosts, RoutingGraphBuilder.cpp 358-378 -/
def assignCosts (i : Input P K) (g : RGraph Prim K) (src dst : Prim) (rel : RelationType) : Option (RGraph Prim K) :=
  i.costs.zipIdx.foldlM (fun g ci => do
    if rel = Successor ∨ rel = Area then
      (g.addEdge i.tests src dst ⟨ci.1.succ src dst, ci.2, rel⟩).toOption
    else if rel = Left ∨ rel = Right then
      match src, dst with
      | .inl a, .inl b => (g.addEdge i.tests src dst ⟨ci.1.change [a] [b], ci.2, rel⟩).toOption
      | _, _ => none
    else (g.addEdge i.tests src dst ⟨i.one, ci.2, rel⟩).toOption) g

/-- LaneChangeLaneletsCollector::add, RoutingGraphBuilder.cpp 32-35: emplace keeps an existing element -/
def collect (m : List Entry) (a b : LH) : List Entry :=
  if m.any (fun e => e.src == a) then m else m ++ [⟨a, b, false⟩]

/-- addFollowingEdges, RoutingGraphBuilder.cpp 172-196; the list `merging` is not used by the code and left out -/
def addFollowingEdges (i : Input P K) (s : St K) (ll : LH) : Option (St K) := do
  let (_, lb) ← ends i (leftBound i.w ll)
  let (_, rb) ← ends i (rightBound i.w ll)
  let following := (equalRange i s (orderedIdPair lb rb)).filter fun it => follows i.w ll it && i.rules.passLL ll it
  let g ← following.foldlM (fun g it => assignCosts i g (.inl ll) (.inl it) Successor) s.g
  return { s with g := g }

/-- addSidewayEdge, RoutingGraphBuilder.cpp 198-214; `isLeft`: relation is AdjacentLeft, `bound` the left bound -/
def addSidewayEdge (i : Input P K) (s : St K) (m : List Entry) (ll : LH) (isLeft : Bool) : Option (St K × List Entry) := do
  let (f, b) ← ends i (if isLeft then leftBound i.w ll else rightBound i.w ll)
  let (g, m) ← (equalRange i s (orderedIdPair f b)).foldlM (fun gm it =>
    if ll ≠ it ∧ hasEdge gm.1 ll it = false ∧ (if isLeft then leftOf i.w it ll else rightOf i.w it ll) = true then
      if i.rules.change ll it then some (gm.1, collect gm.2 ll it)
      else (assignCosts i gm.1 (.inl ll) (.inl it) (if isLeft then AdjacentLeft else AdjacentRight)).map (·, gm.2)
    else some gm) (s.g, m)
  return ({ s with g := g }, m)

/-- getPassableLanelets and getPassableAreas, RoutingGraphBuilder.cpp 106-122 -/
def passable (i : Input P K) : List LH := i.lanelets.filter i.rules.passL
/-- RoutingGraphBuilder.cpp 115-122. -/
def passableAreas (i : Input P K) : List Nat := i.areas.filter i.rules.passA

/-- addConflictingEdge, RoutingGraphBuilder.cpp 216-241 -/
def addConflictingEdge (i : Input P K) (s : St K) (ll : LH) : Option (St K) := do
  let g ← (i.orderSearch ((passable i).filter (i.boxLL ll))).foldlM (fun g result =>
    if s.both.contains (i.llId ll.data) && result == ll then do
      let g ← assignCosts i g (.inl ll) (.inl (invertL result)) Conflicting
      assignCosts i g (.inl (invertL result)) (.inl ll) Conflicting
    else if hasEdge g ll result then some g
    else if (g.getVertex (.inl result)).isNone || result == ll then some g
    else if i.overlapsLL ll result then do
      let g ← assignCosts i g (.inl ll) (.inl result) Conflicting
      assignCosts i g (.inl result) (.inl ll) Conflicting
    else some g) s.g
  return { s with g := g }

/-- appendBidirectionalLanelets, RoutingGraphBuilder.cpp 124-133: the inverted lanelets -/
def bidirectional (i : Input P K) : List LH :=
  (passable i).filterMap fun ll => if i.rules.passL (invertL ll) then some (invertL ll) else none

/-- all lanelets of the graph: RoutingGraphBuilder.cpp 95 and 98 -/
def allLanelets (i : Input P K) : List LH := passable i ++ bidirectional i

/-- addLaneletsToGraph and addAreasToGraph, RoutingGraphBuilder.cpp 135-146 with addPointsToSearchIndex, lines 325-335; bothWaysLaneletIds_
as filled in line 129 -/
def initial (i : Input P K) : Option (St K) := do
  let index ← (allLanelets i).foldlM (fun idx ll => do
    let ks ← indexKeys i ll
    return idx ++ ks.map (·, ll)) ([] : List (Key × LH))
  return ⟨⟨i.costs.length, (allLanelets i).map .inl ++ (passableAreas i).map .inr, []⟩,
    (bidirectional i).map fun ll => i.llId ll.data, index⟩

/-! ### lane changes -/

/-- getSuccessors with next or prev, RoutingGraphBuilder.cpp 244-261; `none` if the lanelet is not in the graph. Successor edges lead from
lanelets to lanelets. -/
def nextOf (g : RGraph Prim K) (ll : LH) : Option (List LH) := do
  let v ← g.getVertex (.inl ll)
  return (g.edges.filter fun e => e.src == v && e.info.relation == Successor && e.info.costId == 0).filterMap fun e =>
    (g.vertices[e.dst]?).bind Sum.getLeft?

/-- RoutingGraphBuilder.cpp 258-261. -/
def prevOf (g : RGraph Prim K) (ll : LH) : Option (List LH) := do
  let v ← g.getVertex (.inl ll)
  return (g.edges.filter fun e => e.dst == v && e.info.relation == Successor && e.info.costId == 0).filterMap fun e =>
    (g.vertices[e.src]?).bind Sum.getLeft?

/-- `visited = true`; RoutingGraphBuilder.cpp 49-82 -/
def mark (m : List Entry) (s : LH) : List Entry := m.map fun e => if e.src = s then { e with visited := true } else e

/-- getAdjacentLaneChangeLanelets, RoutingGraphBuilder.cpp 61-81 -/
def chain (adj : LH → Option (List LH)) (m : List Entry) (s t : LH) : Option (List Entry × List (LH × LH)) := do
  let ns ← adj s
  let nt ← adj t
  match ns, nt with
  | [s'], [t'] =>
    match m.find? (fun e => e.src == s') with
    | none => return (m, [])
    | some e =>
      if e.visited ∨ e.target ≠ t' then return (m, [])
      else do
        let (m, rest) ← chain adj (mark m s') s' t'
        return (m, (s', t') :: rest)
  | _, _ => return (m, [])
partial_fixpoint

/-- getNextChangeLanelets and getLaneChangeLanelets, RoutingGraphBuilder.cpp 37-59: `pos` is currPos_; the result `none` inside is the end -/
def getNext (prev next : LH → Option (List LH)) (m : List Entry) (pos : Nat) :
    Option (Option (List (LH × LH)) × List Entry × Nat) :=
  let pos := pos + ((m.drop pos).takeWhile (·.visited)).length
  match m[pos]? with
  | none => some (none, m, pos)
  | some e => do
    let m := mark m e.src
    let (m, followers) ← chain next m e.src e.target
    let (m, predecessors) ← chain prev m e.src e.target
    return (some (predecessors.reverse ++ [(e.src, e.target)] ++ followers), m, pos)

/-- assignLaneChangeCosts, RoutingGraphBuilder.cpp 341-356 -/
def assignLaneChangeCosts (i : Input P K) (isLeft : Bool) : List (LH × LH) → RGraph Prim K → Option (RGraph Prim K)
  | [], g => some g
  | (f, t) :: rest, g => do
    let froms := ((f, t) :: rest).map (·.1)
    let tos := ((f, t) :: rest).map (·.2)
    let g ← i.costs.zipIdx.foldlM (fun g ci =>
      if i.tests.isFinite (ci.1.change froms tos) = false then
        (g.addEdge i.tests (.inl f) (.inl t) ⟨i.one, ci.2, if isLeft then AdjacentLeft else AdjacentRight⟩).toOption
      else (g.addEdge i.tests (.inl f) (.inl t) ⟨ci.1.change froms tos, ci.2, if isLeft then Left else Right⟩).toOption) g
    assignLaneChangeCosts i isLeft rest g

/-- the loop of addLaneChangeEdges, RoutingGraphBuilder.cpp 262-265 -/
def laneChangeLoop (i : Input P K) (isLeft : Bool) (g : RGraph Prim K) (m : List Entry) (pos : Nat) :
    Option (RGraph Prim K) := do
  let (r, m, pos) ← getNext (prevOf g) (nextOf g) m pos
  match r with
  | none => return g
  | some ch => do
    let g ← assignLaneChangeCosts i isLeft ch g
    laneChangeLoop i isLeft g m pos
partial_fixpoint

/-- addLaneChangeEdges, RoutingGraphBuilder.cpp 243-266: the map iterates in arbitrary order -/
def addLaneChangeEdges (i : Input P K) (isLeft : Bool) (g : RGraph Prim K) (m : List Entry) : Option (RGraph Prim K) :=
  laneChangeLoop i isLeft g (i.shuffle m) 0

/-- state of the loop of addEdges: builder, rightToLeft, leftToRight; RoutingGraphBuilder.cpp 148-162 -/
structure Loop (K : Type) where
  s : St K
  toLeft : List Entry
  toRight : List Entry

/-- addEdges for one lanelet, RoutingGraphBuilder.cpp 152-157 -/
def laneletStep (i : Input P K) (l : Loop K) (ll : LH) : Option (Loop K) := do
  let s ← addFollowingEdges i l.s ll
  let (s, toLeft) ← addSidewayEdge i s l.toLeft ll true
  let (s, toRight) ← addSidewayEdge i s l.toRight ll false
  let s ← addConflictingEdge i s ll
  return ⟨s, toLeft, toRight⟩

/-- addEdges(lanelets), RoutingGraphBuilder.cpp 148-162 -/
def addLaneletEdges (i : Input P K) (s : St K) : Option (RGraph Prim K) := do
  let l ← (allLanelets i).foldlM (laneletStep i) ⟨s, [], []⟩
  let g ← addLaneChangeEdges i true l.s.g l.toLeft
  addLaneChangeEdges i false g l.toRight

/-- the guarded calls of assignCosts in RoutingGraphBuilder.cpp 271-287 -/
def assignIf (i : Input P K) (c : Bool) (g : RGraph Prim K) (src dst : Prim) (rel : RelationType) :
    Option (RGraph Prim K) := if c then assignCosts i g src dst rel else some g

/-- addAreaEdge(area, lanelets), RoutingGraphBuilder.cpp 268-297 -/
def addAreaLaneletEdges (i : Input P K) (g : RGraph Prim K) (ar : Nat) : Option (RGraph Prim K) :=
  (i.orderSearch ((passable i).filter (i.boxAL ar))).foldlM (fun g c => do
    let g1 ← assignIf i (i.rules.passAL ar c) g (.inr ar) (.inl c) Area
    let g2 ← assignIf i (i.rules.passAL ar (invertL c)) g1 (.inr ar) (.inl (invertL c)) Area
    let g3 ← assignIf i (i.rules.passLA c ar) g2 (.inl c) (.inr ar) Area
    let g4 ← assignIf i (i.rules.passLA (invertL c) ar) g3 (.inl (invertL c)) (.inr ar) Area
    if i.rules.passAL ar c || i.rules.passAL ar (invertL c) || i.rules.passLA c ar || i.rules.passLA (invertL c) ar then
      some g4
    else assignIf i (i.overlapsAL ar c) g4 (.inl c) (.inr ar) Conflicting) g

/-- addAreaEdge(area, areas), RoutingGraphBuilder.cpp 299-315 -/
def addAreaAreaEdges (i : Input P K) (g : RGraph Prim K) (ar : Nat) : Option (RGraph Prim K) :=
  (i.orderSearchA ((passableAreas i).filter (i.boxAA ar))).foldlM (fun g c =>
    if c = ar then some g
    else if i.rules.passAA ar c then assignCosts i g (.inr ar) (.inr c) Area
    else if i.overlapsAA ar c then assignCosts i g (.inr c) (.inr ar) Conflicting
    else some g) g

/-- addEdges(areas), RoutingGraphBuilder.cpp 164-170 -/
def addAreaEdges (i : Input P K) (g : RGraph Prim K) : Option (RGraph Prim K) :=
  (passableAreas i).foldlM (fun g ar => do addAreaAreaEdges i (← addAreaLaneletEdges i g ar) ar) g

/-- build, RoutingGraphBuilder.cpp 94-104 -/
def build (i : Input P K) : Option (RGraph Prim K) := do
  let s ← initial i
  let g ← addLaneletEdges i s
  addAreaEdges i g

end Verif.Build
