import Mathlib.Data.List.Rotate
import Mathlib.Data.List.Basic

/-!
Model of the convex partition and the triangulation of polygons.

Source: lanelet2_core/src/PolygonTriangulationGeometry.cpp.

The Voronoi diagram of boost is a parameter: for every Voronoi vertex the source indices of the cells around it, in the order of `rot_prev`,
beginning with the one of `incident_edge`. Indices are below the number of points of the polygon.

Points only appear in the test whether two segments form a convex corner and in the angle by which connections are sorted. The test is the parameter
`turn`, on segments that are given by the indices of their ends; the order is the parameter `sort`.
-/
namespace Verif.Tri

/-- IndexedSegment, PolygonTriangulationGeometry.cpp 102 -/
abbrev Seg := Nat × Nat

/-- The exceptions of PolygonTriangulationGeometry.cpp 118-445, and undefined behaviour. -/
inductive Fault where
  | invalidInput | notFound | ub | geometry
  deriving DecidableEq

/-- a loop or recursion that does not end is `none`, an exception is `some (.error _)`; PolygonTriangulationGeometry.cpp 362-370, 390-416 -/
abbrev M := ExceptT Fault Option

/-- flip, PolygonTriangulationGeometry.cpp 105 -/
def flip (s : Seg) : Seg := (s.2, s.1)

/-- isBorder, PolygonTriangulationGeometry.cpp 106-112 -/
def isBorder (s : Seg) (size : Nat) : Bool :=
  let distance := if s.1 > s.2 then s.1 - s.2 else s.2 - s.1
  if distance == 1 then true
  else (s.1 == 0 || s.2 == 0) && distance + 1 == size

/-- getAlignedIterators, PolygonTriangulationGeometry.cpp 118-133: the positions -/
def getAligned (poly : List Nat) (s : Seg) : Except Fault (Nat × Nat) :=
  if poly.length < 3 then .error .invalidInput
  else
    let i := poly.idxOf s.1
    let j := poly.idxOf s.2
    if i = poly.length ∨ j = poly.length then .error .invalidInput
    else if j + 1 = i ∨ j = i + (poly.length - 1) then .ok (j, i)
    else .ok (i, j)

/-- getAdjacent, PolygonTriangulationGeometry.cpp 135-139 -/
def getAdjacent (poly : List Nat) (s : Seg) : Except Fault (Seg × Seg) := do
  let (f, g) ← getAligned poly s
  return ((poly.getD f 0, if f = 0 then poly.getD (poly.length - 1) 0 else poly.getD (f - 1) 0),
    (poly.getD g 0, if g + 1 = poly.length then poly.getD 0 0 else poly.getD (g + 1) 0))

/-- the segments of a polygon, as in the loop of getSegmentsExcept and as added in makeVoronoi PolygonTriangulationGeometry.cpp 402-413 -/
def segments (p : List Nat) : List Seg := (List.range p.length).map fun i => (p.getD i 0, p.getD ((i + 1) % p.length) 0)

/-- getSegmentsExcept, PolygonTriangulationGeometry.cpp 141-151 -/
def getSegmentsExcept (p : List Nat) (excluded : Seg) : List Seg :=
  (segments p).filter fun s => s != excluded && s != flip excluded

/-- insertPolygonExcept, PolygonTriangulationGeometry.cpp 179-188: `poly` after the call. The iterator that is used after the first `insert` is only valid as there is no
reallocation, which `merge` takes care of. -/
def insertPolygonExcept (poly toMerge : List Nat) (border : Seg) : Except Fault (List Nat) := do
  let (f, s) ← getAligned toMerge border
  let (_, at') ← getAligned poly border
  let noWrap := f + 1 = toMerge.length
  let poly' := poly.take at' ++ (if noWrap then (toMerge.take f).drop (s + 1) else toMerge.drop (s + 1)) ++ poly.drop at'
  if noWrap then return poly'
  else
    let at2 := at' + (toMerge.length - (s + 1))
    return poly'.take at2 ++ toMerge.take f ++ poly'.drop at2

/-- merge, PolygonTriangulationGeometry.cpp 190-196: the polygon; the segments are `getSegmentsExcept toMerge border` -/
def merge (poly toMerge : List Nat) (border : Seg) : Except Fault (List Nat) := insertPolygonExcept poly toMerge border

/-- connectionConvex, PolygonTriangulationGeometry.cpp 211-213; the pairs are those of getAdjacent: from the end of the border outwards -/
def connectionConvex (turn : Seg → Seg → Bool) (loc ext : Seg × Seg) : Bool :=
  turn (flip loc.1) ext.2 && turn (flip ext.1) loc.2

/-- Connection, PolygonTriangulationGeometry.cpp 229-234, without the angle -/
structure Connection where
  border : Seg
  connectors : Seg × Seg
  newPoly : Nat

/-- Head, PolygonTriangulationGeometry.cpp 224-227; the sources of the gates are not used -/
structure Head where
  poly : List Nat
  gates : List Seg

/-- TraversalResult, PolygonTriangulationGeometry.cpp 236-239 -/
structure Result where
  convex : List (List Nat) := []
  visited : List Nat := []

/-- the data: SegmentationData PolygonTriangulationGeometry.cpp 286-302 with the Voronoi diagram -/
structure Data where
  size : Nat
  polys : List (List Nat)
  turn : Seg → Seg → Bool
  sort : List Connection → List Connection

/-- getDestination, PolygonTriangulationGeometry.cpp 295 with VectorMap 241-283: the entries (flipped segment, index of the polygon) are sorted, and the first one with the segment
is found -/
def Data.dest (d : Data) (s : Seg) : Except Fault Nat :=
  match d.polys.findIdx? fun p => decide (flip s ∈ segments p) with
  | some i => .ok i
  | none => .error .notFound

/-- getPolygonByIdx, PolygonTriangulationGeometry.cpp 296 -/
def Data.poly (d : Data) (i : Nat) : Except Fault (List Nat) :=
  match d.polys[i]? with
  | some p => .ok p
  | none => .error .ub

/-- the loop of findGates, PolygonTriangulationGeometry.cpp 307-319 -/
def Data.connections (d : Data) (visited : List Nat) : List Seg → Except Fault (List Connection)
  | [] => .ok []
  | s :: l =>
    if isBorder s d.size then d.connections visited l
    else do
      let i ← d.dest s
      if i ∈ visited then d.connections visited l
      else
        let c ← getAdjacent (← d.poly i) s
        return ⟨s, c, i⟩ :: (← d.connections visited l)

/-- findGates, PolygonTriangulationGeometry.cpp 304-324 -/
def Data.findGates (d : Data) (visited : List Nat) (candidates : List Seg) : Except Fault (List Connection) := do
  return d.sort (← d.connections visited candidates)

/-- updateState, PolygonTriangulationGeometry.cpp 326-331 -/
def Data.update (d : Data) (head : Head) (res : Result) (c : Connection) : Except Fault (Head × Result) := do
  let new ← d.poly c.newPoly
  let m ← merge head.poly new c.border
  return ({ poly := m, gates := getSegmentsExcept new c.border }, { res with visited := c.newPoly :: res.visited })

/-- A result without loops in the monad of loops. -/
def lift {α : Type} (x : Except Fault α) : M α := ExceptT.mk (some x)

/-- traverse, PolygonTriangulationGeometry.cpp 333-360. The polygon of a new head, 356-357, is not marked as visited. -/
def Data.traverse (d : Data) (head : Head) (res : Result) (isOrigin : Bool) : M (Head × Result) := do
  let gates ← lift (d.findGates res.visited head.gates)
  let (head, res, closed) ← gates.foldlM (fun (s : Head × Result × List Connection) c => do
    if c.newPoly ∈ s.2.1.visited then return s
    else
      let loc ← lift (getAdjacent s.1.poly c.border)
      if connectionConvex d.turn loc c.connectors then
        let (head, res) ← lift (d.update s.1 s.2.1 c)
        let (head, res) ← d.traverse head res false
        return (head, res, s.2.2)
      else return (s.1, s.2.1, s.2.2 ++ [c])) (head, res, [])
  let res := if isOrigin then { res with convex := res.convex ++ [head.poly] } else res
  let res ← closed.foldlM (fun res c => do
    if c.newPoly ∈ res.visited then return res
    else
      let new ← lift (d.poly c.newPoly)
      let (_, res) ← d.traverse { poly := new, gates := getSegmentsExcept new c.border } res true
      return res) res
  return (head, res)
partial_fixpoint

/-- mergeTriangulation, PolygonTriangulationGeometry.cpp 362-370 -/
def Data.mergeTriangulation (d : Data) : M (List (List Nat)) := do
  let i ← lift (d.dest (1, 0))
  let first ← lift (d.poly i)
  let (_, res) ← d.traverse { poly := first, gates := getSegmentsExcept first (1, 0) } { visited := [i] } true
  return res.convex

/-- convexPartitionImpl, PolygonTriangulationGeometry.cpp 418-430: the indices of the parts -/
def Data.convexPartition (d : Data) : M (List (List Nat)) := if d.size < 3 then throw .geometry else d.mergeTriangulation

/-- subdivide, PolygonTriangulationGeometry.cpp 380-386; for less than two indices the iterators run behind the end -/
def subdivide (poly : List Nat) : Except Fault (List (List Nat)) :=
  match poly with
  | a :: b :: l => .ok (((b :: l).zip l).map fun x => [a, x.1, x.2])
  | _ => .error .ub

/-- triangulateImpl, PolygonTriangulationGeometry.cpp 432-447 -/
def Data.triangulate (d : Data) : Except Fault (List (List Nat)) :=
  if d.size < 3 then .error .geometry
  else do
    let l ← d.polys.mapM fun p => if p.length = 3 then .ok [p] else subdivide p
    return l.flatten

end Verif.Tri
