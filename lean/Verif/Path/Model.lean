import Verif.Compound.Props

/-!
Model of lanelet2_routing/src/LaneletPath.cpp and of the functions of lanelet2_core/include/lanelet2_core/geometry/impl/{Lanelet,Area}.h it
uses.

A linestring is a handle: the address of its data and a flag (LineString.h 714-716). A lanelet is what its handle shows: its left and its right
bound (C01). Points are handles; the polygon consists of their positions, the model keeps the handles. The points of a compound linestring are
those shown in C12.
-/
namespace Verif.Path

/-- exceptions and undefined behaviour; LaneletPath.cpp 17-323 -/
inductive Fault where
  | ub | geometry | invalidInput | runtime
  deriving DecidableEq

/-- a linestring handle; LineString.h 220-360 -/
structure LS where
  data : Nat
  inv : Bool
  deriving DecidableEq

/-- LineString.h invert() -/
def LS.invert (l : LS) : LS := ⟨l.data, !l.inv⟩

/-- LaneletOrArea.h 10-100. -/
inductive Prim where
  | lanelet (left right : LS)
  | area (outer : List LS)
  deriving DecidableEq

variable {P : Type} [DecidableEq P]

/-- points of the linestrings; LineString.h 139-184 -/
abbrev World (P : Type) := Nat → List P

/-- LineString.h 271-283. -/
def LS.points (w : World P) (l : LS) : List P := if l.inv then (w l.data).reverse else w l.data

/-- `front()` of a linestring; LineString.h 286 -/
def front (w : World P) (l : LS) : Except Fault P :=
  match (l.points w).head? with
  | some p => .ok p
  | none => .error .ub

/-- `back()` of a linestring; LineString.h 295 -/
def back (w : World P) (l : LS) : Except Fault P :=
  match (l.points w).getLast? with
  | some p => .ok p
  | none => .error .ub

/-! ### geometry -/

/-- follows, geometry/impl/Lanelet.h 138-143 -/
def follows (w : World P) (pl pr nl nr : LS) : Bool :=
  !(pl.points w).isEmpty && !(pr.points w).isEmpty && !(nl.points w).isEmpty && !(nr.points w).isEmpty &&
    decide ((pl.points w).getLast? = (nl.points w).head?) && decide ((pr.points w).getLast? = (nr.points w).head?)

/-- utils::findIf with the test of determineCommonLinePreceding, geometry/impl/Area.h 93-95 -/
def findEnds (w : World P) (p1 p2 : P) : List LS → Except Fault (Option LS)
  | [] => .ok none
  | l :: ls => do
    let b ← back w l
    let f ← front w l
    if b = p1 ∧ f = p2 then return some l else findEnds w p1 p2 ls

/-- determineCommonLinePreceding, geometry/impl/Area.h 92-96 -/
def commonPreceding (w : World P) (left right : LS) (outer : List LS) : Except Fault (Option LS) := do
  let p1 ← back w left
  let p2 ← back w right
  findEnds w p1 p2 outer

/-- determineCommonLineFollowing, geometry/impl/Area.h 98-100: with the inverted lanelet -/
def commonFollowing (w : World P) (left right : LS) (outer : List LS) : Except Fault (Option LS) :=
  commonPreceding w right.invert left.invert outer

/-- leftOf of lanelet and area, geometry/impl/Area.h 62-64: the area is left of the lanelet -/
def areaLeftOf (left : LS) (outer : List LS) : Bool := outer.any fun b => decide (b.invert = left)

/-- determineCommonLine of two areas, geometry/impl/Area.h 121-126 -/
def commonAreas (outer1 outer2 : List LS) : Option LS := outer1.find? fun b => outer2.any fun b2 => decide (b2 = b.invert)

/-! ### LaneletPath.cpp -/

/-- extractBetween, LaneletPath.cpp 11-24 -/
def extractBetween (ls : List LS) (start «end» : Nat) : List LS :=
  if «end» ≤ start then ls.drop (start + 1) ++ ls.take «end» else (ls.take «end»).drop (start + 1)

/-- std::find; LaneletPath.cpp 27-50 -/
def indexOf (ls : List LS) (l : LS) : Except Fault Nat :=
  match ls.findIdx? fun x => decide (x = l) with
  | some i => .ok i
  | none => .error .invalidInput

/-- extractBounds, LaneletPath.cpp 26-41 -/
def extractBounds (outer : List LS) (rear frontLine : LS) : Except Fault (List LS × List LS) := do
  let start ← indexOf outer frontLine
  let e ← indexOf outer rear
  return (extractBetween outer e start, extractBetween outer start e)

/-- extractExceptBorder, LaneletPath.cpp 43-51 -/
def extractExceptBorder (outer : List LS) (border : LS) : Except Fault (List LS) := do
  let i ← indexOf outer border
  return extractBetween outer i i

/-- the points of CompoundLineString3d (C12); LaneletPath.cpp 53-67 -/
def compound (w : World P) (ls : List LS) : List P := Compound.view ⟨ls.map (LS.points w), false⟩

/-- appendLineStrings, LaneletPath.cpp 53-67: what is appended -/
def appendLineStrings (w : World P) (ls : List LS) (reversed omitLast omitFirst : Bool) : List P :=
  let c := compound w ls
  if c.length < (if omitLast || omitFirst then (if omitFirst && omitLast then 3 else 2) else 1) then []
  else
    let b := if reversed then c.reverse else c
    let b := if omitFirst then b.tail else b
    if omitLast then b.dropLast else b

/-- LaneletAdjacency, LaneletPath.cpp 86: the lanelet is … of the other primitive -/
inductive Adj where
  | following | preceding | left | right
  deriving DecidableEq

/-- getLaneletAdjacency of a lanelet and an area, LaneletPath.cpp 102-118: adjacency and border -/
def adjacencyArea (w : World P) (left right : LS) (outer : List LS) : Except Fault (Option (Adj × LS)) := do
  match ← commonFollowing w left right outer with
  | some l => return some (.following, l)
  | none =>
    match ← commonPreceding w left right outer with
    | some l => return some (.preceding, l)
    | none =>
      if areaLeftOf left outer then return some (.right, left.invert)
      else if areaLeftOf right.invert outer then return some (.left, right)
      else return none

/-- getLaneletAdjacency of two lanelets, LaneletPath.cpp 120-134; the value-initialised pair at the end is Following, Following -/
def adjacencyLanelets (w : World P) (l r l' r' : LS) : Adj × Adj :=
  if follows w l r l' r' then (.preceding, .following)
  else if follows w l' r' l r then (.following, .preceding)
  else if r' = l then (.right, .left)
  else if r = l' then (.left, .right)
  else (.following, .following)

/-- points of a bound without the first: `basicBegin() + 1 … basicEnd()` -/
def tailOf (w : World P) (l : LS) : Except Fault (List P) :=
  match l.points w with
  | [] => .error .ub
  | _ :: t => .ok t

/-- appendExtractedClockwise, LaneletPath.cpp 136-148 -/
def extractedCw (w : World P) (l r : LS) : Adj → Except Fault (List P)
  | .right => tailOf w l
  | .preceding => do return [← back w r]
  | .left => tailOf w r.invert
  | .following => do return [← front w l]

/-- appendExtractedCounterClockwise, LaneletPath.cpp 150-162 -/
def extractedCcw (w : World P) (l r : LS) : Adj → Except Fault (List P)
  | .right => tailOf w l.invert
  | .preceding => do return [← back w l]
  | .left => tailOf w r
  | .following => do return [← front w r]

/-- appendFirst, LaneletPath.cpp 164-176 -/
def firstPoint (w : World P) (l r : LS) : Adj → Except Fault P
  | .following => front w l
  | .right => back w l
  | .preceding => back w r
  | .left => front w r

/-- the map `cw`, LaneletPath.cpp 181-184 -/
def cw : Adj → Adj
  | .left => .following
  | .following => .right
  | .right => .preceding
  | .preceding => .left

/-- the map `ccw`, LaneletPath.cpp 194-197 -/
def ccw : Adj → Adj
  | .left => .preceding
  | .preceding => .right
  | .right => .following
  | .following => .left

/-- the loops of appendLaneletBoundsLeft and appendLaneletBoundsRight, LaneletPath.cpp 186-189, 199-202; `next` has period 4, so the loop ends
after at most three passes -/
def sides (next : Adj → Adj) (out : Adj) : Nat → Adj → List Adj
  | 0, _ => []
  | n + 1, a => if a = out then [] else a :: sides next out n (next a)

/-- appendLaneletBoundsLeft, LaneletPath.cpp 179-190 -/
def boundsLeft (w : World P) (l r : LS) (inn out : Adj) : Except Fault (List P) :=
  return (← (sides cw out 4 (cw inn)).mapM (extractedCw w l r)).flatten

/-- appendLaneletBoundsRight, LaneletPath.cpp 192-203 -/
def boundsRight (w : World P) (l r : LS) (inn out : Adj) : Except Fault (List P) :=
  return (← (sides ccw out 4 (ccw inn)).mapM (extractedCcw w l r)).flatten

/-- BoundsResult, LaneletPath.cpp 95-100 -/
structure Res (P : Type) where
  prevBorder : Option LS := none
  llAdj : Option Adj := none
  left : List P := []
  right : List P := []

/-- `*optional`; LaneletPath.cpp 218-311 -/
def deref {α : Type} : Option α → Except Fault α
  | some a => .ok a
  | none => .error .ub

/-- appendLaneletBounds, LaneletPath.cpp 205-211 -/
def appendLaneletBounds (w : World P) (br : Res P) (l r : LS) (inn out : Adj) : Except Fault (Res P) := do
  let a ← boundsLeft w l r inn out
  let b ← if inn ≠ out then boundsRight w l r inn out else pure []
  return { br with left := br.left ++ a, right := br.right ++ b }

/-- getBorder, LaneletPath.cpp 218-232: the border in the current area -/
def getBorder (w : World P) (br : Res P) (outer : List LS) : Prim → Except Fault (LS × Res P)
  | .area outer' =>
    match commonAreas outer' outer with
    | none => .error .geometry
    | some b => .ok (b.invert, { br with prevBorder := some b })
  | .lanelet l r => do
    match ← adjacencyArea w l r outer with
    | none => .error .geometry
    | some (a, b) => return (b, { br with llAdj := some a })

/-- addLaneletPair, LaneletPath.cpp 234-241 -/
def addLaneletPair (w : World P) (br : Res P) (l r l' r' : LS) (notTail : Bool) : Except Fault (Res P) := do
  let (a, b) := adjacencyLanelets w l r l' r'
  let br ← if notTail then pure br else do pure { br with left := br.left ++ [← firstPoint w l r a] }
  let inn ← if notTail then deref br.llAdj else pure a
  let br ← appendLaneletBounds w br l r inn a
  return { br with llAdj := some b }

/-- addLaneletAreaHead, LaneletPath.cpp 243-253 -/
def addLaneletAreaHead (w : World P) (br : Res P) (l r : LS) (outer : List LS) (notTail : Bool) : Except Fault (Res P) := do
  match ← adjacencyArea w l r outer with
  | none => .error .runtime
  | some (a, b) =>
    let br ← if notTail then pure br else do pure { br with left := br.left ++ [← firstPoint w l r a] }
    let inn ← if notTail then deref br.llAdj else pure a
    let br ← appendLaneletBounds w br l r inn a
    return { br with prevBorder := some b }

/-- appendTail with addFirstArea and addFirstLanelet, LaneletPath.cpp 266-283, 293-304 -/
def appendTail (w : World P) : Prim → Prim → Except Fault (Res P)
  | .area outer, next => do
    let (border, br) ← getBorder w {} outer next
    let ls ← extractExceptBorder outer border
    return { br with left := br.left ++ appendLineStrings w ls false false false }
  | .lanelet l r, .lanelet l' r' => addLaneletPair w {} l r l' r' false
  | .lanelet l r, .area outer => addLaneletAreaHead w {} l r outer false

/-- appendBounds with addLanelet, addArea and appendFinalArea, LaneletPath.cpp 255-264, 285-291, 306-323. `pop_back` of an empty list is
undefined. -/
def appendBounds (w : World P) (br : Res P) : Prim → Option Prim → Except Fault (Res P)
  | .lanelet l r, none => do
    let a ← deref br.llAdj
    let br ← appendLaneletBounds w br l r a a
    if br.left.isEmpty then .error .ub else return { br with left := br.left.dropLast }
  | .lanelet l r, some (.lanelet l' r') => addLaneletPair w br l r l' r' true
  | .lanelet l r, some (.area outer) => addLaneletAreaHead w br l r outer true
  | .area outer, none =>
    match br.prevBorder with
    | none => .error .invalidInput
    | some b => do
      let ls ← extractExceptBorder outer b
      return { br with left := br.left ++ appendLineStrings w ls false true true }
  | .area outer, some next => do
    let old ← deref br.prevBorder
    let (border, br) ← getBorder w br outer next
    let (f, s) ← extractBounds outer old border
    return { br with left := br.left ++ appendLineStrings w f false false true, right := br.right ++ appendLineStrings w s true false true }

/-- the loop of getEnclosingPolygon3d, LaneletPath.cpp 346-349 -/
def appendAll (w : World P) : Res P → List Prim → Except Fault (Res P)
  | br, [] => .ok br
  | br, p :: rest => do appendAll w (← appendBounds w br p rest.head?) rest

/-- boundingPolygon, LaneletOrArea.h 90-95 with Lanelet.cpp polygon() (left bound and inverted right bound) and Area.h 96 -/
def boundingPolygon (w : World P) : Prim → List P
  | .lanelet l r => compound w [l, r.invert]
  | .area outer => compound w outer

/-- getEnclosingPolygon3d, LaneletPath.cpp 338-352 -/
def enclosingPolygon (w : World P) : List Prim → Except Fault (List P)
  | [] => .ok []
  | [p] => .ok (boundingPolygon w p)
  | p :: q :: rest => do
    let br ← appendTail w p q
    let br ← appendAll w br (q :: rest)
    return br.left ++ br.right.reverse

/-- getRemainingLane, LaneletPath.cpp 326-336; the position is given by the lanelets from it on -/
def remainingLane (w : World P) : List (LS × LS) → List (LS × LS)
  | [] => []
  | [p] => [p]
  | p :: q :: rest => if follows w p.1 p.2 q.1 q.2 then p :: remainingLane w (q :: rest) else [p]

end Verif.Path
