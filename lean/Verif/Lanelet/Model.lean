import Verif.LineStr.Model

/-!
Model of lanelets and areas: lanelet2_core/include/lanelet2_core/primitives/Lanelet.h, lanelet2_core/src/Lanelet.cpp
(242-320), lanelet2_core/include/lanelet2_core/primitives/Area.h, and the neighbourhood predicates of
lanelet2_core/include/lanelet2_core/geometry/impl/Lanelet.h and impl/Area.h.

Linestrings are those of `Verif.LineStr`. `compute` stands for the computation of the centerline (Lanelet.cpp 180-240), see
`Verif.Center`. Points `P` have decidable equality: operator== of points compares the data object.
-/
namespace Verif.Lanelet
open Verif.LineStr

variable {P : Type}

/-- the cached centerline: a linestring that was set, or one that was computed (with InvalId); Lanelet.h 82 -/
inductive Center (P : Type) where
  | given (ls : LS)
  | made (pts : List P)

/-- LaneletData, Lanelet.h 26-87; regulatory elements are numbered, pointers may be null -/
structure LData (P : Type) where
  left : LS
  right : LS
  regs : List Nat
  center : Option (Center P)

/-- AreaData, Area.h 43-108: the polygons are caches of lists of linestrings -/
structure AData where
  outer : List LS
  inner : List (List LS)
  outerPoly : List LS
  innerPolys : List (List LS)
  regs : List Nat

/-- The data objects of linestrings (LineString.h 139-184), lanelets (Lanelet.h 22-84) and areas (Area.h 43-112). -/
structure World (P : Type) where
  pts : Store P
  ids : Nat → Int
  lls : Nat → LData P
  ars : Nat → AData

/-- lanelet handle, Lanelet.h 134-144 -/
structure LH where
  data : Nat
  inv : Bool
  deriving DecidableEq

/-- Assignment to the data of one lanelet. -/
def World.setLL (w : World P) (d : Nat) (x : LData P) : World P := { w with lls := fun d' => if d' = d then x else w.lls d' }
/-- Assignment to the data of one area. -/
def World.setAr (w : World P) (d : Nat) (x : AData) : World P := { w with ars := fun d' => if d' = d then x else w.ars d' }

/-- `InvalId`; Forward.h 199 -/
def invalId : Int := 0

/-- points of a linestring in its order; LineString.h 271-283 -/
def points (w : World P) (ls : LS) : List P := if ls.inv then (w.pts ls.data).reverse else w.pts ls.data

/-- invert, Lanelet.h 157, 232 -/
def invertL (h : LH) : LH := ⟨h.data, !h.inv⟩

/-- leftBound3d, Lanelet.h 164-166, 244 -/
def leftBound (w : World P) (h : LH) : LS := if h.inv then invert (w.lls h.data).right else (w.lls h.data).left

/-- rightBound3d, Lanelet.h 173-175, 256 -/
def rightBound (w : World P) (h : LH) : LS := if h.inv then invert (w.lls h.data).left else (w.lls h.data).right

/-- hasCustomCenterline, Lanelet.cpp 275-278 -/
def hasCustom (w : World P) (d : Nat) : Bool :=
  match (w.lls d).center with
  | some (.given ls) => decide (w.ids ls.data ≠ invalId)
  | _ => false

/-- LaneletData::resetCache, Lanelet.cpp 284-288 -/
def resetCache (w : World P) (d : Nat) : World P :=
  if hasCustom w d then w else w.setLL d { w.lls d with center := none }

/-- LaneletData::setLeftBound, Lanelet.cpp 257-262 -/
def setLeftD (w : World P) (d : Nat) (b : LS) : World P :=
  if b ≠ (w.lls d).left then
    let w := resetCache w d
    w.setLL d { w.lls d with left := b }
  else w

/-- LaneletData::setRightBound, Lanelet.cpp 264-269 -/
def setRightD (w : World P) (d : Nat) (b : LS) : World P :=
  if b ≠ (w.lls d).right then
    let w := resetCache w d
    w.setLL d { w.lls d with right := b }
  else w

/-- Lanelet::setLeftBound, Lanelet.h 262-264 -/
def setLeft (w : World P) (h : LH) (b : LS) : World P :=
  if h.inv then setRightD w h.data (invert b) else setLeftD w h.data b

/-- Lanelet::setRightBound, Lanelet.h 267-269 -/
def setRight (w : World P) (h : LH) (b : LS) : World P :=
  if h.inv then setLeftD w h.data (invert b) else setRightD w h.data b

/-- setCenterline, Lanelet.cpp 271-273 and Lanelet.h 278-280 -/
def setCenterline (w : World P) (h : LH) (c : LS) : World P :=
  let c := if h.inv then invert c else c
  w.setLL h.data { w.lls h.data with center := some (.given c) }

/-- LaneletData::centerline and ConstLanelet::centerline3d, Lanelet.cpp 247-255, Lanelet.h 193-195: points of the
centerline in the order of the handle, and the world with the cache filled -/
def centerline (compute : List P → List P → List P) (w : World P) (h : LH) : List P × World P :=
  let r : List P × World P := match (w.lls h.data).center with
    | some (.given ls) => (points w ls, w)
    | some (.made pts) => (pts, w)
    | none =>
      let pts := compute (points w (w.lls h.data).left) (points w (w.lls h.data).right)
      (pts, w.setLL h.data { w.lls h.data with center := some (.made pts) })
  (if h.inv then r.1.reverse else r.1, r.2)

/-- polygon3d, Lanelet.cpp 280-282, 314: the parts of the compound polygon; the same for inverted lanelets -/
def polygon (w : World P) (h : LH) : List LS := [(w.lls h.data).left, invert (w.lls h.data).right]

/-- addRegulatoryElement, Lanelet.h 286-291: a null pointer (`none`) is an error -/
def addReg (w : World P) (h : LH) (r : Option Nat) : Except Unit (World P) :=
  match r with
  | none => .error ()
  | some r => .ok (w.setLL h.data { w.lls h.data with regs := (w.lls h.data).regs ++ [r] })

/-- removeRegulatoryElement, Lanelet.h 294-302 -/
def removeReg (w : World P) (h : LH) (r : Nat) : Bool × World P :=
  if r ∈ (w.lls h.data).regs then
    (true, w.setLL h.data { w.lls h.data with regs := (w.lls h.data).regs.erase r })
  else (false, w)

/-- operator==, Lanelet.h 369-371 -/
def equalL (a b : LH) : Bool := a.data == b.data && a.inv == b.inv

/-! ### Areas -/

/-- AreaData::resetCache, Area.h 95-99 -/
def resetCacheA (a : AData) : AData := { a with outerPoly := a.outer, innerPolys := a.inner }

/-- AreaData constructor, Area.h 46-53 -/
def mkArea (outer : List LS) (inner : List (List LS)) (regs : List Nat) : AData :=
  resetCacheA ⟨outer, inner, [], [], regs⟩

/-- setOuterBound, Area.h 85-88 -/
def setOuter (w : World P) (d : Nat) (b : List LS) : World P := w.setAr d (resetCacheA { w.ars d with outer := b })

/-- setInnerBounds, Area.h 90-93 -/
def setInner (w : World P) (d : Nat) (b : List (List LS)) : World P :=
  w.setAr d (resetCacheA { w.ars d with inner := b })

/-! ### Neighbourhood predicates, geometry/impl/Lanelet.h and impl/Area.h -/

/-- leftOf, impl/Lanelet.h 128-131 -/
def leftOf (w : World P) (left right : LH) : Bool := rightBound w left == leftBound w right

/-- rightOf, impl/Lanelet.h 133-136 -/
def rightOf (w : World P) (right left : LH) : Bool := leftOf w left right

/-- follows, impl/Lanelet.h 138-143 -/
def follows [DecidableEq P] (w : World P) (prev next : LH) : Bool :=
  let pl := points w (leftBound w prev)
  let pr := points w (rightBound w prev)
  let nl := points w (leftBound w next)
  let nr := points w (rightBound w next)
  !pl.isEmpty && !pr.isEmpty && !nl.isEmpty && !nr.isEmpty && decide (pl.getLast? = nl.head?) &&
    decide (pr.getLast? = nr.head?)

/-- determineCommonLine of lanelets, impl/Lanelet.h 145-164 -/
def commonLine (w : World P) (ll other : LH) (allowInverted : Bool) : Option LS :=
  if leftOf w other ll then some (leftBound w ll)
  else if rightOf w other ll then some (rightBound w ll)
  else if allowInverted then
    if leftOf w (invertL other) ll then some (leftBound w ll)
    else if rightOf w (invertL other) ll then some (rightBound w ll)
    else none
  else none

/-- leftOf(lanelet, area): the area is left of the lanelet, impl/Area.h 62-64 -/
def areaLeftOf (w : World P) (right : LH) (left : Nat) : Bool :=
  (w.ars left).outer.any fun b => invert b == leftBound w right

/-- rightOf(lanelet, area), impl/Area.h 66 -/
def areaRightOf (w : World P) (left : LH) (area : Nat) : Bool := areaLeftOf w (invertL left) area

/-- follows(lanelet, area), impl/Area.h 68-74; front()/back() of empty bounds are undefined behaviour (`none`) -/
def areaFollows [DecidableEq P] (w : World P) (prev : LH) (next : Nat) : Option Bool := do
  let p1 ← (points w (leftBound w prev)).getLast?
  let p2 ← (points w (rightBound w prev)).getLast?
  -- anyOf stops at the first match
  (w.ars next).outer.foldlM (fun found ls => if found then some true else do
    let f ← (points w ls).head?
    let b ← (points w ls).getLast?
    return (decide (f = p1) && decide (b = p2)) || (decide (f = p2) && decide (b = p1))) false

/-- follows(area, lanelet), impl/Area.h 76 -/
def followsArea [DecidableEq P] (w : World P) (prev : Nat) (next : LH) : Option Bool := areaFollows w (invertL next) prev

/-- determineCommonLineRight, impl/Area.h 141-143 -/
def commonLineRight (w : World P) (left : LH) (right : Nat) : Option LS :=
  (w.ars right).outer.find? fun b => b == rightBound w left

/-- determineCommonLineLeft, impl/Area.h 133-139 -/
def commonLineLeft (w : World P) (right : LH) (left : Nat) : Option LS :=
  (commonLineRight w (invertL right) left).map invert

/-- determineCommonLineSideways(lanelet, area), impl/Area.h 110-113 -/
def commonLineSideways (w : World P) (ll : LH) (ar : Nat) : Option LS :=
  match commonLineLeft w ll ar with
  | some r => some r
  | none => commonLineRight w ll ar

/-- determineCommonLine(area, area), impl/Area.h 121-126 -/
def commonLineAreas (w : World P) (ar1 ar2 : Nat) : Option LS :=
  (w.ars ar1).outer.find? fun b1 => ((w.ars ar2).outer.find? fun b2 => b2 == invert b1).isSome

end Verif.Lanelet
