import Mathlib.Order.Lattice
import Mathlib.Order.Defs.LinearOrder
import Mathlib.Data.Fintype.Basic

/-!
Model of bounding boxes: lanelet2_core/include/lanelet2_core/primitives/BoundingBox.h (BoundingBox2d; BoundingBox3d is
Eigen::AlignedBox3d with the same operations), the functions boundingBox2d/3d of geometry/impl/LineString.h, impl/Lanelet.h,
impl/Area.h and lanelet2_core/src/RegulatoryElementGeometry.cpp.

`n` is the dimension. Coordinates are elements of a linear order with a smallest (`lo`) and a largest (`hi`) number:
std::numeric_limits<double>::lowest() and max(). Comparing, min and max of finite doubles are exact.
-/
namespace Verif.BBox

variable {n : Nat} {F : Type} [LinearOrder F]

/-- BasicPoint2d, BasicPoint3d (n = 2, 3), Point.h 20-21. -/
abbrev Pt (n : Nat) (F : Type) := Fin n → F

/-- BoundingBox.h 275 -/
structure Box (n : Nat) (F : Type) where
  min : Pt n F
  max : Pt n F
  deriving DecidableEq

/-- setEmpty, BoundingBox.h 98-101 -/
def null (lo hi : F) : Box n F := ⟨fun _ => hi, fun _ => lo⟩

/-- isEmpty, BoundingBox.h 94 -/
def Box.isEmpty (b : Box n F) : Bool := decide (∃ i, b.min i > b.max i)

/-- contains(point), BoundingBox.h 159-162, as in Eigen -/
def Box.contains (b : Box n F) (p : Pt n F) : Bool := decide ((∀ i, b.min i ≤ p i) ∧ ∀ i, p i ≤ b.max i)

/-- contains(box), BoundingBox.h 165-167 -/
def Box.containsBox (a b : Box n F) : Bool := decide ((∀ i, a.min i ≤ b.min i) ∧ ∀ i, b.max i ≤ a.max i)

/-- intersects, BoundingBox.h 171-173 -/
def Box.intersects (a b : Box n F) : Bool := decide ((∀ i, a.min i ≤ b.max i) ∧ ∀ i, b.min i ≤ a.max i)

/-- extend(point), BoundingBox.h 177-183 -/
def Box.extend (b : Box n F) (p : Pt n F) : Box n F := ⟨fun i => Min.min (b.min i) (p i), fun i => Max.max (b.max i) (p i)⟩

/-- extend(box), BoundingBox.h 187-191 and merged, 212 -/
def Box.extendBox (a b : Box n F) : Box n F :=
  ⟨fun i => Min.min (a.min i) (b.min i), fun i => Max.max (a.max i) (b.max i)⟩

/-- clamp, BoundingBox.h 196-200 and intersection, 205-207 -/
def Box.clamp (a b : Box n F) : Box n F :=
  ⟨fun i => Max.max (a.min i) (b.min i), fun i => Min.min (a.max i) (b.max i)⟩

/-- corner, BoundingBox.h 139-152: bit d of the number selects max or min in dimension d -/
def Box.corner (b : Box n F) (corner : Nat) : Pt n F := fun i => if corner.testBit i then b.max i else b.min i

/-- boundingBox2d/3d of a linestring or polygon, impl/LineString.h 742-759 -/
def ofPoints (lo hi : F) (pts : List (Pt n F)) : Box n F := pts.foldl Box.extend (null lo hi)

/-- boundingBox2d/3d of a lanelet, impl/Lanelet.h 39-51 -/
def ofLanelet (lo hi : F) (left right : List (Pt n F)) : Box n F := (ofPoints lo hi left).extendBox (ofPoints lo hi right)

/-- boundingBox2d/3d of an area, impl/Area.h 24-32; `outer`: the points of the outer bound -/
def ofArea (lo hi : F) (outer : List (Pt n F)) : Box n F := ofPoints lo hi outer

/-- parameters of regulatory elements; `none`: an expired weak reference; RegulatoryElementGeometry.cpp 14-49 -/
inductive Param (n : Nat) (F : Type) where
  | point (p : Pt n F)
  | line (pts : List (Pt n F))
  | polygon (pts : List (Pt n F))
  | lanelet (bounds : Option (List (Pt n F) × List (Pt n F)))
  | area (outer : Option (List (Pt n F)))

/-- Bbox2dVisitor, Bbox3dVisitor, RegulatoryElementGeometry.cpp 14-49; the box of a point is the point -/
def visit (lo hi : F) (b : Box n F) : Param n F → Box n F
  | .point p => b.extendBox ⟨p, p⟩
  | .line pts => b.extendBox (ofPoints lo hi pts)
  | .polygon pts => b.extendBox (ofPoints lo hi pts)
  | .lanelet none => b
  | .lanelet (some (l, r)) => b.extendBox (ofLanelet lo hi l r)
  | .area none => b
  | .area (some o) => b.extendBox (ofArea lo hi o)

/-- boundingBox2d/3d of a regulatory element, RegulatoryElementGeometry.cpp 73-83 -/
def ofRegElem (lo hi : F) (params : List (Param n F)) : Box n F := params.foldl (visit lo hi) (null lo hi)

/-- DistanceVisitor, RegulatoryElementGeometry.cpp 51-70: `dist` is the distance of a parameter that is not expired, `none`
is infinity -/
def nearer (dist : Param n F → F) (d : Option F) (p : Param n F) : Option F :=
  match d with
  | none => some (dist p)
  | some d => some (Min.min d (dist p))

/-- RegulatoryElementGeometry.cpp 51-70. -/
def visitDist (dist : Param n F → F) (d : Option F) : Param n F → Option F
  | .lanelet none => d
  | .area none => d
  | p => nearer dist d p

/-- distance2d of a regulatory element, RegulatoryElementGeometry.cpp 85-89 -/
def distanceRegElem (dist : Param n F → F) (params : List (Param n F)) : Option F := params.foldl (visitDist dist) none

end Verif.BBox
