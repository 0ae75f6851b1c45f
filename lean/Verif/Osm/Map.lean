import Verif.Osm.File

/-!
The part of a LaneletMap (lanelet2_core) that is written to and loaded from OSM files.

Primitives are objects with shared data that refer to each other by pointers. Here a reference is the id of the object, the
direction in which it is seen, and whether it is an object that the loader made up because it found none (`dummy`). Layers are
maps from ids to objects (unordered in the code; the order of the list is arbitrary, theorems hold for all orders).
-/
namespace Verif.Osm

/-- A reference to a primitive: its id, and whether the handle is inverted (LineString.h 257, Lanelet.h 154). -/
structure Ref where
  id : Id
  inv : Bool := false
  dummy : Bool := false
  deriving DecidableEq

/-- Point3d; `P` is the position; Point.h -/
structure MPoint (P : Type) where
  id : Id
  attrs : Attrs
  pos : P

/-- LineString3d: the points in the order of the data, and whether the handle in the layer is inverted; LineString.h 538-549 -/
structure MLine where
  id : Id
  attrs : Attrs
  pts : List Ref
  inv : Bool := false
  deriving DecidableEq

/-- the points as seen through the handle; LineString.h 271-283 -/
def MLine.view (l : MLine) : List Ref := if l.inv then l.pts.reverse else l.pts

/-- LineString.h 546. -/
def MLine.invert (l : MLine) : MLine := { l with inv := !l.inv }

/-- Polygon3d; Polygon.h -/
structure MPoly where
  id : Id
  attrs : Attrs
  pts : List Ref
  deriving DecidableEq

/-- Lanelet as seen through the handle in the layer; `center` is a custom centerline; Lanelet.h 221-300 -/
structure MLanelet where
  id : Id
  attrs : Attrs
  left : Ref
  right : Ref
  center : Option Ref
  regs : List Ref
  deriving DecidableEq

/-- Area; Area.h 206-260 -/
structure MArea where
  id : Id
  attrs : Attrs
  outer : List Ref
  inner : List (List Ref)
  regs : List Ref
  deriving DecidableEq

/-- RuleParameter; lanelets and areas are weak references, which may have expired; RegulatoryElement.h 90 -/
inductive Param where
  | point (r : Ref)
  | line (r : Ref)
  | poly (r : Ref)
  | lanelet (r : Ref)
  | area (r : Ref)
  | expired
  deriving DecidableEq

/-- RegulatoryElement: parameters by role, in the order of the roles; RegulatoryElement.h 134-140 -/
structure MReg where
  id : Id
  attrs : Attrs
  params : AMap String (List Param)
  deriving DecidableEq

/-- The layers of LaneletMap.h 313-370. -/
structure LMap (P : Type) where
  points : AMap Id (MPoint P) := []
  lines : AMap Id MLine := []
  polys : AMap Id MPoly := []
  lanelets : AMap Id MLanelet := []
  areas : AMap Id MArea := []
  regs : AMap Id MReg := []

end Verif.Osm
