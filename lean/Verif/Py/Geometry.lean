import Verif.Py.Convert

/-!
Model of the overloaded functions of the Python module lanelet2.geometry, python_api/geometry.cpp: which C++ function a call from Python
reaches, and of `to2D` and `to3D` there. The geometry itself is modelled in Verif.Geo, Verif.Lanelet and Verif.LineStr.
-/
namespace Verif.Py.Geometry
open Verif.Py.Convert

/-- One definition of an overloaded function: its parameters and the dimension in which the C++ function computes, which is that of its
template arguments or in its name -/
structure Row where
  /-- the parameters -/
  fn : Fn
  /-- 2 or 3 -/
  dim : Nat
  deriving DecidableEq

/-- The definitions of `distance`, geometry.cpp 128-247, in their order -/
def distanceDefs : List Row :=
  [⟨⟨[.cls .basicPoint2d, .cls .basicPoint2d], 2⟩, 2⟩, ⟨⟨[.cls .constPoint2d, .cls .constPoint2d], 2⟩, 2⟩,
   ⟨⟨[.cls .constPoint2d, .cls .basicPoint2d], 2⟩, 2⟩, ⟨⟨[.cls .basicPoint2d, .cls .constPoint2d], 2⟩, 2⟩,
   ⟨⟨[.cls .constPoint2d, .cls .hybridLineString2d], 2⟩, 2⟩, ⟨⟨[.cls .hybridLineString2d, .cls .constPoint2d], 2⟩, 2⟩,
   ⟨⟨[.cls .constPoint2d, .cls .compoundLineString2d], 2⟩, 2⟩, ⟨⟨[.cls .compoundLineString2d, .cls .constPoint2d], 2⟩, 2⟩,
   ⟨⟨[.cls .constPoint2d, .cls .constLineString2d], 2⟩, 2⟩, ⟨⟨[.cls .constLineString2d, .cls .constPoint2d], 2⟩, 2⟩,
   ⟨⟨[.cls .constPoint2d, .cls .compoundLineString2d], 2⟩, 2⟩, ⟨⟨[.cls .compoundLineString2d, .cls .constPoint2d], 2⟩, 2⟩,
   ⟨⟨[.cls .basicPoint2d, .cls .constLineString2d], 2⟩, 2⟩, ⟨⟨[.cls .constLineString2d, .cls .basicPoint2d], 2⟩, 2⟩,
   ⟨⟨[.cls .basicPoint2d, .cls .compoundLineString2d], 2⟩, 2⟩, ⟨⟨[.cls .compoundLineString2d, .cls .basicPoint2d], 2⟩, 2⟩,
   ⟨⟨[.cls .constLineString2d, .cls .constLineString2d], 2⟩, 2⟩, ⟨⟨[.cls .hybridLineString2d, .cls .hybridLineString2d], 2⟩, 2⟩,
   ⟨⟨[.cls .compoundLineString2d, .cls .compoundLineString2d], 2⟩, 2⟩, ⟨⟨[.cls .constLineString2d, .cls .compoundLineString2d], 2⟩, 2⟩,
   ⟨⟨[.cls .compoundLineString2d, .cls .constLineString2d], 2⟩, 2⟩, ⟨⟨[.cls .hybridPolygon2d, .cls .basicPoint2d], 2⟩, 2⟩,
   ⟨⟨[.cls .constPolygon2d, .cls .basicPoint2d], 2⟩, 2⟩, ⟨⟨[.cls .constPolygon2d, .cls .constPoint2d], 2⟩, 2⟩,
   ⟨⟨[.cls .constPolygon2d, .cls .constLineString2d], 2⟩, 2⟩, ⟨⟨[.cls .hybridPolygon2d, .cls .hybridLineString2d], 2⟩, 2⟩,
   ⟨⟨[.cls .constLineString2d, .cls .constPolygon2d], 2⟩, 2⟩, ⟨⟨[.cls .hybridLineString2d, .cls .hybridPolygon2d], 2⟩, 2⟩,
   ⟨⟨[.cls .constPolygon2d, .cls .compoundLineString2d], 2⟩, 2⟩, ⟨⟨[.cls .compoundLineString2d, .cls .constPolygon2d], 2⟩, 2⟩,
   ⟨⟨[.cls .hybridPolygon2d, .cls .hybridPolygon2d], 2⟩, 2⟩, ⟨⟨[.cls .constPolygon2d, .cls .constPolygon2d], 2⟩, 2⟩,
   ⟨⟨[.cls .hybridPolygon2d, .cls .constPolygon2d], 2⟩, 2⟩, ⟨⟨[.cls .compoundPolygon2d, .cls .constPolygon2d], 2⟩, 2⟩,
   ⟨⟨[.cls .constPolygon2d, .cls .hybridPolygon2d], 2⟩, 2⟩, ⟨⟨[.cls .constLanelet, .cls .basicPoint2d], 2⟩, 2⟩,
   ⟨⟨[.cls .constLanelet, .cls .constLanelet], 2⟩, 2⟩, ⟨⟨[.cls .basicPoint2d, .cls .constLanelet], 2⟩, 2⟩,
   ⟨⟨[.cls .constArea, .cls .basicPoint2d], 2⟩, 2⟩, ⟨⟨[.cls .basicPoint2d, .cls .constArea], 2⟩, 2⟩,
   ⟨⟨[.cls .constPoint3d, .cls .constPoint3d], 2⟩, 3⟩, ⟨⟨[.cls .constPoint3d, .cls .basicPoint3d], 2⟩, 3⟩,
   ⟨⟨[.cls .basicPoint3d, .cls .constPoint3d], 2⟩, 3⟩, ⟨⟨[.cls .basicPoint3d, .cls .basicPoint3d], 2⟩, 3⟩,
   ⟨⟨[.cls .constPoint3d, .cls .hybridLineString3d], 2⟩, 3⟩, ⟨⟨[.cls .hybridLineString3d, .cls .constPoint3d], 2⟩, 3⟩,
   ⟨⟨[.cls .constPoint3d, .cls .compoundLineString3d], 2⟩, 3⟩, ⟨⟨[.cls .compoundLineString3d, .cls .constPoint3d], 2⟩, 3⟩,
   ⟨⟨[.cls .constPoint3d, .cls .constLineString3d], 2⟩, 3⟩, ⟨⟨[.cls .constLineString3d, .cls .constPoint3d], 2⟩, 3⟩,
   ⟨⟨[.cls .constLineString3d, .cls .constLineString3d], 2⟩, 3⟩, ⟨⟨[.cls .hybridLineString3d, .cls .hybridLineString3d], 2⟩, 3⟩,
   ⟨⟨[.cls .compoundLineString3d, .cls .compoundLineString3d], 2⟩, 3⟩, ⟨⟨[.cls .constLineString3d, .cls .compoundLineString3d], 2⟩, 3⟩,
   ⟨⟨[.cls .compoundLineString3d, .cls .constLineString3d], 2⟩, 3⟩, ⟨⟨[.cls .constLanelet, .cls .basicPoint3d], 2⟩, 3⟩,
   ⟨⟨[.cls .basicPoint3d, .cls .constLanelet], 2⟩, 3⟩, ⟨⟨[.cls .constArea, .cls .basicPoint3d], 2⟩, 3⟩,
   ⟨⟨[.cls .basicPoint3d, .cls .constArea], 2⟩, 3⟩]

/-- The definitions of `equals`, geometry.cpp 251-260, in their order -/
def equalsDefs : List Row :=
  [⟨⟨[.cls .basicPoint2d, .cls .basicPoint2d], 2⟩, 2⟩, ⟨⟨[.cls .constPoint2d, .cls .constPoint2d], 2⟩, 2⟩,
   ⟨⟨[.cls .constPoint2d, .cls .basicPoint2d], 2⟩, 2⟩, ⟨⟨[.cls .basicPoint2d, .cls .constPoint2d], 2⟩, 2⟩,
   ⟨⟨[.cls .basicPoint3d, .cls .basicPoint3d], 2⟩, 3⟩, ⟨⟨[.cls .constPoint3d, .cls .constPoint3d], 2⟩, 3⟩,
   ⟨⟨[.cls .constPoint3d, .cls .basicPoint3d], 2⟩, 3⟩, ⟨⟨[.cls .basicPoint3d, .cls .constPoint3d], 2⟩, 3⟩]

/-- The definitions of `boundingBox2d`, geometry.cpp 262-271, in their order -/
def boundingBox2dDefs : List Row :=
  [⟨⟨[.cls .constPoint2d], 1⟩, 2⟩, ⟨⟨[.cls .constLineString2d], 1⟩, 2⟩, ⟨⟨[.cls .hybridLineString2d], 1⟩, 2⟩,
   ⟨⟨[.cls .constPolygon2d], 1⟩, 2⟩, ⟨⟨[.cls .hybridPolygon2d], 1⟩, 2⟩, ⟨⟨[.cls .constLanelet], 1⟩, 2⟩, ⟨⟨[.cls .constArea], 1⟩, 2⟩,
   ⟨⟨[.ptr .regulatoryElement], 1⟩, 2⟩, ⟨⟨[.unregistered], 1⟩, 2⟩, ⟨⟨[.cls .compoundLineString2d], 1⟩, 2⟩]

/-- The definitions of `boundingBox3d`, geometry.cpp 273-282, in their order -/
def boundingBox3dDefs : List Row :=
  [⟨⟨[.cls .constPoint3d], 1⟩, 3⟩, ⟨⟨[.cls .constLineString3d], 1⟩, 3⟩, ⟨⟨[.cls .hybridLineString3d], 1⟩, 3⟩,
   ⟨⟨[.cls .constPolygon3d], 1⟩, 3⟩, ⟨⟨[.cls .hybridPolygon3d], 1⟩, 3⟩, ⟨⟨[.cls .constLanelet], 1⟩, 3⟩, ⟨⟨[.cls .constArea], 1⟩, 3⟩,
   ⟨⟨[.ptr .regulatoryElement], 1⟩, 3⟩, ⟨⟨[.unregistered], 1⟩, 3⟩, ⟨⟨[.cls .compoundLineString3d], 1⟩, 3⟩]

/-- The definitions of `area`, geometry.cpp 285-286, in their order -/
def areaDefs : List Row :=
  [⟨⟨[.unregistered], 1⟩, 2⟩, ⟨⟨[.cls .hybridPolygon2d], 1⟩, 2⟩]

/-- The definitions of `curvature2d`, geometry.cpp 288-289, in their order -/
def curvature2dDefs : List Row :=
  [⟨⟨[.cls .basicPoint2d, .cls .basicPoint2d, .cls .basicPoint2d], 3⟩, 2⟩,
   ⟨⟨[.cls .constPoint2d, .cls .constPoint2d, .cls .constPoint2d], 3⟩, 2⟩]

/-- The definitions of `signedCurvature2d`, geometry.cpp 291-292, in their order -/
def signedCurvature2dDefs : List Row :=
  [⟨⟨[.cls .basicPoint2d, .cls .basicPoint2d, .cls .basicPoint2d], 3⟩, 2⟩,
   ⟨⟨[.cls .constPoint2d, .cls .constPoint2d, .cls .constPoint2d], 3⟩, 2⟩]

/-- The definitions of `toArcCoordinates`, geometry.cpp 311-313, in their order -/
def toArcCoordinatesDefs : List Row :=
  [⟨⟨[.cls .constLineString2d, .cls .basicPoint2d], 2⟩, 2⟩, ⟨⟨[.cls .compoundLineString2d, .cls .basicPoint2d], 2⟩, 2⟩]

/-- The definitions of `fromArcCoordinates`, geometry.cpp 316-318, in their order -/
def fromArcCoordinatesDefs : List Row :=
  [⟨⟨[.cls .constLineString2d, .cls .arcCoordinates], 2⟩, 2⟩, ⟨⟨[.cls .compoundLineString2d, .cls .arcCoordinates], 2⟩, 2⟩]

/-- The definitions of `length`, geometry.cpp 321-324, in their order -/
def lengthDefs : List Row :=
  [⟨⟨[.cls .constLineString2d], 1⟩, 2⟩, ⟨⟨[.cls .constLineString3d], 1⟩, 3⟩, ⟨⟨[.cls .compoundLineString2d], 1⟩, 2⟩,
   ⟨⟨[.cls .compoundLineString3d], 1⟩, 3⟩]

/-- The definitions of `interpolatedPointAtDistance`, geometry.cpp 326-331, in their order -/
def interpolatedPointAtDistanceDefs : List Row :=
  [⟨⟨[.unregistered, .num], 2⟩, 2⟩, ⟨⟨[.unregistered, .num], 2⟩, 3⟩, ⟨⟨[.cls .constLineString2d, .num], 2⟩, 2⟩,
   ⟨⟨[.cls .constLineString3d, .num], 2⟩, 3⟩, ⟨⟨[.cls .compoundLineString2d, .num], 2⟩, 2⟩, ⟨⟨[.cls .compoundLineString3d, .num], 2⟩, 3⟩]

/-- The definitions of `nearestPointAtDistance`, geometry.cpp 333-336, in their order -/
def nearestPointAtDistanceDefs : List Row :=
  [⟨⟨[.cls .constLineString2d, .num], 2⟩, 2⟩, ⟨⟨[.cls .constLineString3d, .num], 2⟩, 3⟩, ⟨⟨[.cls .compoundLineString2d, .num], 2⟩, 2⟩,
   ⟨⟨[.cls .compoundLineString3d, .num], 2⟩, 3⟩]

/-- The definitions of `project`, geometry.cpp 338-341, in their order -/
def projectDefs : List Row :=
  [⟨⟨[.cls .constLineString2d, .cls .basicPoint2d], 2⟩, 2⟩, ⟨⟨[.cls .constLineString3d, .cls .basicPoint3d], 2⟩, 3⟩,
   ⟨⟨[.cls .compoundLineString2d, .cls .basicPoint2d], 2⟩, 2⟩, ⟨⟨[.cls .compoundLineString3d, .cls .basicPoint3d], 2⟩, 3⟩]

/-- The definitions of `projectedPoint3d`, geometry.cpp 343-349, in their order -/
def projectedPoint3dDefs : List Row :=
  [⟨⟨[.cls .constLineString3d, .cls .constLineString3d], 2⟩, 3⟩, ⟨⟨[.cls .hybridLineString3d, .cls .hybridLineString3d], 2⟩, 3⟩,
   ⟨⟨[.cls .compoundLineString3d, .cls .compoundLineString3d], 2⟩, 3⟩]

/-- The definitions of `intersects2d`, geometry.cpp 353-369, in their order -/
def intersects2dDefs : List Row :=
  [⟨⟨[.cls .constLineString2d, .cls .constLineString2d], 2⟩, 2⟩, ⟨⟨[.cls .hybridLineString2d, .cls .hybridLineString2d], 2⟩, 2⟩,
   ⟨⟨[.cls .compoundLineString2d, .cls .compoundLineString2d], 2⟩, 2⟩, ⟨⟨[.cls .constPolygon2d, .cls .constPolygon2d], 2⟩, 2⟩,
   ⟨⟨[.cls .hybridPolygon2d, .cls .hybridPolygon2d], 2⟩, 2⟩, ⟨⟨[.cls .boundingBox3d, .cls .boundingBox3d], 2⟩, 3⟩,
   ⟨⟨[.cls .constLanelet, .cls .constLanelet], 2⟩, 2⟩, ⟨⟨[.cls .constArea, .cls .constArea], 2⟩, 2⟩]

/-- The definitions of `intersects3d`, geometry.cpp 371-375, in their order -/
def intersects3dDefs : List Row :=
  [⟨⟨[.cls .constLineString3d, .cls .constLineString3d, .num], 3⟩, 3⟩, ⟨⟨[.cls .boundingBox3d, .cls .boundingBox3d], 2⟩, 3⟩,
   ⟨⟨[.cls .hybridLineString3d, .cls .hybridLineString3d, .num], 3⟩, 3⟩,
   ⟨⟨[.cls .compoundLineString3d, .cls .compoundLineString3d, .num], 3⟩, 3⟩, ⟨⟨[.cls .constLanelet, .cls .constLanelet, .num], 2⟩, 3⟩]

/-- The definitions of `findNearest`, geometry.cpp 398-403, in their order -/
def findNearestDefs : List Row :=
  [⟨⟨[.cls .pointLayer, .cls .basicPoint2d, .num], 3⟩, 2⟩, ⟨⟨[.cls .lineStringLayer, .cls .basicPoint2d, .num], 3⟩, 2⟩,
   ⟨⟨[.cls .polygonLayer, .cls .basicPoint2d, .num], 3⟩, 2⟩, ⟨⟨[.cls .laneletLayer, .cls .basicPoint2d, .num], 3⟩, 2⟩,
   ⟨⟨[.cls .areaLayer, .cls .basicPoint2d, .num], 3⟩, 2⟩, ⟨⟨[.cls .regulatoryElementLayer, .cls .basicPoint2d, .num], 3⟩, 2⟩]

/-- The definitions of `findWithin2d`, geometry.cpp 406-479, in their order -/
def findWithin2dDefs : List Row :=
  [⟨⟨[.cls .pointLayer, .cls .point2d, .num], 2⟩, 2⟩, ⟨⟨[.cls .pointLayer, .cls .basicPoint2d, .num], 2⟩, 2⟩,
   ⟨⟨[.cls .pointLayer, .cls .boundingBox2d, .num], 2⟩, 2⟩, ⟨⟨[.cls .pointLayer, .cls .polygon2d, .num], 2⟩, 2⟩,
   ⟨⟨[.cls .pointLayer, .unregistered, .num], 2⟩, 2⟩, ⟨⟨[.cls .pointLayer, .cls .lineString2d, .num], 2⟩, 2⟩,
   ⟨⟨[.cls .pointLayer, .unregistered, .num], 2⟩, 2⟩, ⟨⟨[.cls .pointLayer, .cls .compoundLineString2d, .num], 2⟩, 2⟩,
   ⟨⟨[.cls .pointLayer, .cls .lanelet, .num], 2⟩, 2⟩, ⟨⟨[.cls .pointLayer, .cls .area, .num], 2⟩, 2⟩,
   ⟨⟨[.cls .lineStringLayer, .cls .point2d, .num], 2⟩, 2⟩, ⟨⟨[.cls .lineStringLayer, .cls .basicPoint2d, .num], 2⟩, 2⟩,
   ⟨⟨[.cls .lineStringLayer, .cls .boundingBox2d, .num], 2⟩, 2⟩, ⟨⟨[.cls .lineStringLayer, .cls .polygon2d, .num], 2⟩, 2⟩,
   ⟨⟨[.cls .lineStringLayer, .unregistered, .num], 2⟩, 2⟩, ⟨⟨[.cls .lineStringLayer, .cls .lineString2d, .num], 2⟩, 2⟩,
   ⟨⟨[.cls .lineStringLayer, .cls .lanelet, .num], 2⟩, 2⟩, ⟨⟨[.cls .lineStringLayer, .cls .area, .num], 2⟩, 2⟩,
   ⟨⟨[.cls .lineStringLayer, .unregistered, .num], 2⟩, 2⟩, ⟨⟨[.cls .lineStringLayer, .cls .compoundLineString2d, .num], 2⟩, 2⟩,
   ⟨⟨[.cls .polygonLayer, .cls .point2d, .num], 2⟩, 2⟩, ⟨⟨[.cls .polygonLayer, .cls .basicPoint2d, .num], 2⟩, 2⟩,
   ⟨⟨[.cls .polygonLayer, .cls .boundingBox2d, .num], 2⟩, 2⟩, ⟨⟨[.cls .polygonLayer, .cls .polygon2d, .num], 2⟩, 2⟩,
   ⟨⟨[.cls .polygonLayer, .unregistered, .num], 2⟩, 2⟩, ⟨⟨[.cls .polygonLayer, .cls .lineString2d, .num], 2⟩, 2⟩,
   ⟨⟨[.cls .polygonLayer, .unregistered, .num], 2⟩, 2⟩, ⟨⟨[.cls .polygonLayer, .cls .compoundLineString2d, .num], 2⟩, 2⟩,
   ⟨⟨[.cls .polygonLayer, .cls .lanelet, .num], 2⟩, 2⟩, ⟨⟨[.cls .polygonLayer, .cls .area, .num], 2⟩, 2⟩,
   ⟨⟨[.cls .laneletLayer, .cls .point2d, .num], 2⟩, 2⟩, ⟨⟨[.cls .laneletLayer, .cls .basicPoint2d, .num], 2⟩, 2⟩,
   ⟨⟨[.cls .laneletLayer, .cls .boundingBox2d, .num], 2⟩, 2⟩, ⟨⟨[.cls .laneletLayer, .cls .polygon2d, .num], 2⟩, 2⟩,
   ⟨⟨[.cls .laneletLayer, .unregistered, .num], 2⟩, 2⟩, ⟨⟨[.cls .laneletLayer, .cls .lineString2d, .num], 2⟩, 2⟩,
   ⟨⟨[.cls .laneletLayer, .unregistered, .num], 2⟩, 2⟩, ⟨⟨[.cls .laneletLayer, .cls .compoundLineString2d, .num], 2⟩, 2⟩,
   ⟨⟨[.cls .laneletLayer, .cls .lanelet, .num], 2⟩, 2⟩, ⟨⟨[.cls .laneletLayer, .cls .area, .num], 2⟩, 2⟩,
   ⟨⟨[.cls .areaLayer, .cls .point2d, .num], 2⟩, 2⟩, ⟨⟨[.cls .areaLayer, .cls .basicPoint2d, .num], 2⟩, 2⟩,
   ⟨⟨[.cls .areaLayer, .cls .boundingBox2d, .num], 2⟩, 2⟩, ⟨⟨[.cls .areaLayer, .cls .polygon2d, .num], 2⟩, 2⟩,
   ⟨⟨[.cls .areaLayer, .unregistered, .num], 2⟩, 2⟩, ⟨⟨[.cls .areaLayer, .cls .lineString2d, .num], 2⟩, 2⟩,
   ⟨⟨[.cls .areaLayer, .unregistered, .num], 2⟩, 2⟩, ⟨⟨[.cls .areaLayer, .cls .compoundLineString2d, .num], 2⟩, 2⟩,
   ⟨⟨[.cls .areaLayer, .cls .lanelet, .num], 2⟩, 2⟩, ⟨⟨[.cls .areaLayer, .cls .area, .num], 2⟩, 2⟩]

/-- The definitions of `findWithin3d`, geometry.cpp 416-481, in their order -/
def findWithin3dDefs : List Row :=
  [⟨⟨[.cls .pointLayer, .cls .point3d, .num], 2⟩, 3⟩, ⟨⟨[.cls .pointLayer, .cls .basicPoint3d, .num], 2⟩, 3⟩,
   ⟨⟨[.cls .pointLayer, .cls .boundingBox3d, .num], 2⟩, 3⟩, ⟨⟨[.cls .pointLayer, .cls .polygon3d, .num], 2⟩, 3⟩,
   ⟨⟨[.cls .pointLayer, .unregistered, .num], 2⟩, 3⟩, ⟨⟨[.cls .pointLayer, .cls .lineString3d, .num], 2⟩, 3⟩,
   ⟨⟨[.cls .pointLayer, .unregistered, .num], 2⟩, 3⟩, ⟨⟨[.cls .pointLayer, .cls .compoundLineString3d, .num], 2⟩, 3⟩,
   ⟨⟨[.cls .pointLayer, .cls .lanelet, .num], 2⟩, 3⟩, ⟨⟨[.cls .pointLayer, .cls .area, .num], 2⟩, 3⟩,
   ⟨⟨[.cls .lineStringLayer, .cls .point3d, .num], 2⟩, 3⟩, ⟨⟨[.cls .lineStringLayer, .cls .basicPoint3d, .num], 2⟩, 3⟩,
   ⟨⟨[.cls .polygonLayer, .cls .point3d, .num], 2⟩, 3⟩, ⟨⟨[.cls .polygonLayer, .cls .basicPoint3d, .num], 2⟩, 3⟩,
   ⟨⟨[.cls .laneletLayer, .cls .point3d, .num], 2⟩, 3⟩, ⟨⟨[.cls .laneletLayer, .cls .basicPoint3d, .num], 2⟩, 3⟩,
   ⟨⟨[.cls .areaLayer, .cls .point3d, .num], 2⟩, 3⟩, ⟨⟨[.cls .areaLayer, .cls .basicPoint3d, .num], 2⟩, 3⟩]

/-- The definitions of `intersection`, geometry.cpp 484-505, in their order -/
def intersectionDefs : List Row :=
  [⟨⟨[.unregistered, .unregistered], 2⟩, 2⟩, ⟨⟨[.cls .compoundLineString2d, .cls .constLineString2d], 2⟩, 2⟩,
   ⟨⟨[.cls .compoundLineString2d, .cls .compoundLineString2d], 2⟩, 2⟩, ⟨⟨[.cls .constLineString2d, .cls .constLineString2d], 2⟩, 2⟩]

/-- The overloaded functions of the module with the dimension that the name promises, geometry.cpp 124-510 -/
def geometry : List (String × Option Nat × List Row) :=
  [("distance", none, distanceDefs), ("equals", none, equalsDefs), ("boundingBox2d", some 2, boundingBox2dDefs),
   ("boundingBox3d", some 3, boundingBox3dDefs), ("area", none, areaDefs), ("curvature2d", some 2, curvature2dDefs),
   ("signedCurvature2d", some 2, signedCurvature2dDefs), ("toArcCoordinates", none, toArcCoordinatesDefs),
   ("fromArcCoordinates", none, fromArcCoordinatesDefs), ("length", none, lengthDefs),
   ("interpolatedPointAtDistance", none, interpolatedPointAtDistanceDefs), ("nearestPointAtDistance", none, nearestPointAtDistanceDefs),
   ("project", none, projectDefs), ("projectedPoint3d", some 3, projectedPoint3dDefs), ("intersects2d", some 2, intersects2dDefs),
   ("intersects3d", some 3, intersects3dDefs), ("findNearest", none, findNearestDefs), ("findWithin2d", some 2, findWithin2dDefs),
   ("findWithin3d", some 3, findWithin3dDefs), ("intersection", none, intersectionDefs)]

/-- TO2D_AS and TO3D_AS, geometry.cpp 67-76, applied in turn: the first class of the list that the object can be extracted as gives the class
of the result. `value` tells how the data of a plain point changes, the others share their data. -/
def convertAs (value : Nat → Nat) : List (Cls × Cls) → Obj → Obj
  | [], o => o
  | (c, r) :: rest, o =>
    match o with
    | .inst d n => if d.isA c then .inst r (if r = .basicPoint2d ∨ r = .basicPoint3d then value n else n) else convertAs value rest o
    | o => o

/-- to2D, geometry.cpp 89-102. `drop` drops the z coordinate of a plain point. -/
def to2D (drop : Nat → Nat) (o : Obj) : Obj :=
  convertAs drop [(.point3d, .point2d), (.basicPoint3d, .basicPoint2d), (.constPoint3d, .constPoint2d), (.lineString3d, .lineString2d),
    (.lineString3d, .lineString2d), (.constLineString3d, .constLineString2d), (.polygon3d, .polygon2d), (.constPolygon3d, .constPolygon2d),
    (.compoundLineString3d, .compoundLineString2d), (.compoundPolygon3d, .compoundPolygon2d)] o

/-- to3D, geometry.cpp 104-117. `lift` adds a z coordinate of zero to a plain point. -/
def to3D (lift : Nat → Nat) (o : Obj) : Obj :=
  convertAs lift [(.point2d, .point3d), (.basicPoint2d, .basicPoint3d), (.constPoint2d, .constPoint3d), (.lineString2d, .lineString3d),
    (.lineString2d, .lineString3d), (.constLineString2d, .constLineString3d), (.polygon2d, .polygon3d), (.constPolygon2d, .constPolygon3d),
    (.compoundLineString2d, .compoundLineString3d), (.compoundPolygon2d, .compoundPolygon3d)] o

/-! ### The specification -/

/-- Specification. The dimension of a class, for those that are of a dimension. -/
def dimension : Cls → Option Nat
  | .basicPoint2d | .vector2d | .boundingBox2d | .constPoint2d | .point2d | .constLineString2d | .lineString2d | .hybridLineString2d
  | .compoundLineString2d | .constPolygon2d | .polygon2d | .hybridPolygon2d | .compoundPolygon2d => some 2
  | .basicPoint3d | .boundingBox3d | .constPoint3d | .point3d | .constLineString3d | .lineString3d | .hybridLineString3d
  | .compoundLineString3d | .constPolygon3d | .polygon3d | .hybridPolygon3d | .compoundPolygon3d => some 3
  | _ => none

/-- Specification. The class of the 2D view of an object of a 3D class. -/
def flat : Cls → Option Cls
  | .point3d => some .point2d
  | .basicPoint3d => some .basicPoint2d
  | .constPoint3d => some .constPoint2d
  | .lineString3d => some .lineString2d
  | .constLineString3d => some .constLineString2d
  | .polygon3d => some .polygon2d
  | .constPolygon3d => some .constPolygon2d
  | .compoundLineString3d => some .compoundLineString2d
  | .compoundPolygon3d => some .compoundPolygon2d
  | _ => none

/-- Specification. Polygons in 2D, for which the definitions of `distance` depend on the order. -/
def isPolygon2d : Cls → Bool
  | .constPolygon2d | .polygon2d | .hybridPolygon2d | .compoundPolygon2d => true
  | _ => false

/-! ### Proofs -/

/-- Helper of the proofs. All classes. -/
def allCls : List Cls :=
  [.basicPoint2d, .vector2d, .basicPoint3d, .boundingBox2d, .boundingBox3d, .constPoint2d, .point2d, .constPoint3d, .point3d,
   .constLineString2d, .lineString2d, .constLineString3d, .lineString3d, .hybridLineString2d, .hybridLineString3d,
   .compoundLineString2d, .compoundLineString3d, .constPolygon2d, .polygon2d, .constPolygon3d, .polygon3d,
   .hybridPolygon2d, .hybridPolygon3d, .compoundPolygon2d, .compoundPolygon3d, .constLanelet, .lanelet, .constArea, .area,
   .regulatoryElement, .trafficLight, .rightOfWay, .allWayStop, .trafficSign, .speedLimit,
   .pointLayer, .lineStringLayer, .polygonLayer, .laneletLayer, .areaLayer, .regulatoryElementLayer,
   .arcCoordinates, .object2d, .objectWithCovariance2d, .constLaneletMatch, .constLaneletMatchProbabilistic,
   .routingCost, .routingCostDistance, .routingCostTravelTime, .trafficRules]

/-- Helper of the proofs. -/
theorem mem_allCls (c : Cls) : c ∈ allCls := by cases c <;> decide

/-- Helper of the proofs. Whether all objects that a parameter takes are of dimension `k` or of none. -/
def tyDim (k : Nat) : Ty → Bool
  | .num => true
  | .unregistered => true
  | .cls c => allCls.all fun d => !d.isA c || (dimension d).all (· == k)
  | .ptr c => allCls.all fun d => !d.isA c || (dimension d).all (· == k)
  | _ => false

/-- Helper of the proofs. -/
theorem tyDim_sound (items : Cls → Nat → Option (List Obj)) (k : Nat) (t : Ty) (h : tyDim k t = true) (c : Cls) (n : Nat)
    (hs : stage1 items t (.inst c n) = true) (j : Nat) (hj : dimension c = some j) : j = k := by
  have key : ∀ b : Cls, (allCls.all fun d => !d.isA b || (dimension d).all (· == k)) = true → c.isA b = true → j = k := by
    intro b hb hc
    have := List.all_eq_true.1 hb c (mem_allCls c)
    rw [hc, hj] at this
    simpa using this
  cases t with
  | num => cases hs
  | unregistered => cases hs
  | cls b => exact key b h hs
  | ptr b => exact key b h hs
  | _ => cases h

/-- Helper of the proofs. Two classes that take the same object are related. -/
theorem isA_related (c a b : Cls) (ha : c.isA a = true) (hb : c.isA b = true) : (a.isA b || b.isA a) = true := by
  rw [isA_iff] at ha hb
  cases c <;> simp only [Cls.bases, List.mem_cons, List.not_mem_nil, or_false] at ha hb <;> rcases ha with rfl | ha <;>
    rcases hb with rfl | hb <;> (try rcases ha with rfl | rfl) <;> (try rcases hb with rfl | rfl) <;> rfl

/-- Helper of the proofs. Whether no object is taken by both parameters. -/
def tyApart : Ty → Ty → Bool
  | .unregistered, _ => true
  | _, .unregistered => true
  | .num, .cls _ => true
  | .cls _, .num => true
  | .cls a, .cls b => !(a.isA b || b.isA a)
  | .cls a, .ptr b => !(a.isA b || b.isA a)
  | .ptr a, .cls b => !(a.isA b || b.isA a)
  | _, _ => false

/-- Helper of the proofs. -/
theorem tyApart_sound (items : Cls → Nat → Option (List Obj)) (s t : Ty) (h : tyApart s t = true) (o : Obj)
    (hs : stage1 items s o = true) (ht : stage1 items t o = true) : False := by
  have key : ∀ (a b c : Cls), (!(a.isA b || b.isA a)) = true → c.isA a = true → c.isA b = true → False := by
    intro a b c hab ha hb
    rw [isA_related c a b ha hb] at hab
    cases hab
  cases s <;> cases t <;> first | (cases h; done) | (cases o <;> first | (cases hs; done) | (cases ht; done) | exact key _ _ _ h hs ht)

/-- Helper of the proofs. Whether two functions are the same or no arguments are taken by both. -/
def fnApart (f g : Fn) : Bool :=
  f == g || (List.range (min f.needed g.needed)).any fun k =>
    match f.params[k]?, g.params[k]? with
    | some s, some t => tyApart s t
    | _, _ => false

/-- Helper of the proofs. -/
theorem takes_stage1 (items : Cls → Nat → Option (List Obj)) (f : Fn) (args : List Obj) (h : f.takes items args = true) (k : Nat) (t : Ty)
    (o : Obj) (hk : f.params[k]? = some t) (ho : args[k]? = some o) : stage1 items t o = true := by
  unfold Fn.takes at h
  rw [Bool.and_eq_true] at h
  have hm : (t, o) ∈ f.params.zip args := by
    apply List.mem_of_getElem? (i := k)
    rw [List.getElem?_zip_eq_some]
    exact ⟨hk, ho⟩
  exact List.all_eq_true.1 h.2 _ hm

/-- Helper of the proofs. -/
theorem takes_length (items : Cls → Nat → Option (List Obj)) (f : Fn) (args : List Obj) (h : f.takes items args = true) :
    f.needed ≤ args.length ∧ args.length ≤ f.params.length := by
  unfold Fn.takes at h
  rw [Bool.and_eq_true, Bool.and_eq_true] at h
  exact ⟨of_decide_eq_true h.1.1, of_decide_eq_true h.1.2⟩

/-- Helper of the proofs. -/
theorem fnApart_sound (items : Cls → Nat → Option (List Obj)) (f g : Fn) (h : fnApart f g = true) (args : List Obj)
    (hf : f.takes items args = true) (hg : g.takes items args = true) : f = g := by
  unfold fnApart at h
  rw [Bool.or_eq_true] at h
  rcases h with h | h
  · exact eq_of_beq h
  · exfalso
    obtain ⟨k, hk, hx⟩ := List.any_eq_true.1 h
    rw [List.mem_range] at hk
    have hl := (takes_length items f args hf).1
    obtain ⟨o, ho⟩ : ∃ o, args[k]? = some o := ⟨args[k]'(by omega), List.getElem?_eq_getElem _⟩
    cases hp : f.params[k]? with
    | none => simp only [hp] at hx; cases hx
    | some s =>
      cases hq : g.params[k]? with
      | none => simp only [hp, hq] at hx; cases hx
      | some t =>
        simp only [hp, hq] at hx
        exact tyApart_sound items s t hx o (takes_stage1 items f args hf k s o hp ho) (takes_stage1 items g args hg k t o hq ho)

/-- Helper of the proofs. -/
theorem rows_dim : ∀ x ∈ geometry, ∀ r ∈ x.2.2, r.fn.params.all (tyDim r.dim) = true := by
  decide +kernel

/-- Helper of the proofs. -/
theorem rows_apart : ∀ x ∈ geometry, ∀ r ∈ x.2.2, ∀ s ∈ x.2.2, fnApart r.fn s.fn = true := by
  decide +kernel

/-- C92. A call of a function of the geometry module computes in the dimension of its arguments: no 3D object ends in a 2D function nor the
other way round. -/
theorem dimension_kept (items : Cls → Nat → Option (List Obj)) (name : String) (p : Option Nat) (rows : List Row)
    (hx : (name, p, rows) ∈ geometry) (args : List Obj) (i : Nat) (h : call items (rows.map Row.fn) args = .ran i) :
    ∃ r, rows[i]? = some r ∧ ∀ c n, .inst c n ∈ args → ∀ k, dimension c = some k → k = r.dim := by
  obtain ⟨f, hf, ht, -⟩ := call_ran items _ args i h
  rw [List.getElem?_map] at hf
  cases hr : rows[i]? with
  | none => rw [hr] at hf; cases hf
  | some r =>
    rw [hr] at hf
    cases hf
    refine ⟨r, rfl, ?_⟩
    intro c n hc k hk
    obtain ⟨j, hj⟩ := List.getElem?_of_mem hc
    have hlen := (takes_length items r.fn args ht).2
    have hjl : j < args.length := (List.getElem?_eq_some_iff.1 hj).1
    have hp : r.fn.params[j]? = some (r.fn.params[j]'(by omega)) := List.getElem?_eq_getElem _
    have hd := List.all_eq_true.1 (rows_dim _ hx r (List.mem_of_getElem? hr)) _ (List.mem_of_getElem? hp)
    exact tyDim_sound items r.dim _ hd c n (takes_stage1 items r.fn args ht j _ _ hp hj) k hk

/-- Helper of the proofs. -/
theorem rows_suffix : ∀ x ∈ geometry, ∀ r ∈ x.2.2, ∀ k, x.2.1 = some k →
    r.dim = k ∨ (x.1 = "intersects2d" ∧ r.fn.params = [.cls .boundingBox3d, .cls .boundingBox3d]) := by
  decide +kernel

/-- C92. A function with 2d or 3d in its name computes in that dimension, except `intersects2d` for 3D bounding boxes (see
`intersects2d_boxes_counterexample`). -/
theorem dimension_as_named_partial (items : Cls → Nat → Option (List Obj)) (name : String) (k : Nat) (rows : List Row)
    (hx : (name, some k, rows) ∈ geometry) (args : List Obj) (i : Nat) (h : call items (rows.map Row.fn) args = .ran i)
    (hb : name = "intersects2d" → ∀ n, Obj.inst .boundingBox3d n ∉ args) : ∃ r, rows[i]? = some r ∧ r.dim = k := by
  obtain ⟨f, hf, ht, -⟩ := call_ran items _ args i h
  rw [List.getElem?_map] at hf
  cases hr : rows[i]? with
  | none => rw [hr] at hf; cases hf
  | some r =>
    rw [hr] at hf
    cases hf
    refine ⟨r, rfl, ?_⟩
    rcases rows_suffix _ hx r (List.mem_of_getElem? hr) k rfl with h' | ⟨hn, hp⟩
    · exact h'
    · exfalso
      have hp0 : r.fn.params[0]? = some (.cls .boundingBox3d) := by rw [hp]; rfl
      have hl := takes_length items r.fn args ht
      have hne : r.fn.needed = 2 := by
        have : ∀ x ∈ geometry, ∀ r ∈ x.2.2, r.fn.params = [.cls .boundingBox3d, .cls .boundingBox3d] → r.fn.needed = 2 := by decide +kernel
        exact this _ hx r (List.mem_of_getElem? hr) hp
      have ho : args[0]? = some (args[0]'(by omega)) := List.getElem?_eq_getElem _
      have hs := takes_stage1 items r.fn args ht 0 _ _ hp0 ho
      cases hc : args[0]'(by omega) with
      | inst d n =>
        rw [hc] at hs ho
        have hd : d = .boundingBox3d := by
          rcases (isA_iff _ _).1 hs with e | e
          · exact e
          · cases d <;> simp [Cls.bases] at e
        rw [hd] at ho
        exact hb hn n (List.mem_of_getElem? ho)
      | _ => rw [hc] at hs; cases hs

/-- C92. No call depends on the order of the definitions: at most one function (some are defined twice) takes given arguments. -/
theorem unambiguous (items : Cls → Nat → Option (List Obj)) (name : String) (p : Option Nat) (rows : List Row)
    (hx : (name, p, rows) ∈ geometry) (args : List Obj) (r s : Row) (hr : r ∈ rows) (hs : s ∈ rows)
    (htr : r.fn.takes items args = true) (hts : s.fn.takes items args = true) : r.fn = s.fn :=
  fnApart_sound items _ _ (rows_apart _ hx r hr s hs) args htr hts

/-- Helper of the proofs. Whether a function has two parameters of wrapped classes. -/
def isPair (f : Fn) : Bool :=
  match f.params with
  | [.cls _, .cls _] => f.needed == 2
  | _ => false

/-- Helper of the proofs. -/
theorem isPair_sound (f : Fn) (h : isPair f = true) : ∃ a b, f = ⟨[.cls a, .cls b], 2⟩ := by
  obtain ⟨ps, k⟩ := f
  unfold isPair at h
  split at h
  · next a b heq =>
    simp only at heq h
    rw [heq, eq_of_beq h]
    exact ⟨a, b, rfl⟩
  · cases h

/-- Helper of the proofs. -/
theorem distance_accepts (items : Cls → Nat → Option (List Obj)) (c d : Cls) (n m : Nat) :
    (∃ i, call items (distanceDefs.map Row.fn) [.inst c n, .inst d m] = .ran i) ↔
      ∃ r ∈ distanceDefs, ∃ a b, r.fn = ⟨[.cls a, .cls b], 2⟩ ∧ c.isA a = true ∧ d.isA b = true := by
  have hall : ∀ r ∈ distanceDefs, ∃ a b, r.fn = ⟨[.cls a, .cls b], 2⟩ := by
    have : ∀ r ∈ distanceDefs, isPair r.fn = true := by decide +kernel
    exact fun r hr => isPair_sound _ (this r hr)
  rw [call_settled]
  · constructor
    · rintro ⟨f, hf, ht⟩
      obtain ⟨r, hr, rfl⟩ := List.mem_map.1 hf
      obtain ⟨a, b, he⟩ := hall r hr
      refine ⟨r, hr, a, b, he, ?_, ?_⟩
      · exact takes_stage1 items _ _ ht 0 (.cls a) (.inst c n) (by rw [he]; rfl) rfl
      · exact takes_stage1 items _ _ ht 1 (.cls b) (.inst d m) (by rw [he]; rfl) rfl
    · rintro ⟨r, hr, a, b, he, ha, hb⟩
      refine ⟨r.fn, List.mem_map.2 ⟨r, hr, rfl⟩, ?_⟩
      rw [he]
      simp [Fn.takes, stage1, ha, hb]
  · intro f hf t ht
    obtain ⟨r, hr, rfl⟩ := List.mem_map.1 hf
    obtain ⟨a, b, he⟩ := hall r hr
    rw [he] at ht
    simp only [List.mem_cons, List.not_mem_nil, or_false] at ht
    rcases ht with rfl | rfl <;> exact trivial

/-- Helper of the proofs. Whether there is a definition with swapped parameters. -/
def mirrored (r : Row) : Bool :=
  match r.fn.params with
  | [.cls a, .cls b] => (isPolygon2d a || isPolygon2d b) || distanceDefs.any fun s => s.fn == ⟨[.cls b, .cls a], 2⟩
  | _ => false

/-- Helper of the proofs. -/
theorem distance_mirror (r : Row) (hr : r ∈ distanceDefs) (a b : Cls) (he : r.fn = ⟨[.cls a, .cls b], 2⟩) :
    (isPolygon2d a = true ∨ isPolygon2d b = true) ∨ ∃ s ∈ distanceDefs, s.fn = ⟨[.cls b, .cls a], 2⟩ := by
  have : ∀ r ∈ distanceDefs, mirrored r = true := by decide +kernel
  have h := this r hr
  unfold mirrored at h
  rw [he] at h
  simp only [Bool.or_eq_true] at h
  rcases h with h | h
  · exact Or.inl h
  · obtain ⟨s, hs, hx⟩ := List.any_eq_true.1 h
    exact Or.inr ⟨s, hs, eq_of_beq hx⟩

/-- Helper of the proofs. -/
theorem polygon_isA : ∀ c ∈ allCls, ∀ a ∈ allCls, c.isA a = true → isPolygon2d a = true → isPolygon2d c = true := by
  decide +kernel

/-- C92. `distance(a, b)` works whenever `distance(b, a)` does, if neither is a 2D polygon (see `distance_order_counterexample`). -/
theorem distance_symmetric_partial (items : Cls → Nat → Option (List Obj)) (c d : Cls) (n m : Nat) (hc : isPolygon2d c = false)
    (hd : isPolygon2d d = false) (h : ∃ i, call items (distanceDefs.map Row.fn) [.inst c n, .inst d m] = .ran i) :
    ∃ i, call items (distanceDefs.map Row.fn) [.inst d m, .inst c n] = .ran i := by
  obtain ⟨r, hr, a, b, he, ha, hb⟩ := (distance_accepts items c d n m).1 h
  rcases distance_mirror r hr a b he with (hp | hp) | ⟨s, hs, hse⟩
  · rw [polygon_isA c (mem_allCls c) a (mem_allCls a) ha hp] at hc; cases hc
  · rw [polygon_isA d (mem_allCls d) b (mem_allCls b) hb hp] at hd; cases hd
  · exact (distance_accepts items d c m n).2 ⟨s, hs, b, a, hse, hb, ha⟩

/-- Counterexample to C92. The distance of a polygon and a point can be asked for, the distance of the point and the polygon raises: for
2D points and for plain points, and for polygons and compound polygons in the same way. -/
theorem distance_order_counterexample (items : Cls → Nat → Option (List Obj)) (n m : Nat) :
    ((∃ i, call items (distanceDefs.map Row.fn) [.inst .polygon2d n, .inst .point2d m] = .ran i) ∧
      call items (distanceDefs.map Row.fn) [.inst .point2d m, .inst .polygon2d n] = .noMatch) ∧
    ((∃ i, call items (distanceDefs.map Row.fn) [.inst .polygon2d n, .inst .basicPoint2d m] = .ran i) ∧
      call items (distanceDefs.map Row.fn) [.inst .basicPoint2d m, .inst .polygon2d n] = .noMatch) ∧
    ((∃ i, call items (distanceDefs.map Row.fn) [.inst .compoundPolygon2d n, .inst .polygon2d m] = .ran i) ∧
      call items (distanceDefs.map Row.fn) [.inst .polygon2d m, .inst .compoundPolygon2d n] = .noMatch) := by
  refine ⟨⟨⟨_, rfl⟩, rfl⟩, ⟨⟨_, rfl⟩, rfl⟩, ⟨⟨_, rfl⟩, rfl⟩⟩

/-- Counterexample to C92. `intersects2d` was defined for 3D bounding boxes in place of 2D ones: it raises for 2D boxes, and for 3D boxes it
computes in 3D, so boxes above each other do not intersect in 2D. -/
theorem intersects2d_boxes_counterexample (items : Cls → Nat → Option (List Obj)) (n m : Nat) :
    call items (intersects2dDefs.map Row.fn) [.inst .boundingBox2d n, .inst .boundingBox2d m] = .noMatch ∧
    (∃ i r, call items (intersects2dDefs.map Row.fn) [.inst .boundingBox3d n, .inst .boundingBox3d m] = .ran i ∧
      intersects2dDefs[i]? = some r ∧ r.dim = 3) := by
  exact ⟨rfl, _, _, rfl, rfl, rfl⟩

/-- Counterexample to C92. None is taken as a regulatory element by the bounding boxes, so that the C++ function dereferences a null pointer
(RegulatoryElement.h 23) instead of Python raising an error. -/
theorem boundingBox_none_counterexample (items : Cls → Nat → Option (List Obj)) :
    ∃ i r, call items (boundingBox2dDefs.map Row.fn) [.none] = .ran i ∧ boundingBox2dDefs[i]? = some r ∧
      r.fn.params = [.ptr .regulatoryElement] ∧ extract items (.ptr .regulatoryElement) .none = some (none : Option Nat) :=
  ⟨_, _, rfl, rfl, rfl, rfl⟩

/-- C92. No other function of the module takes None. -/
theorem none_refused (items : Cls → Nat → Option (List Obj)) (name : String) (p : Option Nat) (rows : List Row)
    (hx : (name, p, rows) ∈ geometry) (hn : name ≠ "boundingBox2d" ∧ name ≠ "boundingBox3d") (args : List Obj) (h : Obj.none ∈ args) :
    call items (rows.map Row.fn) args = .noMatch := by
  rw [call_noMatch]
  intro f hf
  obtain ⟨r, hr, rfl⟩ := List.mem_map.1 hf
  have hall : ∀ x ∈ geometry, (x.1 ≠ "boundingBox2d" ∧ x.1 ≠ "boundingBox3d") → ∀ r ∈ x.2.2, ∀ t ∈ r.fn.params,
      t = .num ∨ t = .unregistered ∨ ∃ c ∈ allCls, t = .cls c := by decide +kernel
  by_contra hc
  rw [Bool.not_eq_false] at hc
  obtain ⟨j, hj⟩ := List.getElem?_of_mem h
  have hjl : j < args.length := (List.getElem?_eq_some_iff.1 hj).1
  have hlen := (takes_length items r.fn args hc).2
  have hp : r.fn.params[j]? = some (r.fn.params[j]'(by omega)) := List.getElem?_eq_getElem _
  have hs := takes_stage1 items r.fn args hc j _ _ hp hj
  rcases hall _ hx hn r hr _ (List.mem_of_getElem? hp) with e | e | ⟨c, -, e⟩ <;> rw [e] at hs <;> cases hs

/-- C92. `to2D` gives the 2D view of the same data, of the class with the same access: a mutable primitive stays mutable. Plain points lose
their z coordinate. -/
theorem to2D_spec (drop : Nat → Nat) (c r : Cls) (n : Nat) (h : flat c = some r) :
    to2D drop (.inst c n) = .inst r (if c = .basicPoint3d then drop n else n) := by
  cases c <;> simp only [flat] at h <;> cases h <;> rfl

/-- C92. `to3D` likewise. -/
theorem to3D_spec (lift : Nat → Nat) (c r : Cls) (n : Nat) (h : flat c = some r) :
    to3D lift (.inst r n) = .inst c (if c = .basicPoint3d then lift n else n) := by
  cases c <;> simp only [flat] at h <;> cases h <;> rfl

/-- C92. Going to 2D and back gives the object itself, with its z coordinates, for all that share their data. -/
theorem to3D_to2D (drop lift : Nat → Nat) (c r : Cls) (n : Nat) (h : flat c = some r) (hb : c ≠ .basicPoint3d) :
    to3D lift (to2D drop (.inst c n)) = .inst c n := by
  rw [to2D_spec drop c r n h, if_neg hb, to3D_spec lift c r n h, if_neg hb]

/-- C92. And going to 3D and back always does. -/
theorem to2D_to3D (drop lift : Nat → Nat) (hl : ∀ n, drop (lift n) = n) (c r : Cls) (n : Nat) (h : flat c = some r) :
    to2D drop (to3D lift (.inst r n)) = .inst r n := by
  rw [to3D_spec lift c r n h, to2D_spec drop c r _ h]
  split <;> simp_all

/-- C92. Everything that is not of a 3D class passes through `to2D` unchanged. -/
theorem to2D_flat (drop : Nat → Nat) (o : Obj) (h : ∀ c n, o = .inst c n → dimension c ≠ some 3) : to2D drop o = o := by
  cases o with
  | inst c n =>
    have hc := h c n rfl
    cases c <;> simp only [dimension] at hc <;> first | rfl | exact absurd rfl hc
  | _ => rfl

/-- Counterexample to C92. `to2D` leaves hybrid line strings, hybrid polygons and bounding boxes in 3D, without an error, so the result is
still three-dimensional. -/
theorem to2D_hybrid_counterexample (drop : Nat → Nat) (n : Nat) :
    ∀ c ∈ [Cls.hybridLineString3d, Cls.hybridPolygon3d, Cls.boundingBox3d],
      to2D drop (.inst c n) = .inst c n ∧ dimension c = some 3 := by
  intro c hc
  simp only [List.mem_cons, List.not_mem_nil, or_false] at hc
  rcases hc with rfl | rfl | rfl <;> exact ⟨rfl, rfl⟩

/-! ### Examples -/

-- the hypotheses of dimension_kept: a mutable point and a line string in 3D reach the 3D function, a Vector2d is taken as a plain 2D point
example : call exItems (distanceDefs.map Row.fn) [.inst .point3d 1, .inst .lineString3d 7] = .ran 48 ∧
    (distanceDefs[48]?).map Row.dim = some 3 := ⟨rfl, rfl⟩
example : ∃ i, call exItems (distanceDefs.map Row.fn) [.inst .vector2d 1, .inst .lanelet 7] = .ran i := ⟨_, rfl⟩

-- points of different dimension have no distance
example : call exItems (distanceDefs.map Row.fn) [.inst .point3d 1, .inst .point2d 1] = .noMatch := rfl

-- the default of the maximal distance may be left out
example : (∃ i, call exItems (findWithin2dDefs.map Row.fn) [.inst .laneletLayer 1, .inst .basicPoint2d 4] = .ran i) ∧
    (∃ i, call exItems (findWithin2dDefs.map Row.fn) [.inst .laneletLayer 1, .inst .basicPoint2d 4, .num 3] = .ran i) := ⟨⟨_, rfl⟩, _, rfl⟩

end Verif.Py.Geometry
