import Mathlib.Analysis.SpecialFunctions.Trigonometric.Arctan
import Mathlib.Analysis.SpecialFunctions.Log.Basic
import Mathlib.Analysis.SpecialFunctions.Pow.Real

/-!
Model of the projectors: lanelet2_io/Projection.h and lanelet2_projection/src/UTM.cpp. Coordinates are exact. GeographicLib is a parameter.
-/
namespace Verif.Proj

/-- GPSPoint, primitives/GPSPoint.h: degrees and metres -/
structure Gps where
  lat : ℝ
  lon : ℝ
  ele : ℝ

/-- BasicPoint3d; Point.h 20-21 -/
structure Pos where
  x : ℝ
  y : ℝ
  z : ℝ

/-- Projection.h 72 -/
noncomputable def earthRadius : ℝ := 6378137

/-- Projection.h 58, 65 -/
noncomputable def scale (origin : Gps) : ℝ := Real.cos (origin.lat * Real.pi / 180)

/-- SphericalMercatorProjector::forward, Projection.h 57-62 -/
noncomputable def mercatorForward (origin p : Gps) : Pos :=
  ⟨scale origin * p.lon * Real.pi * earthRadius / 180,
   scale origin * earthRadius * Real.log (Real.tan ((90 + p.lat) * Real.pi / 360)), p.ele⟩

/-- SphericalMercatorProjector::reverse, Projection.h 64-69 -/
noncomputable def mercatorReverse (origin : Gps) (p : Pos) : Gps :=
  ⟨360 * Real.arctan (Real.exp (p.y / (earthRadius * scale origin))) / Real.pi - 90, p.x * 180 / (Real.pi * earthRadius * scale origin), p.z⟩

/-! ### elliptical mercator, lanelet2_projection/Mercator.h -/

/-- Mercator.h 45 -/
noncomputable def eccent : ℝ := 81819190928906924 / 10 ^ 18

/-- Mercator.h 21-22, 33-34: `con` -/
noncomputable def con (phi : ℝ) : ℝ := ((1 - eccent * Real.sin phi) / (1 + eccent * Real.sin phi)) ^ (1 / 2 * eccent)

/-- Mercator::rawForward, Mercator.h 18-27 -/
noncomputable def rawForward (p : Gps) : Pos :=
  let lat := min (179 / 2) (max p.lat (-(179 / 2)))
  let phi := lat * Real.pi / 180
  let ts := Real.tan (1 / 2 * (Real.pi * (1 / 2) - phi)) / con phi
  ⟨earthRadius * p.lon * Real.pi / 180, -earthRadius * Real.log ts, p.ele⟩

/-- the loop, Mercator.h 31-36, with the number of rounds that are left -/
noncomputable def refine (ts : ℝ) : Nat → ℝ → ℝ → ℝ
  | 0, _, phi => phi
  | n + 1, dphi, phi =>
    if |dphi| > 1 / 10 ^ 9 then
      let dphi' := Real.pi / 2 - 2 * Real.arctan (ts * con phi) - phi
      refine ts n dphi' (phi + dphi')
    else phi

/-- Mercator::rawReverse, Mercator.h 28-40 -/
noncomputable def rawReverse (p : Pos) : Gps :=
  let ts := Real.exp (-p.y / earthRadius)
  let phi := Real.pi / 2 - 2 * Real.arctan ts
  ⟨180 / Real.pi * refine ts 15 1 phi, 180 / Real.pi * p.x / earthRadius, p.z⟩

/-- Mercator::forward, Mercator.h 11-14 -/
noncomputable def ellipticForward (origin p : Gps) : Pos :=
  let q := rawForward p
  let o := rawForward origin
  ⟨q.x - o.x, q.y - o.y, q.z - o.z⟩

/-- Mercator::reverse, Mercator.h 11-12, 15 -/
noncomputable def ellipticReverse (origin : Gps) (p : Pos) : Gps :=
  let o := rawForward origin
  rawReverse ⟨p.x + o.x, p.y + o.y, p.z + o.z⟩

/-! ### UTM -/

/-- GeographicLib::UTMUPS; `none` if it throws; UTM.cpp 12-13, 25, 39-40, 63-64 -/
structure Lib where
  /-- Forward: latitude and longitude to zone, hemisphere, x and y -/
  forward : ℝ → ℝ → Option (Int × Bool × ℝ × ℝ)
  /-- Reverse: zone, hemisphere, x and y to latitude and longitude -/
  reverse : Int → Bool → ℝ → ℝ → Option (ℝ × ℝ)
  /-- Transfer: from zone, hemisphere, x and y to the wanted zone and hemisphere; x, y and the zone that was used -/
  transfer : Int → Bool → ℝ → ℝ → Int → Bool → Option (ℝ × ℝ × Int)

/-- the members of UtmProjector, UTM.h 16-18 -/
structure Utm where
  zone : Int
  north : Bool
  useOffset : Bool
  throwInPaddingArea : Bool
  xOffset : ℝ
  yOffset : ℝ

/-- ForwardProjectionError and ReverseProjectionError, lanelet2_io/Exceptions.h 57-70. -/
inductive ProjErr where
  /-- an exception of GeographicLib that is not caught -/
  | geographic
  | forward
  | reverse

/-- the constructor, UTM.cpp 8-18 -/
noncomputable def Utm.make (lib : Lib) (origin : Gps) (useOffset throwInPaddingArea : Bool) : Except ProjErr Utm :=
  match lib.forward origin.lat origin.lon with
  | none => .error .geographic
  | some (zone, north, x, y) => .ok ⟨zone, north, useOffset, throwInPaddingArea, if useOffset then x else 0, if useOffset then y else 0⟩

/-- UTM.cpp 52-55 -/
noncomputable def Utm.shift (u : Utm) (x y ele : ℝ) : Pos := if u.useOffset then ⟨x - u.xOffset, y - u.yOffset, ele⟩ else ⟨x, y, ele⟩

/-- forward, UTM.cpp 20-58 -/
noncomputable def Utm.forward (lib : Lib) (u : Utm) (g : Gps) : Except ProjErr Pos :=
  match lib.forward g.lat g.lon with
  | none => .error .forward
  | some (zone, north, x, y) =>
    if zone ≠ u.zone ∨ north ≠ u.north then
      if u.throwInPaddingArea then .error .forward
      else
        match lib.transfer zone north x y u.zone u.north with
        | none => .error .forward
        | some (x', y', zone') => if zone' ≠ u.zone then .error .forward else .ok (u.shift x' y' g.ele)
    else .ok (u.shift x y g.ele)

/-- reverse, UTM.cpp 60-78 -/
noncomputable def Utm.reverse (lib : Lib) (u : Utm) (p : Pos) : Except ProjErr Gps :=
  match lib.reverse u.zone u.north (if u.useOffset then p.x + u.xOffset else p.x) (if u.useOffset then p.y + u.yOffset else p.y) with
  | none => .error .reverse
  | some (lat, lon) =>
    let g : Gps := ⟨lat, lon, p.z⟩
    if u.throwInPaddingArea then
      match u.forward lib g with
      | .error _ => .error .reverse
      | .ok _ => .ok g
    else .ok g

end Verif.Proj
