import Mathlib.Algebra.Order.Floor.Ring
import Verif.LMap.Nearest
import Verif.Lanelet.Model

/-!
Model of lanelet2_matching: lanelet2_matching/src/LaneletMatching.cpp, src/Utilities.cpp,
include/lanelet2_matching/LaneletMatching.h and Utilities.h. Line numbers count the license header.

findWithin2d is that of `Verif.Nearest`. Numbers are elements of an ordered field. `none` is a MatchingError.
-/
namespace Verif.Match
open Verif.Lanelet (LH invertL)
open Verif.Nearest (Box)

variable {F : Type} [Field F] [LinearOrder F]

/-- LaneletMatch, Types.h 64-67 -/
structure LMatch (F : Type) where
  lanelet : LH
  distance : F
  deriving DecidableEq

/-- LaneletMatchProbabilistic, Types.h 74-76 -/
structure PMatch (F : Type) where
  lanelet : LH
  distance : F
  mahalanobisDistSq : F
  deriving DecidableEq

/-- The object and the layer. `pointBox`/`pointDist` belong to the position of the object, `hullBox`/`hullDist` to its hull;
`search` and `sort` as in `Nearest.findWithin`; Types.h 53-62, Utilities.h -/
structure Query (F : Type) where
  search : Box F → List LH
  sort : List (F × LH) → List (F × LH)
  hullEmpty : Bool
  pointBox : Box F
  pointDist : LH → F
  hullBox : Box F
  hullDist : LH → F

/-- utils::findWithin, Utilities.h 47-54 -/
def findWithin (q : Query F) (maxDist : F) : List (F × LH) :=
  if q.hullEmpty then Nearest.findWithin q.search q.sort q.pointBox q.pointDist maxDist
  else Nearest.findWithin q.search q.sort q.hullBox q.hullDist maxDist

/-- toMatchVector, LaneletMatching.cpp 40-58; `sort` is std::sort by distance -/
def toMatchVector (sort : List (LMatch F) → List (LMatch F)) (pairs : List (F × LH)) : List (LMatch F) :=
  sort (pairs.flatMap fun p => [⟨p.2, p.1⟩, ⟨invertL p.2, p.1⟩])

/-- getDeterministicMatches, LaneletMatching.cpp 86-92 -/
def getDeterministicMatches (sort : List (LMatch F) → List (LMatch F)) (q : Query F) (maxDist : F) : List (LMatch F) :=
  toMatchVector sort (findWithin q maxDist)

/-- getProbabilisticMatchesImpl, LaneletMatching.cpp 60-80; `maha` is getMahalanobisDistSq for the object -/
def probabilistic (sort : List (PMatch F) → List (PMatch F)) (maha : LH → Option F) (pairs : List (F × LH)) :
    Option (List (PMatch F)) := do
  let ms ← pairs.foldlM (fun acc p => do
    let a ← maha p.2
    let b ← maha (invertL p.2)
    return acc ++ [⟨p.2, p.1, a⟩, ⟨invertL p.2, p.1, b⟩]) []
  return sort ms

/-- getProbabilisticMatches, LaneletMatching.cpp 94-104 -/
def getProbabilisticMatches (sort : List (PMatch F) → List (PMatch F)) (maha : LH → Option F) (q : Query F) (maxDist : F) :
    Option (List (PMatch F)) := probabilistic sort maha (findWithin q maxDist)

/-- isCloseTo, LaneletMatching.h 71-75 -/
def isCloseTo (q : Query F) (maxDist : F) : Bool := !(findWithin q maxDist).isEmpty

/-- isWithin, LaneletMatching.h 80-83 -/
def isWithin (q : Query F) : Bool := isCloseTo q 0

/-- removeNonRuleCompliantMatches, LaneletMatching.h 86-95: erase(remove_if(...)); `M`: one of the kinds of matches -/
def removeNonRuleCompliantMatches {M : Type} (lanelet : M → LH) (canPass : LH → Bool) (matches_ : List M) : List M :=
  matches_.filter fun m => !(!canPass (lanelet m))

/-! ### Mahalanobis distance -/

section
variable [FloorRing F]

/-- std::fmod: `x - n * y` with `n` the quotient rounded towards zero; Utilities.cpp 42-48 -/
def fmod (x y : F) : F := x - (if 0 ≤ x / y then (⌊x / y⌋ : F) else (⌈x / y⌉ : F)) * y

/-- positiveFloatModulo, Utilities.cpp 42-50; `none` is the failed assertion -/
def positiveFloatModulo (x y : F) : Option F :=
  let r := fmod x y
  if 0 < r then some r
  else
    let p := r + |y|
    if 0 < p then some p else none

/-- normalizeAngleRadians, Utilities.cpp 53; `pi` is M_PI -/
def normalizeAngle (pi x : F) : Option F := do return (← positiveFloatModulo (x + pi) (2 * pi)) - pi

/-- angleDifference, Utilities.cpp 56-59 -/
def angleDifference (pi target source : F) : Option F := normalizeAngle pi (target - source)

/-- a covariance matrix: rows (a, b), (c, d); Types.h 59-62 -/
structure Cov (F : Type) where
  a : F
  b : F
  c : F
  d : F

/-- Eigen's determinant(), Utilities.cpp 77. -/
def Cov.det (m : Cov F) : F := m.a * m.d - m.b * m.c

/-- `v.transpose() * m.inverse() * v` for a 2x2 matrix, with the adjugate; Utilities.cpp 73-110 -/
def Cov.quad (m : Cov F) (x y : F) : F :=
  (x * ((m.d * x - m.b * y) / m.det)) + (y * ((m.a * y - m.c * x) / m.det))

/-- getMahalanobisDistSq, Utilities.cpp 73-101. The point `pAt` on the centerline and the direction `yawCenter` come from
interpolatedPointAtDistance (see `Verif.Geom`); `(x, y)` is the position of the object minus `pAt`, `yaw` its orientation.
isZero() of Eigen compares with 1e-12, the determinant is compared with 10e-9. -/
def mahalanobisDistSq (pi : F) (cov : Cov F) (kappa yawCenter yaw x y : F) : Option F := do
  let eps : F := 1 / 10 ^ 12
  if |cov.a| ≤ eps ∧ |cov.b| ≤ eps ∧ |cov.c| ≤ eps ∧ |cov.d| ≤ eps then none
  if |cov.det| < 1 / 10 ^ 8 then none
  let yawCenter ← normalizeAngle pi yawCenter
  let yawObj ← normalizeAngle pi yaw
  let diff ← angleDifference pi yawCenter yawObj
  return diff * diff * (kappa * kappa) + cov.quad x y

end

end Verif.Match
