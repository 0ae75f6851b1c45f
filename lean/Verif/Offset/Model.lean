import Verif.Geo.ArcCoords
import Mathlib.Analysis.SpecialFunctions.Trigonometric.Inverse

/-!
Model of offset and offsetNoThrow, lanelet2_core/include/lanelet2_core/geometry/impl/LineString.h 162-234 and 284-605, 856-869, with exact
real arithmetic.

Parameters: the intersection of two segments (boost::geometry::intersection), the order of the results of the search tree, and the
nearest segment of a tree (bgi::nearest).
-/
namespace Verif.Geo.Offset

/-- BasicPoint2d. -/
abbrev P2 := ℝ × ℝ
/-- BasicSegment2d. -/
abbrev Seg := P2 × P2

/-- how a call can fail: access out of range (undefined behaviour or std::out_of_range), GeometryError, InvalidInputError; impl/LineString.h 168-605 -/
inductive Err where
  | range | geometry | input
  deriving DecidableEq

/-- results; `none` if a loop does not end; impl/LineString.h 572-605 -/
abbrev M := ExceptT Err Option

/-- throw. -/
def err {α : Type} (e : Err) : M α := ExceptT.mk (some (.error e))

/-- operator[] and at; impl/LineString.h 168-605 -/
def get {α : Type} (l : List α) (i : Nat) : M α :=
  match l[i]? with
  | some x => pure x
  | none => err .range

/-! ### shifting points -/

/-- PointVincinity; impl/LineString.h 26-29 -/
structure Vincinity where
  preceding : P2
  following : P2

/-- makeVincinity, impl/LineString.h 168-180 -/
noncomputable def makeVincinity (l : List P2) (idx : Nat) : M Vincinity :=
  if idx = 0 then do
    let q ← get l (idx + 1)
    let p ← get l idx
    pure ⟨0, q - p⟩
  else if idx + 1 = l.length then do
    let p ← get l idx
    let o ← get l (idx - 1)
    pure ⟨p - o, 0⟩
  else do
    let p ← get l idx
    let o ← get l (idx - 1)
    let q ← get l (idx + 1)
    pure ⟨p - o, q - p⟩

/-- the vector turned by 90° to the left -/
def perp (v : P2) : P2 := (-v.2, v.1)

/-- shiftLateral, impl/LineString.h 190-208 -/
noncomputable def shiftLateral (l : List P2) (idx : Nat) (offset : ℝ) (pv : Vincinity) : M P2 := do
  let p ← get l idx
  if idx = 0 then pure (p + offset • normalized (perp pv.following))
  else if idx + 1 = l.length then pure (p + offset • normalized (perp pv.preceding))
  else
    let w := normalized pv.following + normalized pv.preceding
    let minussin2 := norm w / 2
    let realOffset := if 1 / 10 ^ 5 < minussin2 then offset / minussin2 else 0
    pure (p + realOffset • normalized (perp w))

/-- isConvex, impl/LineString.h 213-220 -/
noncomputable def isConvex (l : List P2) (idx : Nat) (positive : Bool) : M Bool :=
  if idx ≠ 0 ∧ idx + 1 ≠ l.length then do
    let o ← get l (idx - 1)
    let p ← get l idx
    let q ← get l (idx + 1)
    let isLeft := pointIsLeftOf o p q
    pure (if positive then !isLeft else isLeft)
  else pure true

/-- impl/LineString.h 222 -/
inductive Convexity where
  | concave | convex | convexSharp
  deriving DecidableEq

open Classical in
/-- getConvexity, impl/LineString.h 224-234 -/
noncomputable def getConvexity (l : List P2) (idx : Nat) (pv : Vincinity) (positive : Bool) : M Convexity := do
  let c ← isConvex l idx positive
  if c = false then pure .concave
  else if dot pv.following pv.preceding < 0 then pure .convexSharp
  else pure .convex

/-- shiftPerpendicular, impl/LineString.h 444-456 -/
noncomputable def shiftPerpendicular (l : List P2) (idx : Nat) (distance : ℝ) (asLast : Bool) (pv : Vincinity) : M P2 :=
  if idx = 0 ∧ asLast = true then err .geometry
  else if idx + 1 = l.length ∧ asLast = false then err .geometry
  else do
    let p ← get l idx
    pure (p + distance • perp (if asLast then normalized pv.preceding else normalized pv.following))

/-- shiftConvexSharp, impl/LineString.h 467-481 -/
noncomputable def shiftConvexSharp (l : List P2) (idx : Nat) (distance : ℝ) (pv : Vincinity) : M (List P2) :=
  if idx = 0 then err .geometry
  else if idx + 1 = l.length then err .geometry
  else do
    let firstP ← shiftPerpendicular l idx distance true pv
    let lastP ← shiftPerpendicular l idx distance false pv
    let alpha := Real.pi - Real.arccos (dot pv.following pv.preceding / (norm pv.preceding * norm pv.following))
    let overshoot := distance * Real.tan (Real.pi / 4 - alpha / 4)
    pure [firstP + overshoot • normalized pv.preceding, lastP - overshoot • normalized pv.following]

open Classical in
/-- shiftPoint, impl/LineString.h 491-505 -/
noncomputable def shiftPoint (l : List P2) (distance : ℝ) (idx : Nat) (pv : Vincinity) : M (List P2 × Bool) := do
  match ← getConvexity l idx pv (decide (0 < distance)) with
  | .concave => do
    let p ← shiftPerpendicular l idx distance true pv
    pure ([p], false)
  | .convex => do
    let p ← shiftLateral l idx distance pv
    pure ([p], true)
  | .convexSharp => do
    let ps ← shiftConvexSharp l idx distance pv
    pure (ps, true)

/-- the inner loop of extractConvex, impl/LineString.h 520-528: points found so far and `curIdx` -/
noncomputable def convexRun (l : List P2) (distance : ℝ) (i curIdx : Nat) (acc : List P2) : M (List P2 × Nat) :=
  if i < l.length then do
    let pv ← makeVincinity l i
    let r ← shiftPoint l distance i pv
    if r.2 then convexRun l distance (i + 1) i (acc ++ r.1)
    else pure (acc ++ r.1, i)
  else pure (acc, curIdx)
partial_fixpoint

/-- the outer loop of extractConvex, impl/LineString.h 516-531 -/
noncomputable def convexLoop (l : List P2) (distance : ℝ) (curIdx : Nat) (offsets : List (List P2)) : M (List (List P2)) :=
  if curIdx + 1 < l.length then do
    let pv ← makeVincinity l curIdx
    let p ← shiftPerpendicular l curIdx distance false pv
    let r ← convexRun l distance (curIdx + 1) curIdx [p]
    convexLoop l distance r.2 (offsets ++ [r.1])
  else pure offsets
partial_fixpoint

/-- extractConvex, impl/LineString.h 513-532 -/
noncomputable def extractConvex (l : List P2) (distance : ℝ) : M (List (List P2)) := convexLoop l distance 0 []

/-! ### joining -/

/-- what the functions of boost do; impl/LineString.h 307-365 -/
structure Env where
  /-- boost::geometry::intersection of two segments -/
  intersection : Seg → Seg → List P2
  /-- the results of a query for segments that intersect a segment -/
  query : List (Seg × Nat) → Seg → List (Seg × Nat)
  /-- the nearest segment of a tree -/
  nearest : List Seg → P2 → Seg

/-- the segments of a line of points, without the special case of a single point; impl/LineString.h 312-318, 552-556 -/
def pairs {α : Type} (l : List α) : List (α × α) := l.zip l.tail

/-- the tree and the map of makeTree, impl/LineString.h 547-561 -/
def treeFrom : Nat → Nat → List (List P2) → List (Seg × Nat) × List (Nat × Nat)
  | _, _, [] => ([], [])
  | i, idx, s :: r =>
    let t := treeFrom (i + 1) (idx + (pairs s).length) r
    ((pairs s).zipIdx idx ++ t.1, (List.range (pairs s).length).map (fun j => (i, j)) ++ t.2)

/-- impl/LineString.h 547-561. -/
def makeTree (subs : List (List P2)) : List (Seg × Nat) × List (Nat × Nat) := treeFrom 0 0 subs

/-- SelfIntersection2d: position on the first segment, index of and position on the other segment, and the point; impl/LineString.h 14-24 -/
structure Inter where
  firstS : ℝ
  lastIdx : Nat
  lastS : ℝ
  pt : P2

open Classical in
/-- getSelfIntersectionsAt, impl/LineString.h 347-366 -/
noncomputable def getSelfIntersectionsAt (env : Env) (tree : List (Seg × Nat)) (segToCheck : Nat) (seg : Seg) : M (List Inter) :=
  ((env.query tree seg).filter fun o => decide (o.1.1 ≠ seg.2 ∧ o.1.2 ≠ seg.1 ∧ o.1.1 ≠ seg.1 ∧ segToCheck < o.2)).mapM fun o =>
    match env.intersection seg (o : Seg × Nat).1 with
    | x :: _ => pure ⟨dist x seg.1, o.2, dist x o.1.1, x⟩
    | [] => err .range

open Classical in
/-- getLowestSAbove, impl/LineString.h 327-338; the largest double is never reached -/
noncomputable def getLowestSAbove (is : List Inter) (minS : ℝ) : Option Inter :=
  is.foldl (fun res ci =>
    if minS < ci.firstS ∧ (match res with | none => True | some b => ci.firstS < b.firstS) then some ci else res) none

/-- PointSearchResult; impl/LineString.h 368-372 -/
structure Next where
  pt : P2
  idx : Nat
  lastS : ℝ

/-- findNextPoint, impl/LineString.h 382-392 -/
noncomputable def findNextPoint (is : List Inter) (seg : Seg) (lastS : ℝ) (i : Nat) : Next :=
  match getLowestSAbove is lastS with
  | some ni => ⟨ni.pt, ni.lastIdx, ni.lastS⟩
  | none => ⟨seg.2, i + 1, 0⟩

/-- the state of joinSubStrings; impl/LineString.h 572-605 -/
structure JState where
  i : Nat
  idx : Nat
  lastS : ℝ
  newLS : List P2

/-- the inner loop of joinSubStrings, impl/LineString.h 586-601 -/
noncomputable def joinInner (env : Env) (subs : List (List P2)) (ls : List P2) (j : Nat) (s : JState) : M JState :=
  if j + 1 < ls.length then do
    let a ← get ls j
    let b ← get ls (j + 1)
    let is ← getSelfIntersectionsAt env (makeTree subs).1 s.idx (a, b)
    let np := findNextPoint is (a, b) s.lastS s.idx
    if (makeTree subs).2.length ≤ np.idx then pure ⟨subs.length, np.idx, s.lastS, s.newLS ++ [np.pt]⟩
    else do
      let c ← get (makeTree subs).2 np.idx
      if c.1 ≠ s.i then pure ⟨c.1, np.idx, np.lastS, s.newLS ++ [np.pt]⟩
      else joinInner env subs ls (j + 1) ⟨s.i, np.idx, np.lastS, s.newLS ++ [np.pt]⟩
  else pure s
partial_fixpoint

/-- the outer loop of joinSubStrings, impl/LineString.h 584-602 -/
noncomputable def joinLoop (env : Env) (subs : List (List P2)) (s : JState) : M (List P2) :=
  if s.i < subs.length then do
    let ls ← get subs s.i
    let s' ← joinInner env subs ls 0 s
    joinLoop env subs s'
  else pure s.newLS
partial_fixpoint

/-- front() and back() of a line; impl/LineString.h 572-605 -/
def front {α : Type} (l : List α) : M α := get l 0
/-- `back()` of a line, impl/LineString.h 572-605. -/
def back {α : Type} (l : List α) : M α := get l (l.length - 1)

/-- joinSubStrings, impl/LineString.h 572-605 -/
noncomputable def joinSubStrings (env : Env) (subs : List (List P2)) : M (List P2) :=
  match subs with
  | [] => pure []
  | [s] => pure s
  | s :: _ :: _ => do
    let p ← front s
    let r ← joinLoop env subs ⟨0, 0, 0, [p]⟩
    let ls ← back subs
    let q ← back ls
    pure (r ++ [q])

/-- offsetNoThrow, impl/LineString.h 856-862 -/
noncomputable def offsetNoThrow (env : Env) (l : List P2) (distance : ℝ) : M (List P2) := do
  let subs ← extractConvex l distance
  joinSubStrings env subs

/-! ### the check -/

/-- checkForInversion, impl/LineString.h 422-433, with makeSegmentTree 284-299 -/
noncomputable def checkForInversion (env : Env) (old offsetLS : List P2) (distance : ℝ) : M Unit :=
  if old.length < 2 then err .input
  else offsetLS.forM fun p =>
    let s := env.nearest (pairs old) p
    if dist (projectPoint s.1 s.2 p) p + 1 / 10 ^ 7 < distance then err .geometry else pure ()

/-- offset, impl/LineString.h 864-869 -/
noncomputable def offset (env : Env) (l : List P2) (distance : ℝ) : M (List P2) := do
  let r ← offsetNoThrow env l distance
  checkForInversion env l r distance
  pure r

end Verif.Geo.Offset
