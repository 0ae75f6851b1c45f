import Mathlib.Order.Defs.LinearOrder

/-!
Model of the computation of a lanelet's centerline: lanelet2_core/src/Lanelet.cpp 134-240.

Points of the bounds are addressed by their index, points of the centerline by the pair of indices whose midpoint they
are. The geometric tests and the spatial index are parameters:

* `order isLeft other`: the points of the bound (left or right) in the order in which the r-tree query `nearest` returns
  them for point `other` of the opposite bound (lines 104-111),
* `dist isLeft other cand`: half the distance of the two points (line 152),
* `valid last isLeft other cand`: the three intersection tests of lines 161-166,
* `stop last isLeft other cand best`: the test by the triangle inequality (line 149).
-/
namespace Verif.Center

/-- The geometric computations that Lanelet.cpp 20-230 gets from boost and Eigen, for directions of type `D`. -/
structure Geo (D : Type) where
  order : Bool → Nat → List Nat
  dist : Bool → Nat → Nat → D
  valid : Nat × Nat → Bool → Nat → Nat → Bool
  stop : Nat × Nat → Bool → Nat → Nat → D → Bool

variable {D : Type} [LinearOrder D]

/-- The lambda of Lanelet.cpp 142-171, called for the points in the order of the query; the result is the best position and its
distance. -/
def scan (g : Geo D) (last : Nat × Nat) (isLeft : Bool) (cur other : Nat) : List Nat → Option (Nat × D) → Option (Nat × D)
  | [], best => best
  | cand :: rest, best =>
    if cand < cur then scan g last isLeft cur other rest best
    else match best with
      | none =>
        if g.valid last isLeft other cand then scan g last isLeft cur other rest (some (cand, g.dist isLeft other cand))
        else scan g last isLeft cur other rest none
      | some (b, d) =>
        if g.stop last isLeft other cand d then some (b, d)
        else if d ≤ g.dist isLeft other cand then scan g last isLeft cur other rest (some (b, d))
        else if g.valid last isLeft other cand then
          scan g last isLeft cur other rest (some (cand, g.dist isLeft other cand))
        else scan g last isLeft cur other rest (some (b, d))

/-- findClosestNonintersectingPoint, Lanelet.cpp 134-178 -/
def findClosest (g : Geo D) (cur other : Nat) (last : Nat × Nat) (isLeft : Bool) : Option (Nat × D) :=
  scan g last isLeft cur other (g.order isLeft other) none

/-- The loop of Lanelet.cpp 200-232. `n`, `m` are the sizes of the bounds. Dereferencing an end iterator is undefined behaviour
(`none`). The result is the final position on both bounds and the centerline. -/
def loop (g : Geo D) (n m : Nat) (l r : Nat) (center : List (Nat × Nat)) (last : Nat × Nat) :
    Option (Nat × Nat × List (Nat × Nat)) :=
  if l ≥ n ∨ r ≥ m then none else
  match findClosest g (l + 1) r last true, findClosest g (r + 1) l last false with
  | some (c, _), none => loop g n m c r (center ++ [(c, r)]) (c, r)
  | some (c, d), some (c', d') =>
    if d ≤ d' then loop g n m c r (center ++ [(c, r)]) (c, r)
    else loop g n m l c' (center ++ [(l, c')]) (l, c')
  | none, some (c', _) => loop g n m l c' (center ++ [(l, c')]) (l, c')
  | none, none => some (l, r, center)
partial_fixpoint

/-- calculateCenterline, Lanelet.cpp 180-240. `closed`: the first points of the bounds are identical. -/
def calculate (g : Geo D) (n m : Nat) (closed : Bool) : Option (List (Nat × Nat)) :=
  if n = 0 ∨ m = 0 then some [] else do
    let (l, r, center) ← loop g n m (if closed then 1 else 0) 0 [(0, 0)] (0, 0)
    return if l = n - 1 ∧ r = m - 1 then center else center ++ [(n - 1, m - 1)]

/-- the points of the centerline, Lanelet.cpp 20-29 -/
def centerPoints {P Q : Type} (mid : P → P → Q) (left right : List P) (c : List (Nat × Nat)) : List Q :=
  c.filterMap fun ij => do return mid (← left[ij.1]?) (← right[ij.2]?)

end Verif.Center
