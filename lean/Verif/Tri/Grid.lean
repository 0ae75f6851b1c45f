import Verif.Tri.Props
import Mathlib.Algebra.Order.Field.Rat
import Mathlib.Algebra.Order.Ring.Abs
import Mathlib.Data.Rat.Floor
import Mathlib.Tactic.Linarith
import Mathlib.Tactic.NormNum
import Mathlib.Tactic.Ring

/-!
Property C102: what the convex partition and the triangulation see of the corners of a polygon.

The Voronoi diagram is built from the corners in centimetres without the digits behind the point: PolygonTriangulationGeometry.cpp 8, 47-52,
72-77. Coordinates are rational numbers, as all doubles are; `v * 100` is exact here. The conversion of numbers beyond 64 bits is not
modelled.
-/
namespace Verif.Tri

/-! ### Model -/

/-- toVoronoi, PolygonTriangulationGeometry.cpp 8: static_cast drops the digits behind the point, towards zero -/
def toVoronoi (v : ℚ) : Int := if 0 ≤ v * 100 then ⌊v * 100⌋ else ⌈v * 100⌉

/-- The corner as the diagram sees it, PolygonTriangulationGeometry.cpp 47-52, 72-77 -/
def toGrid (p : ℚ × ℚ) : Pt := (toVoronoi p.1, toVoronoi p.2)

/-! ### Specification -/

/-- Specification. Twice the signed area of a triangle in metres; negative for clockwise. -/
def turn (a b c : ℚ × ℚ) : ℚ := (b.1 - a.1) * (c.2 - a.2) - (b.2 - a.2) * (c.1 - a.1)

/-- Specification. The way from one point to another along the axes. -/
def way (a b : ℚ × ℚ) : ℚ := |b.1 - a.1| + |b.2 - a.2|

/-! ### Proofs -/

/-- C102. No corner is moved by a centimetre or more along an axis. -/
theorem toVoronoi_near (v : ℚ) : |v - (toVoronoi v : ℚ) / 100| < 1 / 100 := by
  unfold toVoronoi
  split
  · have h1 := Int.floor_le (v * 100)
    have h2 := Int.lt_floor_add_one (v * 100)
    rw [abs_lt]
    constructor <;> linarith
  · have h1 := Int.le_ceil (v * 100)
    have h2 := Int.ceil_lt_add_one (v * 100)
    rw [abs_lt]
    constructor <;> linarith

/-- C102. The order along an axis is kept. -/
theorem toVoronoi_mono {v w : ℚ} (h : v ≤ w) : toVoronoi v ≤ toVoronoi w := by
  unfold toVoronoi
  split <;> split
  · exact Int.floor_le_floor (by linarith)
  · rename_i h1 h2; exact absurd (by linarith) h2
  · rename_i h1 h2
    have h3 : ⌈v * 100⌉ ≤ 0 := Int.ceil_le.2 (by push_cast; linarith)
    have h4 : 0 ≤ ⌊w * 100⌋ := Int.floor_nonneg.2 h2
    exact h3.trans h4
  · exact Int.ceil_le_ceil (by linarith)

/-- C102. Numbers of whole centimetres are kept. -/
theorem toVoronoi_exact (z : Int) : toVoronoi ((z : ℚ) / 100) = z := by
  have h : (z : ℚ) / 100 * 100 = z := by ring
  unfold toVoronoi
  rw [h]
  split
  · exact Int.floor_intCast z
  · exact Int.ceil_intCast z

/-- C102. Corners that are at least two centimetres apart along one of the axes stay different. -/
theorem toGrid_separates (p q : ℚ × ℚ) (h : 2 / 100 ≤ |p.1 - q.1| ∨ 2 / 100 ≤ |p.2 - q.2|) : toGrid p ≠ toGrid q := by
  have key : ∀ v w : ℚ, 2 / 100 ≤ |v - w| → toVoronoi v ≠ toVoronoi w := by
    intro v w h e
    have h1 := toVoronoi_near v
    have h2 := toVoronoi_near w
    rw [e] at h1
    have h3 : |v - w| ≤ |v - (toVoronoi w : ℚ) / 100| + |(toVoronoi w : ℚ) / 100 - w| := abs_sub_le _ _ _
    rw [abs_sub_comm ((toVoronoi w : ℚ) / 100) w] at h3
    linarith
  intro e
  rcases h with h | h
  · exact key _ _ h (congrArg Prod.fst e)
  · exact key _ _ h (congrArg Prod.snd e)

/-- C102, disagreement. All corners within a square of two centimetres around the origin are one point for the diagram, and all within one
centimetre elsewhere: for each point of the grid. -/
theorem merged_counterexample :
    (∀ p : ℚ × ℚ, |p.1| < 1 / 100 → |p.2| < 1 / 100 → toGrid p = (0, 0)) ∧
    ∀ (z : Int) (v : ℚ), 0 ≤ z → (z : ℚ) / 100 ≤ v → v < (z + 1 : ℚ) / 100 → toVoronoi v = z := by
  have key : ∀ v : ℚ, |v| < 1 / 100 → toVoronoi v = 0 := by
    intro v h
    rw [abs_lt] at h
    unfold toVoronoi
    split
    · rename_i h0
      exact Int.floor_eq_iff.2 ⟨by push_cast; linarith, by push_cast; linarith⟩
    · rename_i h0
      exact Int.ceil_eq_iff.2 ⟨by push_cast; linarith, by push_cast; linarith⟩
  refine ⟨fun p h1 h2 => ?_, fun z v hz h1 h2 => ?_⟩
  · exact Prod.ext (key _ h1) (key _ h2)
  · have hz' : (0 : ℚ) ≤ z := by exact_mod_cast hz
    unfold toVoronoi
    rw [if_pos (by linarith)]
    exact Int.floor_eq_iff.2 ⟨by linarith, by linarith⟩

theorem near_diff {v w : ℚ} : |((toVoronoi w - toVoronoi v : Int) : ℚ) - (w - v) * 100| < 2 := by
  have h1 := toVoronoi_near v
  have h2 := toVoronoi_near w
  rw [abs_lt] at *
  push_cast
  constructor <;> linarith [h1.1, h1.2, h2.1, h2.2]

theorem cross_near {x y x' y' u v u' v' : ℚ} (h1 : |x' - x| < 2) (h2 : |y' - y| < 2) (h3 : |u' - u| < 2) (h4 : |v' - v| < 2) :
    |(x' * v' - y' * u') - (x * v - y * u)| ≤ 2 * (|x| + |y| + |u| + |v|) + 8 := by
  have e : (x' * v' - y' * u') - (x * v - y * u) =
      x * (v' - v) + (x' - x) * v + (x' - x) * (v' - v) + -(y * (u' - u)) + -((y' - y) * u) + -((y' - y) * (u' - u)) := by ring
  rw [e]
  have m : ∀ a b c d : ℚ, |a| ≤ c → |b| ≤ d → |a * b| ≤ c * d := fun a b c d ha hb => by
    rw [abs_mul]
    exact mul_le_mul ha hb (abs_nonneg _) ((abs_nonneg _).trans ha)
  have a1 := m x (v' - v) |x| 2 le_rfl h4.le
  have a2 := m (x' - x) v 2 |v| h1.le le_rfl
  have a3 := m (x' - x) (v' - v) 2 2 h1.le h4.le
  have a4 := m y (u' - u) |y| 2 le_rfl h3.le
  have a5 := m (y' - y) u 2 |u| h2.le le_rfl
  have a6 := m (y' - y) (u' - u) 2 2 h2.le h3.le
  rw [abs_le] at *
  constructor <;> linarith [a1.1, a1.2, a2.1, a2.2, a3.1, a3.2, a4.1, a4.2, a5.1, a5.2, a6.1, a6.2]

/-- C102. A corner keeps its direction in the diagram if it is not too flat: twice the area of the triangle must exceed two centimetres times the
ways from its first point to the others, and a little more. -/
theorem turn_kept (a b c : ℚ × ℚ) (h : 2 / 100 * (way a b + way a c) + 8 / 10000 < |turn a b c|) :
    (turn a b c < 0 ↔ orient (toGrid a) (toGrid b) (toGrid c) < 0) ∧ (0 < turn a b c ↔ 0 < orient (toGrid a) (toGrid b) (toGrid c)) := by
  have k := cross_near (near_diff (v := a.1) (w := b.1)) (near_diff (v := a.2) (w := b.2)) (near_diff (v := a.1) (w := c.1))
    (near_diff (v := a.2) (w := c.2))
  have e1 : ((orient (toGrid a) (toGrid b) (toGrid c) : Int) : ℚ) =
      ((toVoronoi b.1 - toVoronoi a.1 : Int) : ℚ) * ((toVoronoi c.2 - toVoronoi a.2 : Int) : ℚ)
        - ((toVoronoi b.2 - toVoronoi a.2 : Int) : ℚ) * ((toVoronoi c.1 - toVoronoi a.1 : Int) : ℚ) := by
    simp only [orient, toGrid]; push_cast; ring
  rw [← e1] at k
  have e2 : (b.1 - a.1) * 100 * ((c.2 - a.2) * 100) - (b.2 - a.2) * 100 * ((c.1 - a.1) * 100) = 10000 * turn a b c := by
    unfold turn; ring
  rw [e2] at k
  have m : ∀ x : ℚ, |x * 100| = 100 * |x| := fun x => by rw [abs_mul, mul_comm]; norm_num
  simp only [m] at k
  unfold way at h
  have k' : |((orient (toGrid a) (toGrid b) (toGrid c) : Int) : ℚ) - 10000 * turn a b c| < 10000 * |turn a b c| := by linarith
  generalize orient (toGrid a) (toGrid b) (toGrid c) = o at k'
  rw [abs_lt] at k'
  have hcast1 : (o < 0) ↔ (o : ℚ) < 0 := by exact_mod_cast Iff.rfl
  have hcast2 : (0 < o) ↔ (0 : ℚ) < o := by exact_mod_cast Iff.rfl
  rw [hcast1, hcast2]
  rcases lt_trichotomy (turn a b c) 0 with ht | ht | ht
  · rw [abs_of_neg ht] at k'
    have : (o : ℚ) < 0 := by linarith [k'.2]
    exact ⟨⟨fun _ => this, fun _ => ht⟩, ⟨fun h => absurd h ht.not_gt, fun h => absurd h this.not_gt⟩⟩
  · rw [ht] at k'
    simp at k'
    linarith [k'.1, k'.2]
  · rw [abs_of_pos ht] at k'
    have : (0 : ℚ) < o := by linarith [k'.1]
    exact ⟨⟨fun h => absurd h ht.not_gt, fun h => absurd h this.not_gt⟩, ⟨fun _ => this, fun _ => ht⟩⟩

/-- C102, disagreement. A clockwise triangle with sides of more than ten metres is counterclockwise for the diagram, another one is flat. -/
theorem turn_counterexample :
    (∃ a b c : ℚ × ℚ, turn a b c < 0 ∧ 10 < way a b ∧ 10 < way b c ∧ 10 < way c a ∧ 0 < orient (toGrid a) (toGrid b) (toGrid c)) ∧
    ∃ a b c : ℚ × ℚ, turn a b c < 0 ∧ 10 < way a b ∧ 10 < way b c ∧ 10 < way c a ∧ orient (toGrid a) (toGrid b) (toGrid c) = 0 := by
  have z : toVoronoi 0 = 0 := by simpa using toVoronoi_exact 0
  have z1 : toVoronoi 11 = 1100 := by have := toVoronoi_exact 1100; norm_num at this; exact this
  have z2 : toVoronoi 22 = 2200 := by have := toVoronoi_exact 2200; norm_num at this; exact this
  have z3 : toVoronoi (9 / 1000) = 0 := by
    refine merged_counterexample.2 0 _ le_rfl ?_ ?_ <;> norm_num
  have z4 : toVoronoi (10 / 1000) = 1 := by have := toVoronoi_exact 1; norm_num at this ⊢; exact this
  refine ⟨⟨(0, 0), (11, 9 / 1000), (22, 10 / 1000), ?_⟩, ⟨(0, 0), (11, 9 / 1000), (22, 0), ?_⟩⟩
  · simp only [toGrid, z, z1, z2, z3, z4, orient, turn, way]
    norm_num [abs_of_pos, abs_of_neg]
  · simp only [toGrid, z, z1, z2, z3, orient, turn, way]
    norm_num [abs_of_pos, abs_of_neg]

/-! ### Examples -/

-- a corner of ten metres that turns by ten centimetres
example : 2 / 100 * (way (0, 0) (5, 1) + way (0, 0) (10, 0)) + 8 / 10000 < |turn (0, 0) (5, 1) (10, 0)| := by
  norm_num [way, turn, abs_of_pos, abs_of_neg]

example : toGrid (-314 / 1000, 159 / 1000) = (-31, 15) := by decide +kernel

end Verif.Tri
