import Mathlib.Algebra.Order.Field.Basic
import Mathlib.Algebra.Module.Prod
import Mathlib.Algebra.Module.Basic
import Mathlib.Algebra.Order.Ring.Abs
import Mathlib.Tactic.Linarith
import Mathlib.Tactic.Ring
import Mathlib.Tactic.NormNum
import Mathlib.Tactic.Positivity
import Mathlib.Tactic.FieldSimp
import Mathlib.Tactic.Module
import Mathlib.Tactic.Abel

/-!
Points and vectors with exact arithmetic. Stands for Eigen::Vector2d and Eigen::Vector3d (BasicPoint2d and BasicPoint3d):
the geometry functions only use addition, scaling, the dot product and the norm.
-/
namespace Verif.Geo

/-- Vectors with a dot product. `norm` is the Euclidean norm; where it occurs in the code only to be compared or subtracted, any
ordered field that has these norms will do (the real numbers, or the rationals in one dimension). Stands for BasicPoint2d and BasicPoint3d (Point.h 20-21). -/
class Space (F : outParam Type) (V : Type) [Field F] [LinearOrder F] [IsStrictOrderedRing F] [AddCommGroup V] [Module F V] where
  dot : V → V → F
  norm : V → F
  dot_comm : ∀ u v, dot u v = dot v u
  dot_add : ∀ u v w, dot (u + v) w = dot u w + dot v w
  dot_smul : ∀ (a : F) v w, dot (a • v) w = a * dot v w
  dot_pos : ∀ v, v ≠ 0 → 0 < dot v v
  norm_nonneg : ∀ v, 0 ≤ norm v
  norm_sq : ∀ v, norm v * norm v = dot v v

export Space (dot norm)

section
variable {F V : Type} [Field F] [LinearOrder F] [IsStrictOrderedRing F] [AddCommGroup V] [Module F V] [S : Space F V]

/-- geometry::distance of two points; geometry/Point.h 63-79 -/
def dist (a b : V) : F := norm (a - b)

theorem dot_add_left (u v w : V) : dot (u + v) w = dot u w + dot v w := S.dot_add u v w
theorem dot_smul_left (a : F) (v w : V) : dot (a • v) w = a * dot v w := S.dot_smul a v w
theorem dot_comm (u v : V) : dot u v = dot v u := S.dot_comm u v

theorem dot_add_right (u v w : V) : dot w (u + v) = dot w u + dot w v := by
  rw [dot_comm, dot_add_left, dot_comm u, dot_comm v]

theorem dot_smul_right (a : F) (v w : V) : dot w (a • v) = a * dot w v := by
  rw [dot_comm, dot_smul_left, dot_comm v]

theorem dot_neg_left (v w : V) : dot (-v) w = -dot v w := by
  rw [← neg_one_smul F v, dot_smul_left]; ring

theorem dot_neg_right (v w : V) : dot w (-v) = -dot w v := by
  rw [dot_comm, dot_neg_left, dot_comm]

theorem dot_sub_left (u v w : V) : dot (u - v) w = dot u w - dot v w := by
  rw [sub_eq_add_neg, dot_add_left, dot_neg_left]; ring

theorem dot_sub_right (u v w : V) : dot w (u - v) = dot w u - dot w v := by
  rw [dot_comm, dot_sub_left, dot_comm u, dot_comm v]

theorem dot_zero_left (w : V) : dot (0 : V) w = 0 := by
  have := dot_smul_left (0 : F) (0 : V) w
  simpa using this

theorem dot_zero_right (w : V) : dot w (0 : V) = 0 := by rw [dot_comm, dot_zero_left]

theorem dot_self_nonneg (v : V) : 0 ≤ dot v v := by
  by_cases h : v = 0
  · rw [h, dot_zero_left]
  · exact (S.dot_pos v h).le

theorem dot_self_eq_zero {v : V} : dot v v = 0 ↔ v = 0 := by
  constructor
  · intro h
    by_contra hv
    exact absurd h (S.dot_pos v hv).ne'
  · rintro rfl; exact dot_zero_left 0

theorem norm_nonneg (v : V) : 0 ≤ norm v := S.norm_nonneg v
theorem norm_sq (v : V) : norm v * norm v = dot v v := S.norm_sq v

theorem norm_zero : norm (0 : V) = 0 := by
  have := norm_sq (0 : V)
  rw [dot_zero_left] at this
  exact mul_self_eq_zero.mp this

theorem norm_eq_zero {v : V} : norm v = 0 ↔ v = 0 := by
  rw [← dot_self_eq_zero (v := v), ← norm_sq v, mul_self_eq_zero]

theorem norm_le_iff {u v : V} : norm u ≤ norm v ↔ dot u u ≤ dot v v := by
  rw [← norm_sq, ← norm_sq]
  exact (mul_self_le_mul_self_iff (norm_nonneg u) (norm_nonneg v))

theorem norm_lt_iff {u v : V} : norm u < norm v ↔ dot u u < dot v v := by
  rw [← not_le, ← not_le, norm_le_iff]

theorem norm_smul (a : F) (v : V) : norm (a • v) = |a| * norm v := by
  have h : norm (a • v) * norm (a • v) = (|a| * norm v) * (|a| * norm v) := by
    rw [norm_sq, dot_smul_left, dot_smul_right, ← norm_sq]
    have : |a| * |a| = a * a := abs_mul_abs_self a
    calc a * (a * (norm v * norm v)) = (a * a) * (norm v * norm v) := by ring
      _ = (|a| * |a|) * (norm v * norm v) := by rw [this]
      _ = _ := by ring
  exact (mul_self_inj (norm_nonneg _) (mul_nonneg (abs_nonneg a) (norm_nonneg v))).mp h

theorem norm_neg (v : V) : norm (-v) = norm v := by
  rw [← neg_one_smul F v, norm_smul]; simp

theorem dist_comm (a b : V) : dist a b = dist b a := by
  unfold dist
  rw [← norm_neg, neg_sub]

theorem dist_self (a : V) : dist a a = 0 := by unfold dist; rw [sub_self, norm_zero]
theorem dist_nonneg (a b : V) : 0 ≤ dist a b := norm_nonneg _
theorem dist_eq_zero {a b : V} : dist a b = 0 ↔ a = b := by unfold dist; rw [norm_eq_zero, sub_eq_zero]

/-- Cauchy-Schwarz -/
theorem dot_sq_le (u v : V) : dot u v * dot u v ≤ dot u u * dot v v := by
  by_cases hv : v = 0
  · rw [hv, dot_zero_right, dot_zero_right]; simp
  · have hp := S.dot_pos v hv
    have h := dot_self_nonneg (dot v v • u - dot u v • v)
    have e : dot (dot v v • u - dot u v • v) (dot v v • u - dot u v • v) =
        dot v v * (dot u u * dot v v - dot u v * dot u v) := by
      simp only [dot_sub_left, dot_sub_right, dot_smul_left, dot_smul_right]
      rw [dot_comm v u]; ring
    rw [e] at h
    have := nonneg_of_mul_nonneg_right h hp
    linarith

/-- equality in Cauchy-Schwarz: parallel vectors -/
theorem parallel_of_dot_sq {u v : V} (h : dot u u * dot v v - dot u v * dot u v = 0) : dot v v • u = dot u v • v := by
  have e : dot (dot v v • u - dot u v • v) (dot v v • u - dot u v • v) =
      dot v v * (dot u u * dot v v - dot u v * dot u v) := by
    simp only [dot_sub_left, dot_sub_right, dot_smul_left, dot_smul_right]
    rw [dot_comm v u]; ring
  rw [h, mul_zero] at e
  exact sub_eq_zero.mp (dot_self_eq_zero.mp e)

theorem dot_le_norm (u v : V) : dot u v ≤ norm u * norm v := by
  by_contra h
  have h := not_le.mp h
  have h0 : 0 ≤ norm u * norm v := mul_nonneg (norm_nonneg u) (norm_nonneg v)
  have h1 : (norm u * norm v) * (norm u * norm v) < dot u v * dot u v := mul_self_lt_mul_self h0 h
  have h2 := dot_sq_le u v
  have h3 : (norm u * norm v) * (norm u * norm v) = dot u u * dot v v := by rw [← norm_sq, ← norm_sq]; ring
  linarith

theorem norm_add_le (u v : V) : norm (u + v) ≤ norm u + norm v := by
  have h : norm (u + v) * norm (u + v) ≤ (norm u + norm v) * (norm u + norm v) := by
    have := dot_le_norm u v
    rw [norm_sq, dot_add_left, dot_add_right, dot_add_right, dot_comm v u, ← norm_sq, ← norm_sq]
    nlinarith
  exact (mul_self_le_mul_self_iff (norm_nonneg _) (add_nonneg (norm_nonneg u) (norm_nonneg v))).mpr h

theorem dist_triangle (a b c : V) : dist a c ≤ dist a b + dist b c := by
  unfold dist
  have : a - c = (a - b) + (b - c) := by abel
  rw [this]
  exact norm_add_le _ _

theorem dist_le_iff {a b c d : V} : dist a b ≤ dist c d ↔ dot (a - b) (a - b) ≤ dot (c - d) (c - d) := norm_le_iff

omit S in
/-- the points of a segment; Specification. -/
def OnSegment [Space F V] (a b x : V) : Prop := ∃ t : F, 0 ≤ t ∧ t ≤ 1 ∧ x = a + t • (b - a)

theorem onSegment_left (a b : V) : OnSegment a b a := ⟨0, le_refl _, zero_le_one, by simp⟩
theorem onSegment_right (a b : V) : OnSegment a b b := ⟨1, zero_le_one, le_refl _, by simp⟩
theorem onSegment_self {a x : V} : OnSegment a a x ↔ x = a := by
  constructor
  · rintro ⟨t, -, -, h⟩; simpa using h
  · rintro rfl; exact onSegment_left _ _

end

/-! ### instances -/

section
variable {F : Type} [Field F] [LinearOrder F] [IsStrictOrderedRing F]

/-- one dimension, with rational norms; for examples -/
instance : Space F F where
  dot a b := a * b
  norm a := |a|
  dot_comm := mul_comm
  dot_add u v w := add_mul u v w
  dot_smul a v w := by simp [mul_assoc]
  dot_pos v hv := mul_self_pos.mpr hv
  norm_nonneg := abs_nonneg
  norm_sq := abs_mul_abs_self

end

end Verif.Geo
