import Verif.Geo.Plane
import Mathlib.Tactic.LinearCombination

/-!
Model of signedCurvature2d and curvature2d, geometry/impl/LineString.h 704-721, and their properties (C59).
-/
namespace Verif.Geo

/-- twice the signed area of the triangle, impl/LineString.h 712: positive if the third point is left of the line from the first to the second -/
def cross3 (p1 p2 p3 : ℝ × ℝ) : ℝ := (p2.1 - p1.1) * (p3.2 - p1.2) - (p2.2 - p1.2) * (p3.1 - p1.1)

/-- impl/LineString.h 713-716 -/
noncomputable def sideProduct (p1 p2 p3 : ℝ × ℝ) : ℝ := dist p1 p2 * dist p1 p3 * dist p2 p3

/-- signedCurvature2d, impl/LineString.h 709-721; `none` is infinity -/
noncomputable def signedCurvature2d (p1 p2 p3 : ℝ × ℝ) : Option ℝ :=
  let area := 0.5 * cross3 p1 p2 p3
  let product := sideProduct p1 p2 p3
  if product < 1 / 10 ^ 20 then none else some (4 * area / product)

/-- curvature2d, impl/LineString.h 704-707 -/
noncomputable def curvature2d (p1 p2 p3 : ℝ × ℝ) : Option ℝ := (signedCurvature2d p1 p2 p3).map fun k => |k|

/-! ### specification -/

/-- the three points are on the circle around `c` with radius `r`; Specification. -/
def OnCircle (c : ℝ × ℝ) (r : ℝ) (p1 p2 p3 : ℝ × ℝ) : Prop := dist c p1 = r ∧ dist c p2 = r ∧ dist c p3 = r

/-- the three points are (nearly) not three different points: the product of their distances is below the threshold of the code; Specification. -/
def Degenerate (p1 p2 p3 : ℝ × ℝ) : Prop := dist p1 p2 * dist p1 p3 * dist p2 p3 < 1 / 10 ^ 20

/-- `q` is strictly left of the line from `a` to `b`: it is reached from a point of the line by going in the direction that is 90° left of it -/
def LeftOf (a b q : ℝ × ℝ) : Prop := ∃ s t : ℝ, 0 < t ∧ q = (a.1 + s * (b.1 - a.1) - t * (b.2 - a.2), a.2 + s * (b.2 - a.2) + t * (b.1 - a.1))

/-- three points of one line; Specification. -/
def Straight (a b q : ℝ × ℝ) : Prop := ∃ s : ℝ, q = (a.1 + s * (b.1 - a.1), a.2 + s * (b.2 - a.2))

/-! ### lemmas -/

theorem dist2_sq (u v : ℝ × ℝ) : dist u v * dist u v = (u.1 - v.1) * (u.1 - v.1) + (u.2 - v.2) * (u.2 - v.2) := norm_sq (u - v)

theorem ne_of_product {p1 p2 p3 : ℝ × ℝ} (h : ¬ Degenerate p1 p2 p3) : p1 ≠ p2 ∧ p1 ≠ p3 ∧ p2 ≠ p3 := by
  refine ⟨?_, ?_, ?_⟩ <;> rintro rfl <;> refine h ?_ <;> unfold Degenerate <;> rw [dist_self] <;> norm_num

/-- the law of sines: the product of the sides is four times the area times the radius -/
theorem circle_identity {c p1 p2 p3 : ℝ × ℝ} {r : ℝ} (h : OnCircle c r p1 p2 p3) :
    sideProduct p1 p2 p3 * sideProduct p1 p2 p3 = 4 * (r * r) * (cross3 p1 p2 p3 * cross3 p1 p2 p3) := by
  obtain ⟨h1, h2, h3⟩ := h
  have e1 := dist2_sq c p1
  have e2 := dist2_sq c p2
  have e3 := dist2_sq c p3
  rw [h1] at e1; rw [h2] at e2; rw [h3] at e3
  have s : sideProduct p1 p2 p3 * sideProduct p1 p2 p3 =
      (dist p1 p2 * dist p1 p2) * (dist p1 p3 * dist p1 p3) * (dist p2 p3 * dist p2 p3) := by unfold sideProduct; ring
  rw [s, dist2_sq, dist2_sq, dist2_sq]
  unfold cross3
  obtain ⟨cx, cy⟩ := c
  obtain ⟨x1, y1⟩ := p1
  obtain ⟨x2, y2⟩ := p2
  obtain ⟨x3, y3⟩ := p3
  simp only at *
  -- coordinates relative to the centre
  obtain ⟨u1, hu1⟩ : ∃ u, u = x1 - cx := ⟨_, rfl⟩
  obtain ⟨u2, hu2⟩ : ∃ u, u = x2 - cx := ⟨_, rfl⟩
  obtain ⟨u3, hu3⟩ : ∃ u, u = x3 - cx := ⟨_, rfl⟩
  obtain ⟨v1, hv1⟩ : ∃ u, u = y1 - cy := ⟨_, rfl⟩
  obtain ⟨v2, hv2⟩ : ∃ u, u = y2 - cy := ⟨_, rfl⟩
  obtain ⟨v3, hv3⟩ : ∃ u, u = y3 - cy := ⟨_, rfl⟩
  obtain rfl : x1 = u1 + cx := by linarith
  obtain rfl : x2 = u2 + cx := by linarith
  obtain rfl : x3 = u3 + cx := by linarith
  obtain rfl : y1 = v1 + cy := by linarith
  obtain rfl : y2 = v2 + cy := by linarith
  obtain rfl : y3 = v3 + cy := by linarith
  clear hu1 hu2 hu3 hv1 hv2 hv3 s h1 h2 h3
  obtain ⟨R, hR⟩ : ∃ R, R = r * r := ⟨_, rfl⟩
  rw [← hR] at e1 e2 e3 ⊢
  have e1 : u1 * u1 + v1 * v1 = R := by linarith
  have e2 : u2 * u2 + v2 * v2 = R := by linarith
  have e3 : u3 * u3 + v3 * v3 = R := by linarith
  obtain ⟨a, ha⟩ : ∃ a, a = u1 * u2 + v1 * v2 := ⟨_, rfl⟩
  obtain ⟨b, hb⟩ : ∃ a, a = u2 * u3 + v2 * v3 := ⟨_, rfl⟩
  obtain ⟨c, hc⟩ : ∃ a, a = u1 * u3 + v1 * v3 := ⟨_, rfl⟩
  -- three vectors of the plane are dependent
  have gram : R * R * R + 2 * a * b * c - R * (a * a + b * b + c * c) = 0 := by
    have g : (u1 * u1 + v1 * v1) * (u2 * u2 + v2 * v2) * (u3 * u3 + v3 * v3) + 2 * a * b * c
        - (u3 * u3 + v3 * v3) * (a * a) - (u1 * u1 + v1 * v1) * (b * b) - (u2 * u2 + v2 * v2) * (c * c) = 0 := by
      rw [ha, hb, hc]; ring
    rw [e1, e2, e3] at g
    linarith
  have d12 : (u1 + cx - (u2 + cx)) * (u1 + cx - (u2 + cx)) + (v1 + cy - (v2 + cy)) * (v1 + cy - (v2 + cy)) = 2 * (R - a) := by
    rw [ha]; linear_combination e1 + e2
  have d13 : (u1 + cx - (u3 + cx)) * (u1 + cx - (u3 + cx)) + (v1 + cy - (v3 + cy)) * (v1 + cy - (v3 + cy)) = 2 * (R - c) := by
    rw [hc]; linear_combination e1 + e3
  have d23 : (u2 + cx - (u3 + cx)) * (u2 + cx - (u3 + cx)) + (v2 + cy - (v3 + cy)) * (v2 + cy - (v3 + cy)) = 2 * (R - b) := by
    rw [hb]; linear_combination e2 + e3
  have dd : (u2 + cx - (u1 + cx)) * (u3 + cx - (u1 + cx)) + (v2 + cy - (v1 + cy)) * (v3 + cy - (v1 + cy)) = b - a - c + R := by
    rw [ha, hb, hc]; linear_combination e1
  have lag : ((u2 + cx - (u1 + cx)) * (v3 + cy - (v1 + cy)) - (v2 + cy - (v1 + cy)) * (u3 + cx - (u1 + cx))) *
      ((u2 + cx - (u1 + cx)) * (v3 + cy - (v1 + cy)) - (v2 + cy - (v1 + cy)) * (u3 + cx - (u1 + cx))) =
      2 * (R - a) * (2 * (R - c)) - (b - a - c + R) * (b - a - c + R) := by
    rw [← d12, ← d13, ← dd]; ring
  rw [d12, d13, d23, lag]
  linear_combination (-4) * gram

theorem sideProduct_nonneg (p1 p2 p3 : ℝ × ℝ) : 0 ≤ sideProduct p1 p2 p3 :=
  mul_nonneg (mul_nonneg (dist_nonneg _ _) (dist_nonneg _ _)) (dist_nonneg _ _)

theorem curvature_some {p1 p2 p3 : ℝ × ℝ} {k : ℝ} (h : signedCurvature2d p1 p2 p3 = some k) :
    1 / 10 ^ 20 ≤ sideProduct p1 p2 p3 ∧ k * sideProduct p1 p2 p3 = 2 * cross3 p1 p2 p3 := by
  unfold signedCurvature2d at h
  simp only at h
  split at h
  · cases h
  · rename_i hp
    have hp := not_lt.mp hp
    refine ⟨hp, ?_⟩
    have h0 : (0 : ℝ) < 1 / 10 ^ 20 := by norm_num
    have : sideProduct p1 p2 p3 ≠ 0 := by linarith
    obtain rfl := Option.some.inj h
    field_simp
    ring

/-! ### C59 -/

/-- the result is infinite exactly if the points are nearly not three different points -/
theorem curvature_infinite_iff (p1 p2 p3 : ℝ × ℝ) : signedCurvature2d p1 p2 p3 = none ↔ Degenerate p1 p2 p3 := by
  unfold signedCurvature2d Degenerate sideProduct
  simp only
  split <;> simp_all

/-- **C59**: otherwise it is, up to its sign, the inverse of the radius of the circle through the points -/
theorem curvature_circle {c p1 p2 p3 : ℝ × ℝ} {r k : ℝ} (hc : OnCircle c r p1 p2 p3) (h : signedCurvature2d p1 p2 p3 = some k) : |k| * r = 1 := by
  obtain ⟨hp, hk⟩ := curvature_some h
  have h0 : (0 : ℝ) < 1 / 10 ^ 20 := by norm_num
  have hp0 : 0 < sideProduct p1 p2 p3 := by linarith
  have hr : 0 ≤ r := by rw [← hc.1]; exact dist_nonneg _ _
  have e := circle_identity hc
  have e2 : (k * r) * (k * r) * (sideProduct p1 p2 p3 * sideProduct p1 p2 p3) = 1 * (sideProduct p1 p2 p3 * sideProduct p1 p2 p3) := by
    have : (k * r) * (k * r) * (sideProduct p1 p2 p3 * sideProduct p1 p2 p3) = r * r * ((k * sideProduct p1 p2 p3) * (k * sideProduct p1 p2 p3)) := by ring
    rw [this, hk, one_mul, e]; ring
  have e3 := mul_right_cancel₀ (mul_pos hp0 hp0).ne' e2
  have e4 : (|k| * r) * (|k| * r) = 1 * 1 := by
    have : (|k| * r) * (|k| * r) = (|k| * |k|) * (r * r) := by ring
    rw [this, abs_mul_abs_self]; linarith
  exact (mul_self_inj (mul_nonneg (abs_nonneg k) hr) zero_le_one).mp e4

/-- three points that are not on one line are on a circle -/
theorem circle_exists {p1 p2 p3 : ℝ × ℝ} (h : cross3 p1 p2 p3 ≠ 0) : ∃ c r, OnCircle c r p1 p2 p3 := by
  obtain ⟨x1, y1⟩ := p1
  obtain ⟨x2, y2⟩ := p2
  obtain ⟨x3, y3⟩ := p3
  simp only [cross3] at h
  obtain ⟨D, hD⟩ : ∃ D, D = (x2 - x1) * (y3 - y1) - (y2 - y1) * (x3 - x1) := ⟨_, rfl⟩
  rw [← hD] at h
  obtain ⟨B, hB⟩ : ∃ B, B = (x2 - x1) * (x2 - x1) + (y2 - y1) * (y2 - y1) := ⟨_, rfl⟩
  obtain ⟨C, hC⟩ : ∃ C, C = (x3 - x1) * (x3 - x1) + (y3 - y1) * (y3 - y1) := ⟨_, rfl⟩
  -- the centre relative to the first point
  obtain ⟨u, hu⟩ : ∃ u, u = ((y3 - y1) * B - (y2 - y1) * C) / (2 * D) := ⟨_, rfl⟩
  obtain ⟨v, hv⟩ : ∃ v, v = ((x2 - x1) * C - (x3 - x1) * B) / (2 * D) := ⟨_, rfl⟩
  have e2 : 2 * (u * (x2 - x1) + v * (y2 - y1)) = B := by
    rw [hu, hv]; field_simp; rw [hD]; ring
  have e3 : 2 * (u * (x3 - x1) + v * (y3 - y1)) = C := by
    rw [hu, hv]; field_simp; rw [hD]; ring
  refine ⟨(x1 + u, y1 + v), dist (x1 + u, y1 + v) (x1, y1), rfl, ?_, ?_⟩
  · rw [dist2, dist2]
    congr 1
    simp only
    linear_combination -e2 - hB
  · rw [dist2, dist2]
    congr 1
    simp only
    linear_combination -e3 - hC

theorem leftOf_iff {a b q : ℝ × ℝ} (h : a ≠ b) : LeftOf a b q ↔ 0 < cross3 a b q := by
  have hd : 0 < (b.1 - a.1) * (b.1 - a.1) + (b.2 - a.2) * (b.2 - a.2) := by
    have : b.1 - a.1 ≠ 0 ∨ b.2 - a.2 ≠ 0 := by
      by_contra hn
      rw [not_or, not_not, not_not] at hn
      exact h (Prod.ext (by linarith [hn.1]) (by linarith [hn.2]))
    rcases this with h | h
    · have := mul_self_pos.mpr h; nlinarith [mul_self_nonneg (b.2 - a.2)]
    · have := mul_self_pos.mpr h; nlinarith [mul_self_nonneg (b.1 - a.1)]
  constructor
  · rintro ⟨s, t, ht, rfl⟩
    have := mul_pos ht hd
    unfold cross3
    simp only
    nlinarith
  · intro hc
    refine ⟨((b.1 - a.1) * (q.1 - a.1) + (b.2 - a.2) * (q.2 - a.2)) / ((b.1 - a.1) * (b.1 - a.1) + (b.2 - a.2) * (b.2 - a.2)),
      cross3 a b q / ((b.1 - a.1) * (b.1 - a.1) + (b.2 - a.2) * (b.2 - a.2)), div_pos hc hd, ?_⟩
    obtain ⟨L, hL⟩ : ∃ L, L = (b.1 - a.1) * (b.1 - a.1) + (b.2 - a.2) * (b.2 - a.2) := ⟨_, rfl⟩
    rw [← hL] at hd ⊢
    have hd' := hd.ne'
    unfold cross3
    refine Prod.ext ?_ ?_ <;> simp only <;> field_simp <;> rw [hL] <;> ring

theorem straight_iff {a b q : ℝ × ℝ} (h : a ≠ b) : Straight a b q ↔ cross3 a b q = 0 := by
  have hd : (b.1 - a.1) * (b.1 - a.1) + (b.2 - a.2) * (b.2 - a.2) ≠ 0 := by
    intro h0
    have h1 : b.1 - a.1 = 0 := by nlinarith [mul_self_nonneg (b.2 - a.2), mul_self_nonneg (b.1 - a.1)]
    have h2 : b.2 - a.2 = 0 := by nlinarith [mul_self_nonneg (b.2 - a.2), mul_self_nonneg (b.1 - a.1)]
    exact h (Prod.ext (by linarith) (by linarith))
  constructor
  · rintro ⟨s, rfl⟩
    unfold cross3
    simp only
    ring
  · intro hc
    refine ⟨((b.1 - a.1) * (q.1 - a.1) + (b.2 - a.2) * (q.2 - a.2)) / ((b.1 - a.1) * (b.1 - a.1) + (b.2 - a.2) * (b.2 - a.2)), ?_⟩
    obtain ⟨L, hL⟩ : ∃ L, L = (b.1 - a.1) * (b.1 - a.1) + (b.2 - a.2) * (b.2 - a.2) := ⟨_, rfl⟩
    rw [← hL] at hd ⊢
    unfold cross3 at hc
    refine Prod.ext ?_ ?_ <;> simp only <;> field_simp <;> rw [hL]
    · linear_combination (-(b.2 - a.2)) * hc
    · linear_combination (b.1 - a.1) * hc

/-- **C59**: the sign: positive for a turn to the left, negative for a turn to the right, zero exactly for points of one line -/
theorem curvature_sign {p1 p2 p3 : ℝ × ℝ} {k : ℝ} (h : signedCurvature2d p1 p2 p3 = some k) :
    (0 < k ↔ LeftOf p1 p2 p3) ∧ (k < 0 ↔ LeftOf p2 p1 p3) ∧ (k = 0 ↔ Straight p1 p2 p3) := by
  have hn : ¬ Degenerate p1 p2 p3 := by rw [← curvature_infinite_iff, h]; simp
  obtain ⟨n12, -, -⟩ := ne_of_product hn
  obtain ⟨hp, hk⟩ := curvature_some h
  have h0 : (0 : ℝ) < 1 / 10 ^ 20 := by norm_num
  have hp0 : 0 < sideProduct p1 p2 p3 := by linarith
  have hc : cross3 p2 p1 p3 = -cross3 p1 p2 p3 := by unfold cross3; ring
  rw [leftOf_iff n12, leftOf_iff n12.symm, straight_iff n12, hc]
  refine ⟨⟨fun h => ?_, fun h => ?_⟩, ⟨fun h => ?_, fun h => ?_⟩, ⟨fun h => ?_, fun h => ?_⟩⟩
  · have := mul_pos h hp0; linarith
  · by_contra hk0
    have := mul_nonneg (neg_nonneg.mpr (not_lt.mp hk0)) hp0.le
    linarith
  · have := mul_pos (neg_pos.mpr h) hp0; linarith
  · by_contra hk0
    have := mul_nonneg (not_lt.mp hk0) hp0.le
    linarith
  · rw [h, zero_mul] at hk; linarith
  · rw [h, mul_zero] at hk
    exact (mul_eq_zero.mp hk).resolve_right hp0.ne'

/-- **C59**: in the other direction the curvature has the other sign -/
theorem curvature_reverse (p1 p2 p3 : ℝ × ℝ) : signedCurvature2d p3 p2 p1 = (signedCurvature2d p1 p2 p3).map fun k => -k := by
  have e : sideProduct p3 p2 p1 = sideProduct p1 p2 p3 := by
    unfold sideProduct
    rw [dist_comm p3 p2, dist_comm p3 p1, dist_comm p2 p1]; ring
  have c : cross3 p3 p2 p1 = -cross3 p1 p2 p3 := by unfold cross3; ring
  unfold signedCurvature2d
  simp only [e, c]
  split
  · rfl
  · simp only [Option.map_some]; congr 1; ring

/-- points that are more than `1e-6` apart have a finite curvature -/
theorem curvature_finite {p1 p2 p3 : ℝ × ℝ} (h12 : 1 / 10 ^ 6 ≤ dist p1 p2) (h13 : 1 / 10 ^ 6 ≤ dist p1 p3) (h23 : 1 / 10 ^ 6 ≤ dist p2 p3) :
    ∃ k, signedCurvature2d p1 p2 p3 = some k := by
  cases h : signedCurvature2d p1 p2 p3 with
  | some k => exact ⟨k, rfl⟩
  | none =>
    rw [curvature_infinite_iff] at h
    have a : (1 / 10 ^ 6 : ℝ) * (1 / 10 ^ 6) ≤ dist p1 p2 * dist p1 p3 := mul_le_mul h12 h13 (by positivity) (dist_nonneg _ _)
    have b : (1 / 10 ^ 6 : ℝ) * (1 / 10 ^ 6) * (1 / 10 ^ 6) ≤ dist p1 p2 * dist p1 p3 * dist p2 p3 :=
      mul_le_mul a h23 (by positivity) (mul_nonneg (dist_nonneg _ _) (dist_nonneg _ _))
    have c := lt_of_le_of_lt b h
    norm_num at c

/-- a curvature above `1 / 2` is a circle with a radius below 2 -/
theorem curvature_big_iff {p1 p2 p3 : ℝ × ℝ} {k : ℝ} (h : signedCurvature2d p1 p2 p3 = some k) :
    1 / 2 < |k| ↔ ∃ c r, r < 2 ∧ OnCircle c r p1 p2 p3 := by
  constructor
  · intro hk
    obtain ⟨hp, e⟩ := curvature_some h
    have hx : cross3 p1 p2 p3 ≠ 0 := by
      intro h0
      rw [h0, mul_zero] at e
      have h1 : (0 : ℝ) < 1 / 10 ^ 20 := by norm_num
      have := (mul_eq_zero.mp e).resolve_right (by linarith)
      rw [this, abs_zero] at hk
      norm_num at hk
    obtain ⟨c, r, hc⟩ := circle_exists hx
    refine ⟨c, r, ?_, hc⟩
    have := curvature_circle hc h
    by_contra hr
    have hr := not_lt.mp hr
    nlinarith
  · rintro ⟨c, r, hr, hc⟩
    have := curvature_circle hc h
    by_contra hk
    have hk := not_lt.mp hk
    have h0 : 0 ≤ r := by rw [← hc.1]; exact dist_nonneg _ _
    nlinarith [abs_nonneg k]

/-! ### examples -/

/-- a quarter of a circle with radius 5, to the left -/
example : ∃ k, signedCurvature2d (5, 0) (4, 3) (0, 5) = some k ∧ |k| * 5 = 1 ∧ 0 < k := by
  obtain ⟨k, hk⟩ := curvature_finite (p1 := ((5, 0) : ℝ × ℝ)) (p2 := (4, 3)) (p3 := (0, 5))
    (by rw [dist2]; refine Real.le_sqrt_of_sq_le ?_; norm_num) (by rw [dist2]; refine Real.le_sqrt_of_sq_le ?_; norm_num)
    (by rw [dist2]; refine Real.le_sqrt_of_sq_le ?_; norm_num)
  have hs : Real.sqrt (25 : ℝ) = 5 := by rw [show (25 : ℝ) = 5 ^ 2 by norm_num]; exact Real.sqrt_sq (by norm_num)
  refine ⟨k, hk, curvature_circle (c := (0, 0)) ⟨?_, ?_, ?_⟩ hk, (curvature_sign hk).1.mpr ?_⟩
  · rw [dist2]; norm_num [hs]
  · rw [dist2]; norm_num [hs]
  · rw [dist2]; norm_num [hs]
  · rw [leftOf_iff (by intro h; have := congrArg Prod.fst h; norm_num at this)]
    norm_num [cross3]

/-- Disagreement: a straight line with points at a distance of 0.1 µm has an infinite curvature. -/
theorem tiny_straight_counterexample : signedCurvature2d (0, 0) (1 / 10 ^ 7, 0) (2 / 10 ^ 7, 0) = none ∧ Straight (0, 0) (1 / 10 ^ 7, 0) (2 / 10 ^ 7, 0) := by
  constructor
  · rw [curvature_infinite_iff]
    unfold Degenerate
    simp only [dist2]
    have h : ∀ x : ℝ, Real.sqrt (x * x + (0 - 0) * (0 - 0)) = |x| := fun x => by
      rw [sub_zero, mul_zero, add_zero]; exact Real.sqrt_mul_self_eq_abs x
    rw [h, h, h]
    norm_num [abs_of_nonneg, abs_of_neg]
  · exact ⟨2, by norm_num⟩

end Verif.Geo
