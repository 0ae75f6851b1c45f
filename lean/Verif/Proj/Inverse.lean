import Verif.Proj.Elliptic
import Mathlib.Topology.Order.IntermediateValue
import Mathlib.Tactic.Linarith

/-!
C61: from local coordinates to a latitude and longitude and back, elliptical mercator projection.
-/
namespace Verif.Proj

/-! ### specification -/

/-- Specification. The local coordinates between the northings of the two latitudes where the projection ends. -/
def InRange (origin : Gps) (p : Pos) : Prop :=
  (ellipticForward origin ⟨-(179 / 2), 0, 0⟩).y ≤ p.y ∧ p.y ≤ (ellipticForward origin ⟨179 / 2, 0, 0⟩).y

/-! ### lemmas -/

/-- Helper of the proofs. The northing at a latitude in radians. -/
noncomputable def northing (phi : ℝ) : ℝ := -earthRadius * Real.log (Real.tan (1 / 2 * (Real.pi * (1 / 2) - phi)) / con phi)

theorem northing_deriv {phi : ℝ} (g1 : -(Real.pi / 2) < phi) (g2 : phi < Real.pi / 2) :
    HasDerivAt northing (earthRadius * (1 - eccent ^ 2) / (Real.cos phi * (1 - eccent ^ 2 * Real.sin phi ^ 2))) phi := by
  have hr := earthRadius_pos
  have hc : 0 < Real.cos phi := Real.cos_pos_of_mem_Ioo ⟨g1, g2⟩
  obtain ⟨w, hw⟩ : ∃ w, w = 1 - eccent ^ 2 * Real.sin phi ^ 2 := ⟨_, rfl⟩
  have hw0 : 0 < w := by
    have := abs_lt.mp (abs_ecc_sin phi)
    have e : w = (1 - eccent * Real.sin phi) * (1 + eccent * Real.sin phi) := by rw [hw]; ring
    rw [e]
    exact mul_pos (by linarith) (by linarith)
  obtain ⟨a, ha⟩ : ∃ a, a = 1 / 2 * (Real.pi * (1 / 2) - phi) := ⟨_, rfl⟩
  have hca : 0 < Real.cos a := Real.cos_pos_of_mem_Ioo ⟨by linarith, by linarith⟩
  have hsa : 0 < Real.sin a := Real.sin_pos_of_pos_of_lt_pi (by linarith) (by linarith)
  have hcos : Real.cos phi = 2 * Real.sin a * Real.cos a := by
    rw [← Real.sin_two_mul, ha, ← Real.sin_pi_div_two_sub]
    congr 1; ring
  have hin : HasDerivAt (fun x : ℝ => 1 / 2 * (Real.pi * (1 / 2) - x)) (1 / 2 * (-1)) phi :=
    ((hasDerivAt_id phi).const_sub (Real.pi * (1 / 2))).const_mul (1 / 2)
  have htan : HasDerivAt Real.tan (1 / Real.cos a ^ 2) a := Real.hasDerivAt_tan hca.ne'
  rw [ha] at htan
  have ht := HasDerivAt.comp phi htan hin
  have hq := ht.div (con_deriv phi) (con_pos phi).ne'
  have hne : Real.tan (1 / 2 * (Real.pi * (1 / 2) - phi)) / con phi ≠ 0 := (div_pos (tan_half_pos g1 g2) (con_pos phi)).ne'
  have hl := (hq.log hne).const_mul (-earthRadius)
  rw [← ha] at hl
  have hcon := con_pos phi
  refine hl.congr_deriv ?_
  simp only [Pi.div_apply, Function.comp, ← ha]
  rw [← hw]
  have hww : eccent ^ 2 * Real.cos phi ^ 2 = w - (1 - eccent ^ 2) := by
    rw [hw, Real.cos_sq']; ring
  rw [Real.tan_eq_sin_div_cos]
  have hsc : 1 / Real.cos a ^ 2 / (Real.sin a / Real.cos a) = 2 / Real.cos phi := by
    rw [hcos]; field_simp
  field_simp at hsc ⊢
  nlinarith [hsc, hww]

theorem forward_y (origin : Gps) {p : Gps} (h : Projectable p.lat) :
    (ellipticForward origin p).y = northing (p.lat * Real.pi / 180) - (rawForward origin).y := by
  unfold ellipticForward northing
  simp only
  unfold rawForward
  simp only [clamp_eq h]

theorem northing_continuous : ContinuousOn (fun lat : ℝ => northing (lat * Real.pi / 180)) (Set.Icc (-(179 / 2)) (179 / 2)) := by
  intro lat hl
  obtain ⟨g1, g2⟩ := radians_lt ⟨hl.1, hl.2⟩
  have h1 := (northing_deriv g1 g2).continuousAt
  have h2 : ContinuousAt (fun lat : ℝ => lat * Real.pi / 180) lat := by fun_prop
  exact (ContinuousAt.comp (f := fun lat : ℝ => lat * Real.pi / 180) h1 h2).continuousWithinAt

theorem cos_lower {lat : ℝ} (h : Projectable lat) : 17 / 2000 ≤ Real.cos (lat * Real.pi / 180) := by
  have hp3 := Real.pi_gt_d2
  have hp4 := Real.pi_lt_d2
  obtain ⟨h1, h2⟩ := h
  -- the angle to the pole
  have habs : |lat * Real.pi / 180| ≤ 179 / 360 * Real.pi := by
    rw [abs_le]; constructor <;> nlinarith
  rw [← Real.cos_abs]
  have hmono := Real.cos_le_cos_of_nonneg_of_le_pi (abs_nonneg _) (by nlinarith) habs
  have e : Real.cos (179 / 360 * Real.pi) = Real.sin (Real.pi / 360) := by
    rw [← Real.cos_pi_div_two_sub]; congr 1; ring
  have hs := Real.sin_gt_sub_cube (x := Real.pi / 360) (by positivity)
  have hlow : 17 / 2000 ≤ Real.pi / 360 - (Real.pi / 360) ^ 3 / 6 := by
    have a1 : 314 / 36000 ≤ Real.pi / 360 := by linarith
    have a2 : Real.pi / 360 ≤ 315 / 36000 := by linarith
    have a3 : (Real.pi / 360) ^ 3 ≤ (315 / 36000) ^ 3 := pow_le_pow_left₀ (by positivity) a2 3
    norm_num at a3 ⊢
    linarith
  linarith

theorem northing_lipschitz {a b : ℝ} (ha : Projectable a) (hb : Projectable b) :
    |northing (b * Real.pi / 180) - northing (a * Real.pi / 180)| ≤ 15 * 10 ^ 6 * |b - a| := by
  have hpi := Real.pi_pos
  have hp4 := Real.pi_lt_d2
  have hrr := earthRadius_pos
  have hr : earthRadius = 6378137 := rfl
  have h := Convex.norm_image_sub_le_of_norm_hasDerivWithin_le (f := fun lat : ℝ => northing (lat * Real.pi / 180)) (s := Set.Icc (-(179 / 2)) (179 / 2))
    (C := 15 * 10 ^ 6) (x := a) (y := b)
    (f' := fun lat => earthRadius * (1 - eccent ^ 2) / (Real.cos (lat * Real.pi / 180) * (1 - eccent ^ 2 * Real.sin (lat * Real.pi / 180) ^ 2)) * (1 * Real.pi / 180))
    ?_ ?_ (convex_Icc _ _) ⟨ha.1, ha.2⟩ ⟨hb.1, hb.2⟩
  · simpa [Real.norm_eq_abs] using h
  · intro x hx
    obtain ⟨g1, g2⟩ := radians_lt ⟨hx.1, hx.2⟩
    have hrad : HasDerivAt (fun lat : ℝ => lat * Real.pi / 180) (1 * Real.pi / 180) x := ((hasDerivAt_id x).mul_const Real.pi).div_const 180
    exact (HasDerivAt.comp x (northing_deriv g1 g2) hrad).hasDerivWithinAt
  · intro x hx
    have hcl := cos_lower ⟨hx.1, hx.2⟩
    obtain ⟨c, hc⟩ : ∃ c, c = Real.cos (x * Real.pi / 180) := ⟨_, rfl⟩
    obtain ⟨s, hs⟩ : ∃ s, s = Real.sin (x * Real.pi / 180) ^ 2 := ⟨_, rfl⟩
    have hs1 : s ≤ 1 := by rw [hs]; exact Real.sin_sq_le_one _
    have he : eccent ^ 2 < 1 / 141 := by unfold eccent; norm_num
    have he0 : 0 < eccent ^ 2 := pow_pos eccent_pos 2
    rw [← hc] at hcl ⊢
    rw [← hs]
    have hw : 1 - eccent ^ 2 ≤ 1 - eccent ^ 2 * s := by nlinarith
    have hq : earthRadius * (1 - eccent ^ 2) / (c * (1 - eccent ^ 2 * s)) ≤ earthRadius / (17 / 2000) := by
      rw [div_le_div_iff₀ (mul_pos (by linarith) (by linarith)) (by norm_num)]
      have : (1 - eccent ^ 2) * (17 / 2000) ≤ c * (1 - eccent ^ 2 * s) := by
        calc (1 - eccent ^ 2) * (17 / 2000) ≤ (1 - eccent ^ 2 * s) * c := mul_le_mul hw hcl (by norm_num) (by linarith)
          _ = c * (1 - eccent ^ 2 * s) := mul_comm _ _
      nlinarith
    have hq0 : 0 ≤ earthRadius * (1 - eccent ^ 2) / (c * (1 - eccent ^ 2 * s)) :=
      div_nonneg (mul_nonneg hrr.le (by linarith)) (mul_nonneg (by linarith) (by linarith))
    rw [Real.norm_eq_abs, abs_of_nonneg (mul_nonneg hq0 (by positivity))]
    calc _ ≤ earthRadius / (17 / 2000) * (1 * Real.pi / 180) := mul_le_mul_of_nonneg_right hq (by positivity)
      _ ≤ 15 * 10 ^ 6 := by rw [hr]; linarith

/-! ### C61 -/

/-- C61: every local position up to the northings of the latitudes 89.5 degrees north and south is the image of exactly one latitude, longitude
and elevation. The way back gives that longitude and elevation, and that latitude within 0.5 billionths of a degree. -/
theorem elliptic_inverse (origin : Gps) {p : Pos} (h : InRange origin p) :
    ∃ q : Gps, Projectable q.lat ∧ ellipticForward origin q = p ∧ (∀ q' : Gps, Projectable q'.lat → ellipticForward origin q' = p → q' = q) ∧
      |(ellipticReverse origin p).lat - q.lat| ≤ 1 / (2 * 10 ^ 9) ∧ (ellipticReverse origin p).lon = q.lon ∧ (ellipticReverse origin p).ele = q.ele := by
  have hpi := Real.pi_pos
  have hr := earthRadius_pos
  obtain ⟨h1, h2⟩ := h
  rw [forward_y origin (p := ⟨-(179 / 2), 0, 0⟩) ⟨le_rfl, by norm_num⟩] at h1
  rw [forward_y origin (p := ⟨179 / 2, 0, 0⟩) ⟨by norm_num, le_rfl⟩] at h2
  simp only at h1 h2
  obtain ⟨lat, hlat, hy⟩ := intermediate_value_Icc (by norm_num : (-(179 / 2) : ℝ) ≤ 179 / 2) northing_continuous
    (show p.y + (rawForward origin).y ∈ _ from ⟨by linarith, by linarith⟩)
  simp only at hy
  have hpr : Projectable lat := ⟨hlat.1, hlat.2⟩
  obtain ⟨q, hq⟩ : ∃ q : Gps, q = ⟨lat, (p.x + (rawForward origin).x) * 180 / (earthRadius * Real.pi), p.z + (rawForward origin).z⟩ := ⟨_, rfl⟩
  have hqp : Projectable q.lat := by rw [hq]; exact hpr
  have hf : ellipticForward origin q = p := by
    have hyy := forward_y origin hqp
    have hql : q.lat = lat := by rw [hq]
    rw [hql, hy] at hyy
    have hx : (ellipticForward origin q).x = p.x := by
      change earthRadius * q.lon * Real.pi / 180 - (rawForward origin).x = p.x
      rw [hq]
      field_simp
      ring
    have hz : (ellipticForward origin q).z = p.z := by
      change q.ele - (rawForward origin).z = p.z
      rw [hq]
      ring
    cases hcase : ellipticForward origin q
    rw [hcase] at hx hyy hz
    simp only at hx hyy hz
    cases p
    simp only at hx hyy hz
    rw [hx, hyy, hz]
    congr 1
    ring
  have hrt := elliptic_roundtrip origin hqp
  rw [hf] at hrt
  refine ⟨q, hqp, hf, ?_, hrt⟩
  intro q' hq' hf'
  -- the northing grows with the latitude
  have hmono : StrictMonoOn (fun lat : ℝ => northing (lat * Real.pi / 180)) (Set.Icc (-(179 / 2)) (179 / 2)) := by
    refine strictMonoOn_of_deriv_pos (convex_Icc _ _) northing_continuous ?_
    intro x hx
    rw [interior_Icc] at hx
    obtain ⟨g1, g2⟩ := radians_lt ⟨hx.1.le, hx.2.le⟩
    have hrad : HasDerivAt (fun lat : ℝ => lat * Real.pi / 180) (1 * Real.pi / 180) x := ((hasDerivAt_id x).mul_const Real.pi).div_const 180
    have hd := HasDerivAt.comp x (northing_deriv g1 g2) hrad
    have e : deriv (fun lat : ℝ => northing (lat * Real.pi / 180)) x = _ := hd.deriv
    rw [e]
    have hc : 0 < Real.cos (x * Real.pi / 180) := Real.cos_pos_of_mem_Ioo ⟨g1, g2⟩
    have hs1 : Real.sin (x * Real.pi / 180) ^ 2 ≤ 1 := Real.sin_sq_le_one _
    have he : eccent ^ 2 < 1 / 141 := by unfold eccent; norm_num
    have he0 : 0 < eccent ^ 2 := pow_pos eccent_pos 2
    exact mul_pos (div_pos (mul_pos hr (by linarith)) (mul_pos hc (by nlinarith))) (by positivity)
  have hl : q'.lat = q.lat := by
    refine hmono.injOn ⟨hq'.1, hq'.2⟩ ⟨hqp.1, hqp.2⟩ ?_
    have e1 := forward_y origin hq'
    have e2 := forward_y origin hqp
    rw [hf'] at e1
    rw [hf] at e2
    linarith
  have hrt' := elliptic_roundtrip origin hq'
  rw [hf'] at hrt'
  cases q
  cases q'
  simp only at hl hrt hrt'
  rw [hl, ← hrt'.2.1, ← hrt'.2.2, hrt.2.1, hrt.2.2]

/-- C61: going from local coordinates to a latitude and longitude and back gives the same coordinates, and the northing within a centimetre. -/
theorem elliptic_roundtrip' (origin : Gps) {p : Pos} (h : InRange origin p) :
    (ellipticForward origin (ellipticReverse origin p)).x = p.x ∧ (ellipticForward origin (ellipticReverse origin p)).z = p.z ∧
    |(ellipticForward origin (ellipticReverse origin p)).y - p.y| ≤ 1 / 100 := by
  obtain ⟨q, hq, hf, _, hlat, hlon, hele⟩ := elliptic_inverse origin h
  refine ⟨?_, ?_, ?_⟩
  · rw [← hf]
    change earthRadius * _ * Real.pi / 180 - _ = earthRadius * _ * Real.pi / 180 - _
    rw [hf, hlon]
  · rw [← hf]
    change (ellipticReverse origin _).ele - _ = q.ele - _
    rw [hf, hele]
  · obtain ⟨g, hg⟩ : ∃ g, g = ellipticReverse origin p := ⟨_, rfl⟩
    rw [← hg] at hlat ⊢
    obtain ⟨c, hc⟩ : ∃ c, c = min (179 / 2) (max g.lat (-(179 / 2))) := ⟨_, rfl⟩
    have hcp : Projectable c := by
      rw [hc]
      exact ⟨le_min (by norm_num) (le_max_right _ _), min_le_left _ _⟩
    have e : (ellipticForward origin g).y = northing (c * Real.pi / 180) - (rawForward origin).y := by
      rw [← forward_y origin (p := ⟨c, g.lon, g.ele⟩) hcp]
      unfold ellipticForward
      simp only
      congr 1
      unfold rawForward
      simp only
      rw [clamp_eq hcp, ← hc]
    have hcl : |c - q.lat| ≤ |g.lat - q.lat| := by
      have e : q.lat = min (179 / 2) (max q.lat (-(179 / 2))) := (clamp_eq hq).symm
      rw [hc]
      conv_lhs => rw [e]
      rw [min_comm (179 / 2), min_comm (179 / 2)]
      exact (abs_min_sub_min_le_max _ _ _ _).trans (by rw [sub_self, abs_zero]; exact max_le (abs_max_sub_max_le_abs _ _ _) (abs_nonneg _))
    rw [e, ← hf, forward_y origin hq]
    have hl := northing_lipschitz hq hcp
    have e2 : northing (c * Real.pi / 180) - (rawForward origin).y - (northing (q.lat * Real.pi / 180) - (rawForward origin).y) =
        northing (c * Real.pi / 180) - northing (q.lat * Real.pi / 180) := by ring
    rw [e2]
    have : |c - q.lat| ≤ 1 / (2 * 10 ^ 9) := hcl.trans hlat
    calc _ ≤ 15 * 10 ^ 6 * |c - q.lat| := hl
      _ ≤ 15 * 10 ^ 6 * (1 / (2 * 10 ^ 9)) := mul_le_mul_of_nonneg_left this (by norm_num)
      _ ≤ 1 / 100 := by norm_num

/-- Positions around the origin are in the range, whenever the origin can be projected. -/
example (origin : Gps) (h : Projectable origin.lat) : InRange origin ⟨1, 0, 0⟩ := by
  have key : ∀ a b : ℝ, Projectable a → Projectable b → a ≤ b → northing (a * Real.pi / 180) ≤ northing (b * Real.pi / 180) := by
    intro a b ha hb hab
    have hmono : MonotoneOn (fun lat : ℝ => northing (lat * Real.pi / 180)) (Set.Icc (-(179 / 2)) (179 / 2)) := by
      refine monotoneOn_of_deriv_nonneg (convex_Icc _ _) northing_continuous ?_ ?_
      · intro x hx
        rw [interior_Icc] at hx
        obtain ⟨g1, g2⟩ := radians_lt ⟨hx.1.le, hx.2.le⟩
        have hrad : HasDerivAt (fun lat : ℝ => lat * Real.pi / 180) (1 * Real.pi / 180) x := ((hasDerivAt_id x).mul_const Real.pi).div_const 180
        exact (HasDerivAt.comp x (northing_deriv g1 g2) hrad).differentiableAt.differentiableWithinAt
      · intro x hx
        rw [interior_Icc] at hx
        obtain ⟨g1, g2⟩ := radians_lt ⟨hx.1.le, hx.2.le⟩
        have hrad : HasDerivAt (fun lat : ℝ => lat * Real.pi / 180) (1 * Real.pi / 180) x := ((hasDerivAt_id x).mul_const Real.pi).div_const 180
        have hd := HasDerivAt.comp x (northing_deriv g1 g2) hrad
        have e : deriv (fun lat : ℝ => northing (lat * Real.pi / 180)) x = _ := hd.deriv
        rw [e]
        have hc : 0 < Real.cos (x * Real.pi / 180) := Real.cos_pos_of_mem_Ioo ⟨g1, g2⟩
        have hs1 : Real.sin (x * Real.pi / 180) ^ 2 ≤ 1 := Real.sin_sq_le_one _
        have he : eccent ^ 2 < 1 / 141 := by unfold eccent; norm_num
        have he0 : 0 < eccent ^ 2 := pow_pos eccent_pos 2
        have hpi := Real.pi_pos
        exact (mul_pos (div_pos (mul_pos earthRadius_pos (by linarith)) (mul_pos hc (by nlinarith))) (by positivity)).le
    exact hmono ⟨ha.1, ha.2⟩ ⟨hb.1, hb.2⟩ hab
  have h0 := congrArg Pos.y (elliptic_origin origin)
  rw [forward_y origin h] at h0
  simp only at h0
  constructor
  · rw [forward_y origin (p := ⟨-(179 / 2), 0, 0⟩) ⟨le_rfl, by norm_num⟩]
    have := key (-(179 / 2)) origin.lat ⟨le_rfl, by norm_num⟩ h h.1
    simp only
    linarith
  · rw [forward_y origin (p := ⟨179 / 2, 0, 0⟩) ⟨by norm_num, le_rfl⟩]
    have := key origin.lat (179 / 2) h ⟨by norm_num, le_rfl⟩ h.2
    simp only
    linarith

end Verif.Proj
