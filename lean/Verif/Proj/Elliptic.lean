import Verif.Proj.Props
import Mathlib.Analysis.SpecialFunctions.Pow.Deriv
import Mathlib.Analysis.Calculus.MeanValue
import Mathlib.Analysis.Real.Pi.Bounds
import Mathlib.Tactic.FieldSimp
import Mathlib.Tactic.Linarith

/-!
C61: the elliptical mercator projection.
-/
namespace Verif.Proj

/-! ### specification -/

/-- the latitudes that can be projected, in degrees -/
def Projectable (lat : ℝ) : Prop := -(179 / 2) ≤ lat ∧ lat ≤ 179 / 2

/-- radius of curvature of the ellipsoid to the north, at a latitude in radians -/
noncomputable def meridional (phi : ℝ) : ℝ := earthRadius * (1 - eccent ^ 2) / Real.sqrt (1 - eccent ^ 2 * Real.sin phi ^ 2) ^ 3

/-- radius of curvature of the ellipsoid to the east -/
noncomputable def transversal (phi : ℝ) : ℝ := earthRadius / Real.sqrt (1 - eccent ^ 2 * Real.sin phi ^ 2)

/-! ### lemmas -/

theorem eccent_pos : 0 < eccent := by unfold eccent; norm_num

theorem eccent_lt : eccent < 1 / 12 := by unfold eccent; norm_num

theorem abs_ecc_sin (phi : ℝ) : |eccent * Real.sin phi| < 1 / 12 := by
  rw [abs_mul, abs_of_pos eccent_pos]
  have h1 := Real.abs_sin_le_one phi
  have h2 := eccent_lt
  have h3 := eccent_pos
  have h4 := abs_nonneg (Real.sin phi)
  nlinarith

theorem base_pos (phi : ℝ) : 0 < (1 - eccent * Real.sin phi) / (1 + eccent * Real.sin phi) := by
  have h := abs_lt.mp (abs_ecc_sin phi)
  exact div_pos (by linarith) (by linarith)

theorem con_pos (phi : ℝ) : 0 < con phi := Real.rpow_pos_of_pos (base_pos phi) _

theorem con_deriv (phi : ℝ) : HasDerivAt con (-(con phi) * (eccent ^ 2 * Real.cos phi / (1 - eccent ^ 2 * Real.sin phi ^ 2))) phi := by
  have h := abs_lt.mp (abs_ecc_sin phi)
  have h1 : 0 < 1 - eccent * Real.sin phi := by linarith
  have h2 : 0 < 1 + eccent * Real.sin phi := by linarith
  have hs := Real.hasDerivAt_sin phi
  have hn : HasDerivAt (fun x => 1 - eccent * Real.sin x) (-(eccent * Real.cos phi)) phi := (hs.const_mul eccent).const_sub 1
  have hd : HasDerivAt (fun x => 1 + eccent * Real.sin x) (eccent * Real.cos phi) phi := (hs.const_mul eccent).const_add 1
  have hq := hn.div hd h2.ne'
  have hb := base_pos phi
  have hp := hq.rpow_const (p := 1 / 2 * eccent) (Or.inl hb.ne')
  have e : -(con phi) * (eccent ^ 2 * Real.cos phi / (1 - eccent ^ 2 * Real.sin phi ^ 2)) =
      (-(eccent * Real.cos phi) * (1 + eccent * Real.sin phi) - (1 - eccent * Real.sin phi) * (eccent * Real.cos phi)) / (1 + eccent * Real.sin phi) ^ 2 *
        (1 / 2 * eccent) * ((1 - eccent * Real.sin phi) / (1 + eccent * Real.sin phi)) ^ (1 / 2 * eccent - 1) := by
    rw [Real.rpow_sub hb, Real.rpow_one]
    have e1 : (1 - eccent ^ 2 * Real.sin phi ^ 2) = (1 - eccent * Real.sin phi) * (1 + eccent * Real.sin phi) := by ring
    rw [e1]
    change -(con phi) * _ = _ * (con phi / _)
    field_simp
    ring
  rw [e]
  exact hp

/-- one round -/
noncomputable def iter (ts phi : ℝ) : ℝ := Real.pi / 2 - 2 * Real.arctan (ts * con phi)

theorem iter_deriv (ts phi : ℝ) : HasDerivAt (iter ts)
    (2 * (ts * con phi) / (1 + (ts * con phi) ^ 2) * (eccent ^ 2 * Real.cos phi / (1 - eccent ^ 2 * Real.sin phi ^ 2))) phi := by
  have h1 := ((con_deriv phi).const_mul ts).arctan
  have h2 := (h1.const_mul 2).const_sub (Real.pi / 2)
  have e : 2 * (ts * con phi) / (1 + (ts * con phi) ^ 2) * (eccent ^ 2 * Real.cos phi / (1 - eccent ^ 2 * Real.sin phi ^ 2)) =
      -(2 * (1 / (1 + (ts * con phi) ^ 2) * (ts * (-(con phi) * (eccent ^ 2 * Real.cos phi / (1 - eccent ^ 2 * Real.sin phi ^ 2)))))) := by
    ring
  rw [e]
  exact h2

theorem iter_contraction (ts a b : ℝ) : |iter ts b - iter ts a| ≤ 1 / 140 * |b - a| := by
  have h := Convex.norm_image_sub_le_of_norm_hasDerivWithin_le (f := iter ts) (s := Set.univ) (C := 1 / 140) (x := a) (y := b)
    (fun x _ => (iter_deriv ts x).hasDerivWithinAt) ?_ convex_univ (Set.mem_univ _) (Set.mem_univ _)
  · simpa [Real.norm_eq_abs] using h
  · intro x _
    rw [Real.norm_eq_abs, abs_mul]
    obtain ⟨t, ht⟩ : ∃ t, t = ts * con x := ⟨_, rfl⟩
    rw [← ht]
    have h1 : |2 * t / (1 + t ^ 2)| ≤ 1 := by
      rw [abs_div, abs_of_pos (by positivity : 0 < 1 + t ^ 2), div_le_one (by positivity), abs_le]
      constructor <;> nlinarith [sq_nonneg (t - 1), sq_nonneg (t + 1)]
    have h2 : |eccent ^ 2 * Real.cos x / (1 - eccent ^ 2 * Real.sin x ^ 2)| ≤ 1 / 140 := by
      have hs : Real.sin x ^ 2 ≤ 1 := Real.sin_sq_le_one x
      have he : eccent ^ 2 < 1 / 141 := by
        unfold eccent; norm_num
      have he0 : 0 < eccent ^ 2 := pow_pos eccent_pos 2
      have hs0 : 0 ≤ Real.sin x ^ 2 := sq_nonneg _
      have hden : 140 / 141 < 1 - eccent ^ 2 * Real.sin x ^ 2 := by nlinarith
      have hc := Real.abs_cos_le_one x
      rw [abs_div, abs_of_pos (by linarith : 0 < 1 - eccent ^ 2 * Real.sin x ^ 2), div_le_iff₀ (by linarith), abs_mul, abs_of_pos he0]
      have := abs_nonneg (Real.cos x)
      nlinarith
    calc |2 * t / (1 + t ^ 2)| * |eccent ^ 2 * Real.cos x / (1 - eccent ^ 2 * Real.sin x ^ 2)| ≤ 1 * (1 / 140) :=
          mul_le_mul h1 h2 (abs_nonneg _) zero_le_one
      _ = 1 / 140 := by ring

theorem refine_error {ts s : ℝ} (hs : iter ts s = s) : ∀ (n : Nat) (d phi : ℝ) (c : ℝ), |phi - s| ≤ c → |phi - s| ≤ 1 / 139 * |d| →
    |refine ts n d phi - s| ≤ max (c * (1 / 140) ^ n) (1 / 139 * (1 / 10 ^ 9)) := by
  intro n
  induction n with
  | zero =>
    intro d phi c h1 _
    unfold refine
    exact le_max_of_le_left (by simpa using h1)
  | succ n ih =>
    intro d phi c h1 h2
    unfold refine
    by_cases hd : |d| > 1 / 10 ^ 9
    · rw [if_pos hd]
      simp only
      have e : phi + (Real.pi / 2 - 2 * Real.arctan (ts * con phi) - phi) = iter ts phi := by unfold iter; ring
      have ed : Real.pi / 2 - 2 * Real.arctan (ts * con phi) - phi = iter ts phi - phi := rfl
      rw [e, ed]
      have hc := iter_contraction ts s phi
      rw [hs] at hc
      have := ih (iter ts phi - phi) (iter ts phi) (c * (1 / 140)) (by linarith) (by
        have h3 : |phi - s| ≤ |iter ts phi - phi| + |iter ts phi - s| := by
          have := abs_sub_le phi (iter ts phi) s
          rw [abs_sub_comm phi (iter ts phi)] at this
          exact this
        linarith)
      rw [pow_succ]
      have e2 : c * ((1 / 140) ^ n * (1 / 140)) = c * (1 / 140) * (1 / 140) ^ n := by ring
      rw [e2]
      exact this
    · rw [if_neg hd]
      refine le_max_of_le_right ?_
      have := not_lt.mp hd
      linarith

theorem tan_half_pos {phi : ℝ} (h1 : -(Real.pi / 2) < phi) (h2 : phi < Real.pi / 2) : 0 < Real.tan (1 / 2 * (Real.pi * (1 / 2) - phi)) :=
  Real.tan_pos_of_pos_of_lt_pi_div_two (by linarith) (by linarith)

theorem iter_fixed {phi : ℝ} (h1 : -(Real.pi / 2) < phi) (h2 : phi < Real.pi / 2) :
    iter (Real.tan (1 / 2 * (Real.pi * (1 / 2) - phi)) / con phi) phi = phi := by
  unfold iter
  rw [div_mul_cancel₀ _ (con_pos phi).ne', Real.arctan_tan (by linarith) (by linarith)]
  ring

theorem refine_close {phi : ℝ} (h1 : -(Real.pi / 2) < phi) (h2 : phi < Real.pi / 2) (ts : ℝ)
    (hts : ts = Real.tan (1 / 2 * (Real.pi * (1 / 2) - phi)) / con phi) :
    |refine ts 15 1 (Real.pi / 2 - 2 * Real.arctan ts) - phi| ≤ 1 / 139 * (1 / 10 ^ 9) := by
  have hfix : iter ts phi = phi := by rw [hts]; exact iter_fixed h1 h2
  have hpos : 0 < ts := by rw [hts]; exact div_pos (tan_half_pos h1 h2) (con_pos phi)
  have ha := Real.arctan_pos.mpr hpos
  have hb := Real.arctan_lt_pi_div_two ts
  have hpi := Real.pi_lt_four
  obtain ⟨p0, hp0⟩ : ∃ p0, p0 = Real.pi / 2 - 2 * Real.arctan ts := ⟨_, rfl⟩
  rw [← hp0]
  have h0 : |p0 - phi| ≤ 4 := by rw [abs_le]; constructor <;> linarith
  unfold refine
  rw [if_pos (by norm_num)]
  simp only
  have e : p0 + (Real.pi / 2 - 2 * Real.arctan (ts * con p0) - p0) = iter ts p0 := by unfold iter; ring
  have ed : Real.pi / 2 - 2 * Real.arctan (ts * con p0) - p0 = iter ts p0 - p0 := rfl
  rw [e, ed]
  have hc := iter_contraction ts phi p0
  rw [hfix] at hc
  have := refine_error hfix 14 (iter ts p0 - p0) (iter ts p0) 1 (by linarith) (by
    have h3 : |p0 - phi| ≤ |iter ts p0 - p0| + |iter ts p0 - phi| := by
      have := abs_sub_le p0 (iter ts p0) phi
      rw [abs_sub_comm p0 (iter ts p0)] at this
      exact this
    linarith)
  refine this.trans (max_le ?_ le_rfl)
  norm_num

theorem clamp_eq {lat : ℝ} (h : Projectable lat) : min (179 / 2) (max lat (-(179 / 2))) = lat := by
  rw [max_eq_left h.1, min_eq_right h.2]

theorem radians_lt {lat : ℝ} (h : Projectable lat) : -(Real.pi / 2) < lat * Real.pi / 180 ∧ lat * Real.pi / 180 < Real.pi / 2 := by
  have hp := Real.pi_pos
  obtain ⟨h1, h2⟩ := h
  constructor <;> nlinarith

theorem rawReverse_rawForward {p : Gps} (hp : Projectable p.lat) :
    |(rawReverse (rawForward p)).lat - p.lat| ≤ 1 / (2 * 10 ^ 9) ∧ (rawReverse (rawForward p)).lon = p.lon ∧ (rawReverse (rawForward p)).ele = p.ele := by
  have hpi := Real.pi_pos
  have hr := earthRadius_pos
  obtain ⟨h1, h2⟩ := radians_lt hp
  refine ⟨?_, ?_, rfl⟩
  · unfold rawReverse rawForward
    simp only [clamp_eq hp]
    obtain ⟨phi, hphi⟩ : ∃ phi, phi = p.lat * Real.pi / 180 := ⟨_, rfl⟩
    rw [← hphi] at h1 h2 ⊢
    obtain ⟨ts, hts⟩ : ∃ ts, ts = Real.tan (1 / 2 * (Real.pi * (1 / 2) - phi)) / con phi := ⟨_, rfl⟩
    have hpos : 0 < ts := by rw [hts]; exact div_pos (tan_half_pos h1 h2) (con_pos phi)
    rw [← hts]
    have e1 : -(-earthRadius * Real.log ts) / earthRadius = Real.log ts := by field_simp
    rw [e1, Real.exp_log hpos]
    have := refine_close h1 h2 ts hts
    have e2 : p.lat = 180 / Real.pi * phi := by rw [hphi]; field_simp
    rw [e2, ← mul_sub, abs_mul, abs_of_pos (by positivity)]
    have h3 : 180 / Real.pi ≤ 60 := by
      rw [div_le_iff₀ hpi]; have := Real.pi_gt_three; linarith
    calc 180 / Real.pi * |refine ts 15 1 (Real.pi / 2 - 2 * Real.arctan ts) - phi| ≤ 60 * (1 / 139 * (1 / 10 ^ 9)) :=
          mul_le_mul h3 this (abs_nonneg _) (by norm_num)
      _ ≤ 1 / (2 * 10 ^ 9) := by norm_num
  · unfold rawReverse rawForward
    simp only
    field_simp

/-! ### C61 -/

/-- C61: going to local coordinates and back gives the longitude and the elevation, and the latitude within 0.5 billionths of a degree, which is
less than 0.1 millimetres. The loop that computes the latitude never ends because of the bound on its rounds with a worse result. -/
theorem elliptic_roundtrip (origin : Gps) {p : Gps} (hp : Projectable p.lat) :
    |(ellipticReverse origin (ellipticForward origin p)).lat - p.lat| ≤ 1 / (2 * 10 ^ 9) ∧
    (ellipticReverse origin (ellipticForward origin p)).lon = p.lon ∧ (ellipticReverse origin (ellipticForward origin p)).ele = p.ele := by
  have e : ellipticReverse origin (ellipticForward origin p) = rawReverse (rawForward p) := by
    unfold ellipticReverse ellipticForward
    simp
  rw [e]
  exact rawReverse_rawForward hp

/-- C61: the origin is at 0, 0, 0. -/
theorem elliptic_origin (origin : Gps) : ellipticForward origin origin = ⟨0, 0, 0⟩ := by
  unfold ellipticForward
  simp

/-- C61: lengths on the ellipsoid to the east and to the north are scaled alike, so that angles are kept. -/
theorem elliptic_conformal (origin : Gps) {p : Gps} (h1 : -(179 / 2) < p.lat) (h2 : p.lat < 179 / 2) :
    ∃ k > 0, HasDerivAt (fun lon => (ellipticForward origin ⟨p.lat, lon, p.ele⟩).x)
        (k * (transversal (p.lat * Real.pi / 180) * Real.cos (p.lat * Real.pi / 180) * (Real.pi / 180))) p.lon ∧
      HasDerivAt (fun lat => (ellipticForward origin ⟨lat, p.lon, p.ele⟩).y) (k * (meridional (p.lat * Real.pi / 180) * (Real.pi / 180))) p.lat ∧
      (∀ lat, (ellipticForward origin ⟨lat, p.lon, p.ele⟩).x = (ellipticForward origin p).x) ∧
      (∀ lon, (ellipticForward origin ⟨p.lat, lon, p.ele⟩).y = (ellipticForward origin p).y) := by
  have hpi := Real.pi_pos
  have hr := earthRadius_pos
  have hproj : Projectable p.lat := ⟨h1.le, h2.le⟩
  obtain ⟨g1, g2⟩ := radians_lt hproj
  obtain ⟨phi, hphi⟩ : ∃ phi, phi = p.lat * Real.pi / 180 := ⟨_, rfl⟩
  rw [← hphi] at g1 g2 ⊢
  have hc : 0 < Real.cos phi := Real.cos_pos_of_mem_Ioo ⟨g1, g2⟩
  obtain ⟨w, hw⟩ : ∃ w, w = 1 - eccent ^ 2 * Real.sin phi ^ 2 := ⟨_, rfl⟩
  have hw0 : 0 < w := by
    have := abs_lt.mp (abs_ecc_sin phi)
    have e : w = (1 - eccent * Real.sin phi) * (1 + eccent * Real.sin phi) := by rw [hw]; ring
    rw [e]
    exact mul_pos (by linarith) (by linarith)
  have hsq : 0 < Real.sqrt w := Real.sqrt_pos.mpr hw0
  have hss : Real.sqrt w ^ 2 = w := Real.sq_sqrt hw0.le
  refine ⟨Real.sqrt w / Real.cos phi, div_pos hsq hc, ?_, ?_, fun _ => rfl, fun _ => rfl⟩
  · have h : HasDerivAt (fun lon : ℝ => lon * (earthRadius * Real.pi / 180) - (rawForward origin).x) (1 * (earthRadius * Real.pi / 180)) p.lon :=
      ((hasDerivAt_id p.lon).mul_const _).sub_const _
    have e1 : (fun lon : ℝ => (ellipticForward origin ⟨p.lat, lon, p.ele⟩).x) = fun lon => lon * (earthRadius * Real.pi / 180) - (rawForward origin).x := by
      funext lon; unfold ellipticForward rawForward; simp only; ring
    have e2 : Real.sqrt w / Real.cos phi * (transversal phi * Real.cos phi * (Real.pi / 180)) = 1 * (earthRadius * Real.pi / 180) := by
      unfold transversal; rw [← hw]; field_simp
    rw [e1, e2]; exact h
  · obtain ⟨a, ha⟩ : ∃ a, a = 1 / 2 * (Real.pi * (1 / 2) - phi) := ⟨_, rfl⟩
    have hca : 0 < Real.cos a := Real.cos_pos_of_mem_Ioo ⟨by linarith, by linarith⟩
    have hsa : 0 < Real.sin a := Real.sin_pos_of_pos_of_lt_pi (by linarith) (by linarith)
    have hcos : Real.cos phi = 2 * Real.sin a * Real.cos a := by
      rw [← Real.sin_two_mul, ha, ← Real.sin_pi_div_two_sub]
      congr 1; ring
    have hin : HasDerivAt (fun x : ℝ => 1 / 2 * (Real.pi * (1 / 2) - x)) (1 / 2 * (-1)) phi :=
      ((hasDerivAt_id phi).const_sub (Real.pi * (1 / 2))).const_mul (1 / 2)
    have htan : HasDerivAt Real.tan (1 / Real.cos a ^ 2) a := Real.hasDerivAt_tan hca.ne'
    rw [ha] at htan
    have ht := HasDerivAt.comp phi htan hin
    have hq := ht.div (con_deriv phi) (con_pos phi).ne'
    have htp : 0 < Real.tan a := by rw [ha]; exact tan_half_pos g1 g2
    have hne : Real.tan (1 / 2 * (Real.pi * (1 / 2) - phi)) / con phi ≠ 0 := (div_pos (tan_half_pos g1 g2) (con_pos phi)).ne'
    have hl := ((hq.log hne).const_mul (-earthRadius)).sub_const (rawForward origin).y
    have hrad : HasDerivAt (fun lat : ℝ => lat * Real.pi / 180) (1 * Real.pi / 180) p.lat := ((hasDerivAt_id p.lat).mul_const Real.pi).div_const 180
    rw [hphi] at hl
    have hall := HasDerivAt.comp p.lat hl hrad
    rw [← hphi, ← ha] at hall
    have hev : (fun lat => (ellipticForward origin ⟨lat, p.lon, p.ele⟩).y) =ᶠ[nhds p.lat] ((fun x => -earthRadius *
        Real.log ((Real.tan ∘ fun x => 1 / 2 * (Real.pi * (1 / 2) - x)) x / con x) - (rawForward origin).y) ∘ fun lat => lat * Real.pi / 180) := by
      filter_upwards [Ioo_mem_nhds h1 h2] with lat hl
      unfold ellipticForward
      simp only
      unfold rawForward
      simp only [Function.comp, clamp_eq ⟨hl.1.le, hl.2.le⟩]
    have e : Real.sqrt w / Real.cos phi * (meridional phi * (Real.pi / 180)) =
        -earthRadius * ((1 / Real.cos a ^ 2 * (1 / 2 * -1) * con phi - (Real.tan ∘ fun x => 1 / 2 * (Real.pi * (1 / 2) - x)) phi *
          (-(con phi) * (eccent ^ 2 * Real.cos phi / (1 - eccent ^ 2 * Real.sin phi ^ 2)))) / con phi ^ 2 /
          ((Real.tan ∘ fun x => 1 / 2 * (Real.pi * (1 / 2) - x)) phi / con phi)) * (1 * Real.pi / 180) := by
      have hcon := con_pos phi
      simp only [Function.comp, ← ha]
      unfold meridional
      rw [← hw]
      have h3 : Real.sqrt w ^ 3 = Real.sqrt w * w := by rw [pow_succ, hss, mul_comm]
      rw [h3]
      have hww : eccent ^ 2 * Real.cos phi ^ 2 = w - (1 - eccent ^ 2) := by
        rw [hw, Real.cos_sq']; ring
      rw [Real.tan_eq_sin_div_cos]
      have hsc : 1 / Real.cos a ^ 2 / (Real.sin a / Real.cos a) = 2 / Real.cos phi := by
        rw [hcos]; field_simp
      field_simp at hsc ⊢
      nlinarith [hsc, hww]
    rw [e]
    refine HasDerivAt.congr_of_eventuallyEq ?_ hev
    exact hall

/-- Disagreement with C61: positions closer to the poles than half a degree are all projected to the same latitude. -/
theorem elliptic_pole_counterexample : ∃ origin p q : Gps, BetweenPoles p.lat ∧ BetweenPoles q.lat ∧ p ≠ q ∧
    ellipticForward origin p = ellipticForward origin q := by
  refine ⟨⟨0, 0, 0⟩, ⟨179 / 2, 0, 0⟩, ⟨359 / 4, 0, 0⟩, ⟨by norm_num, by norm_num⟩, ⟨by norm_num, by norm_num⟩, ?_, ?_⟩
  · intro h
    have : (179 / 2 : ℝ) = 359 / 4 := congrArg Gps.lat h
    norm_num at this
  · unfold ellipticForward rawForward
    norm_num

end Verif.Proj
