import Verif.Proj.Props
import Mathlib.Tactic.LinearCombination
import Mathlib.Tactic.Ring
import Mathlib.Tactic.Positivity
import Mathlib.Analysis.SpecialFunctions.Trigonometric.Bounds

/-!
Model of lanelet2_projection/src/Geocentric.cpp and lanelet2_projection/src/LocalCartesian.cpp and what a user can rely on (C90). Both only call
GeographicLib, which is not part of the repository: the formulas are those of its documentation, without rounding.
-/
namespace Verif.Proj

/-! ### model -/

/-- the larger half axis of the ellipsoid of GeographicLib::Geocentric::WGS84() in metres; Geocentric.cpp 10, LocalCartesian.cpp 10 -/
noncomputable def wgsA : ℝ := 6378137
/-- the flattening of the ellipsoid; Geocentric.cpp 10, LocalCartesian.cpp 10 -/
noncomputable def wgsF : ℝ := 1 / 298.257223563
/-- the square of the quotient of the half axes; Geocentric.cpp 10, LocalCartesian.cpp 10 -/
noncomputable def wgsM : ℝ := (1 - wgsF) ^ 2

/-- degrees to radians in GeographicLib; Geocentric.cpp 10 -/
noncomputable def rad (d : ℝ) : ℝ := d * Real.pi / 180

/-- the radius of curvature across the meridian, a factor in Geocentric::Forward; Geocentric.cpp 10 -/
noncomputable def curv (phi : ℝ) : ℝ := wgsA / √(1 - (1 - wgsM) * Real.sin phi ^ 2)

/-- GeocentricProjector::forward, Geocentric.cpp 8-17. Simplified: exact arithmetic. -/
noncomputable def geoForward (p : Gps) : Pos :=
  ⟨(curv (rad p.lat) + p.ele) * Real.cos (rad p.lat) * Real.cos (rad p.lon),
   (curv (rad p.lat) + p.ele) * Real.cos (rad p.lat) * Real.sin (rad p.lon),
   (wgsM * curv (rad p.lat) + p.ele) * Real.sin (rad p.lat)⟩

/-- the origin of a GeocentricProjector, Geocentric.h 11 -/
noncomputable def geoOrigin : Gps := ⟨90, 0, -6356752.3⟩

/-- LocalCartesianProjector::forward, LocalCartesian.cpp 8-22: the geocentric position relative to the one of the origin, turned to the directions
east, north and up of the origin. Simplified: exact arithmetic. -/
noncomputable def localForward (origin p : Gps) : Pos :=
  let o := geoForward origin
  let c := geoForward p
  let sp := Real.sin (rad origin.lat)
  let cp := Real.cos (rad origin.lat)
  let sl := Real.sin (rad origin.lon)
  let cl := Real.cos (rad origin.lon)
  let x := c.x - o.x
  let y := c.y - o.y
  let z := c.z - o.z
  ⟨-sl * x + cl * y, -cl * sp * x + -sl * sp * y + cp * z, cl * cp * x + sl * cp * y + sp * z⟩

/-- GeocentricProjector::reverse, Geocentric.cpp 19-28; `rev` is Geocentric::Reverse of GeographicLib. -/
def geoReverse (rev : Pos → Gps) (p : Pos) : Gps := rev p

/-- LocalCartesianProjector::reverse, LocalCartesian.cpp 24-33: turned back, moved by the geocentric position of the origin, then
Geocentric::Reverse of GeographicLib (`rev`). Simplified: exact arithmetic. -/
noncomputable def localReverse (rev : Pos → Gps) (origin : Gps) (p : Pos) : Gps :=
  let o := geoForward origin
  let sp := Real.sin (rad origin.lat)
  let cp := Real.cos (rad origin.lat)
  let sl := Real.sin (rad origin.lon)
  let cl := Real.cos (rad origin.lon)
  rev ⟨o.x + (-sl * p.x + -cl * sp * p.y + cl * cp * p.z), o.y + (cl * p.x + -sl * sp * p.y + sl * cp * p.z), o.z + (cp * p.y + sp * p.z)⟩

/-! ### specification -/

/-- Specification. Positions on earth: between the poles, a longitude of the usual range, and not deeper than 6335 km. -/
structure OnEarth (p : Gps) : Prop where
  lat : BetweenPoles p.lat
  lon : -180 < p.lon ∧ p.lon ≤ 180
  ele : -6335000 < p.ele

/-- Specification. The square of the distance of two points. -/
def distSq (p q : Pos) : ℝ := (p.x - q.x) ^ 2 + (p.y - q.y) ^ 2 + (p.z - q.z) ^ 2

/-- Specification. What is assumed of Geocentric::Reverse: it answers with a position on earth that has the given coordinates, if there is one. -/
structure RevOk (rev : Pos → Gps) : Prop where
  earth : ∀ p, OnEarth p → OnEarth (rev (geoForward p))
  right : ∀ p, OnEarth p → geoForward (rev (geoForward p)) = geoForward p

/-! ### the ellipsoid -/

theorem wgsA_pos : 0 < wgsA := by unfold wgsA; norm_num
theorem wgsM_pos : 0 < wgsM := by unfold wgsM wgsF; norm_num
theorem wgsM_lt : wgsM < 1 := by unfold wgsM wgsF; norm_num
theorem wgs_depth : (6335000 : ℝ) < wgsA * wgsM := by unfold wgsA wgsM wgsF; norm_num

theorem curv_arg (phi : ℝ) : 0 < 1 - (1 - wgsM) * Real.sin phi ^ 2 := by
  have h1 := Real.sin_sq_le_one phi
  have h2 := wgsM_pos
  have h3 := wgsM_lt
  nlinarith [sq_nonneg (Real.sin phi)]

theorem curv_pos (phi : ℝ) : 0 < curv phi := div_pos wgsA_pos (Real.sqrt_pos.mpr (curv_arg phi))

theorem curv_sq (phi : ℝ) : curv phi ^ 2 * (Real.cos phi ^ 2 + wgsM * Real.sin phi ^ 2) = wgsA ^ 2 := by
  have h := curv_arg phi
  have h2 : Real.cos phi ^ 2 + wgsM * Real.sin phi ^ 2 = 1 - (1 - wgsM) * Real.sin phi ^ 2 := by
    rw [Real.cos_sq']; ring
  rw [h2, curv, div_pow, Real.sq_sqrt h.le]
  field_simp

theorem curv_ge (phi : ℝ) : wgsA ≤ curv phi := by
  have h1 := curv_sq phi
  have h2 := curv_pos phi
  have h3 := wgsA_pos
  have h4 : Real.cos phi ^ 2 + wgsM * Real.sin phi ^ 2 ≤ 1 := by
    rw [Real.cos_sq']
    nlinarith [sq_nonneg (Real.sin phi), wgsM_lt]
  by_contra hlt
  have h5 : curv phi ^ 2 < wgsA ^ 2 := by
    apply pow_lt_pow_left₀ (not_le.mp hlt) h2.le (by norm_num)
  have h6 : 0 ≤ curv phi ^ 2 := sq_nonneg _
  nlinarith

/-- a point of the ellipsoid is the only nearest one of a point above or below it -/
theorem nearest {a m N h dx dy dz q : ℝ} (ha : 0 < a) (hm : 0 < m) (hm1 : m < 1) (hN : a ≤ N) (hh : -(a * m) < h)
    (hq : 2 * N * q = dx ^ 2 + dy ^ 2 + dz ^ 2 / m) :
    0 ≤ dx ^ 2 + dy ^ 2 + dz ^ 2 + 2 * h * q ∧ (dx ^ 2 + dy ^ 2 + dz ^ 2 + 2 * h * q = 0 → dx = 0 ∧ dy = 0 ∧ dz = 0) := by
  have hN0 : 0 < N := lt_of_lt_of_le ha hN
  have hz : 0 ≤ dz ^ 2 / m := by positivity
  have hq0 : 0 ≤ q := by
    have : 0 ≤ 2 * N * q := by rw [hq]; positivity
    by_contra hc
    have := mul_neg_of_pos_of_neg (show 0 < 2 * N by linarith) (not_le.mp hc)
    linarith
  have h1 : 2 * N * q * m = (dx ^ 2 + dy ^ 2) * m + dz ^ 2 := by rw [hq]; field_simp
  have h2 : 2 * a * m * q ≤ dx ^ 2 + dy ^ 2 + dz ^ 2 := by
    have e1 : 2 * a * m * q ≤ 2 * N * q * m := by
      have := mul_le_mul_of_nonneg_right hN (mul_nonneg hm.le hq0)
      linarith
    have e2 : (dx ^ 2 + dy ^ 2) * m ≤ dx ^ 2 + dy ^ 2 := by
      have : 0 ≤ dx ^ 2 + dy ^ 2 := by positivity
      nlinarith
    linarith
  have h3 : 0 ≤ 2 * q * (a * m + h) := by
    have : 0 ≤ a * m + h := by linarith
    positivity
  refine ⟨by linarith, ?_⟩
  intro h0
  have h4 : 2 * q * (a * m + h) = 0 := by linarith
  have h5 : q = 0 := by
    rcases mul_eq_zero.mp h4 with h | h
    · linarith
    · linarith
  rw [h5, mul_zero] at hq
  have hx := sq_nonneg dx
  have hy := sq_nonneg dy
  refine ⟨?_, ?_, ?_⟩
  · exact pow_eq_zero_iff (two_ne_zero) |>.mp (by linarith)
  · exact pow_eq_zero_iff (two_ne_zero) |>.mp (by linarith)
  · have : dz ^ 2 / m = 0 := by linarith
    rcases div_eq_zero_iff.mp this with h | h
    · exact pow_eq_zero_iff (two_ne_zero) |>.mp h
    · linarith

/-- the heart of the injectivity: positions with the same coordinates are above the same point of the ellipsoid -/
theorem same_foot {p q : Gps} (hp : -(wgsA * wgsM) < p.ele) (hq : -(wgsA * wgsM) < q.ele) (h : geoForward p = geoForward q) :
    curv (rad p.lat) * Real.cos (rad p.lat) * Real.cos (rad p.lon) = curv (rad q.lat) * Real.cos (rad q.lat) * Real.cos (rad q.lon) ∧
    curv (rad p.lat) * Real.cos (rad p.lat) * Real.sin (rad p.lon) = curv (rad q.lat) * Real.cos (rad q.lat) * Real.sin (rad q.lon) ∧
    curv (rad p.lat) * Real.sin (rad p.lat) = curv (rad q.lat) * Real.sin (rad q.lat) := by
  have hm := wgsM_pos
  have hm1 := wgsM_lt
  have e1 := congrArg Pos.x h
  have e2 := congrArg Pos.y h
  have e3 := congrArg Pos.z h
  simp only [geoForward] at e1 e2 e3
  have k1 := curv_sq (rad p.lat)
  have k2 := curv_sq (rad q.lat)
  have g1 := curv_ge (rad p.lat)
  have g2 := curv_ge (rad q.lat)
  have t1 := Real.sin_sq_add_cos_sq (rad p.lat)
  have t2 := Real.sin_sq_add_cos_sq (rad q.lat)
  have t3 := Real.sin_sq_add_cos_sq (rad p.lon)
  have t4 := Real.sin_sq_add_cos_sq (rad q.lon)
  generalize curv (rad p.lat) = N at *
  generalize curv (rad q.lat) = N' at *
  generalize Real.sin (rad p.lat) = s at *
  generalize Real.cos (rad p.lat) = c at *
  generalize Real.sin (rad q.lat) = s' at *
  generalize Real.cos (rad q.lat) = c' at *
  generalize Real.sin (rad p.lon) = sl at *
  generalize Real.cos (rad p.lon) = cl at *
  generalize Real.sin (rad q.lon) = sl' at *
  generalize Real.cos (rad q.lon) = cl' at *
  generalize p.ele = u at *
  generalize q.ele = u' at *
  generalize wgsM = m at *
  -- differences of the feet
  have f1 := nearest (a := wgsA) (m := m) (N := N) (h := u) (dx := N * c * cl - N' * c' * cl') (dy := N * c * sl - N' * c' * sl')
    (dz := m * N * s - m * N' * s')
    (q := c * cl * (N * c * cl - N' * c' * cl') + c * sl * (N * c * sl - N' * c' * sl') + s * (m * N * s - m * N' * s')) wgsA_pos hm
    hm1 g1 hp (by
      have : (m * N * s - m * N' * s') ^ 2 / m = m * (N * s - N' * s') ^ 2 := by field_simp
      rw [this]
      linear_combination N ^ 2 * c ^ 2 * t3 - N' ^ 2 * c' ^ 2 * t4 + k1 - k2)
  have f2 := nearest (a := wgsA) (m := m) (N := N') (h := u') (dx := N' * c' * cl' - N * c * cl) (dy := N' * c' * sl' - N * c * sl)
    (dz := m * N' * s' - m * N * s)
    (q := c' * cl' * (N' * c' * cl' - N * c * cl) + c' * sl' * (N' * c' * sl' - N * c * sl) + s' * (m * N' * s' - m * N * s)) wgsA_pos hm
    hm1 g2 hq (by
      have : (m * N' * s' - m * N * s) ^ 2 / m = m * (N' * s' - N * s) ^ 2 := by field_simp
      rw [this]
      linear_combination N' ^ 2 * c' ^ 2 * t4 - N ^ 2 * c ^ 2 * t3 + k2 - k1)
  have n1 : (c * cl) ^ 2 + (c * sl) ^ 2 + s ^ 2 = 1 := by linear_combination c ^ 2 * t3 + t1
  have n2 : (c' * cl') ^ 2 + (c' * sl') ^ 2 + s' ^ 2 = 1 := by linear_combination c' ^ 2 * t4 + t2
  have a1 : N * c * cl - N' * c' * cl' + u * (c * cl) = u' * (c' * cl') := by linear_combination e1
  have a2 : N * c * sl - N' * c' * sl' + u * (c * sl) = u' * (c' * sl') := by linear_combination e2
  have a3 : m * N * s - m * N' * s' + u * s = u' * s' := by linear_combination e3
  have s1 : (N * c * cl - N' * c' * cl') ^ 2 + (N * c * sl - N' * c' * sl') ^ 2 + (m * N * s - m * N' * s') ^ 2 +
      2 * u * (c * cl * (N * c * cl - N' * c' * cl') + c * sl * (N * c * sl - N' * c' * sl') + s * (m * N * s - m * N' * s')) = u' ^ 2 - u ^ 2 := by
    linear_combination (N * c * cl - N' * c' * cl' + u * (c * cl) + u' * (c' * cl')) * a1 +
      (N * c * sl - N' * c' * sl' + u * (c * sl) + u' * (c' * sl')) * a2 + (m * N * s - m * N' * s' + u * s + u' * s') * a3 +
      u' ^ 2 * n2 - u ^ 2 * n1
  have s2 : (N' * c' * cl' - N * c * cl) ^ 2 + (N' * c' * sl' - N * c * sl) ^ 2 + (m * N' * s' - m * N * s) ^ 2 +
      2 * u' * (c' * cl' * (N' * c' * cl' - N * c * cl) + c' * sl' * (N' * c' * sl' - N * c * sl) + s' * (m * N' * s' - m * N * s)) =
        u ^ 2 - u' ^ 2 := by
    linear_combination (N * c * cl - N' * c' * cl' - u' * (c' * cl') - u * (c * cl)) * a1 +
      (N * c * sl - N' * c' * sl' - u' * (c' * sl') - u * (c * sl)) * a2 + (m * N * s - m * N' * s' - u' * s' - u * s) * a3 +
      u ^ 2 * n1 - u' ^ 2 * n2
  rw [s1] at f1
  rw [s2] at f2
  obtain ⟨r1, r2, r3⟩ := f1.2 (by linarith [f1.1, f2.1])
  refine ⟨by linarith, by linarith, ?_⟩
  have : m * (N * s - N' * s') = 0 := by linear_combination r3
  rcases mul_eq_zero.mp this with h0 | h0
  · linarith
  · linarith

theorem rad_lt {a b : ℝ} (h : a < b) : rad a < rad b := by
  unfold rad
  have := Real.pi_pos
  have := mul_lt_mul_of_pos_right h this
  linarith

theorem rad_sub (a b : ℝ) : rad a - rad b = rad (a - b) := by unfold rad; ring

theorem rad_inj {a b : ℝ} (h : rad a = rad b) : a = b := by
  rcases lt_trichotomy a b with h1 | h1 | h1
  · have := rad_lt h1; linarith
  · exact h1
  · have := rad_lt h1; linarith

theorem rad_90 : rad 90 = Real.pi / 2 := by unfold rad; ring
theorem rad_m90 : rad (-90) = -(Real.pi / 2) := by unfold rad; ring
theorem rad_180 : rad 180 = Real.pi := by unfold rad; ring
theorem rad_0 : rad 0 = 0 := by unfold rad; ring

theorem cos_lat_pos {lat : ℝ} (h : BetweenPoles lat) : 0 < Real.cos (rad lat) := by
  apply Real.cos_pos_of_mem_Ioo
  have h1 := rad_lt h.1
  have h2 := rad_lt h.2
  rw [rad_m90] at h1
  rw [rad_90] at h2
  exact ⟨h1, h2⟩

/-! ### C90 -/

/-- C90: different positions on earth have different geocentric coordinates. -/
theorem geocentric_injective {p q : Gps} (hp : OnEarth p) (hq : OnEarth q) (h : geoForward p = geoForward q) : p = q := by
  have d := wgs_depth
  obtain ⟨f1, f2, f3⟩ := same_foot (by linarith [hp.ele]) (by linarith [hq.ele]) h
  have c1 := cos_lat_pos hp.lat
  have c2 := cos_lat_pos hq.lat
  have n1 := curv_pos (rad p.lat)
  have n2 := curv_pos (rad q.lat)
  have k1 : (curv (rad p.lat) * Real.cos (rad p.lat)) ^ 2 = (curv (rad q.lat) * Real.cos (rad q.lat)) ^ 2 := by
    have t3 := Real.sin_sq_add_cos_sq (rad p.lon)
    have t4 := Real.sin_sq_add_cos_sq (rad q.lon)
    generalize curv (rad p.lat) * Real.cos (rad p.lat) = u at *
    generalize curv (rad q.lat) * Real.cos (rad q.lat) = v at *
    linear_combination -u ^ 2 * t3 + v ^ 2 * t4 + (u * Real.cos (rad p.lon) + v * Real.cos (rad q.lon)) * f1 +
      (u * Real.sin (rad p.lon) + v * Real.sin (rad q.lon)) * f2
  have k2 : curv (rad p.lat) * Real.cos (rad p.lat) = curv (rad q.lat) * Real.cos (rad q.lat) := by
    have p1 : 0 ≤ curv (rad p.lat) * Real.cos (rad p.lat) := by positivity
    have p2 : 0 ≤ curv (rad q.lat) * Real.cos (rad q.lat) := by positivity
    exact (pow_left_inj₀ p1 p2 (by norm_num)).mp k1
  have k3 : curv (rad p.lat) = curv (rad q.lat) := by
    refine (pow_left_inj₀ n1.le n2.le (n := 2) (by norm_num)).mp ?_
    have t1 := Real.sin_sq_add_cos_sq (rad p.lat)
    have t2 := Real.sin_sq_add_cos_sq (rad q.lat)
    linear_combination -curv (rad p.lat) ^ 2 * t1 + curv (rad q.lat) ^ 2 * t2 +
      (curv (rad p.lat) * Real.cos (rad p.lat) + curv (rad q.lat) * Real.cos (rad q.lat)) * k2 +
      (curv (rad p.lat) * Real.sin (rad p.lat) + curv (rad q.lat) * Real.sin (rad q.lat)) * f3
  have hs : Real.sin (rad p.lat) = Real.sin (rad q.lat) := by
    rw [k3] at f3
    exact mul_left_cancel₀ n2.ne' f3
  have hlat : p.lat = q.lat := by
    apply rad_inj
    have a1 := rad_lt hp.lat.1
    have a2 := rad_lt hp.lat.2
    have a3 := rad_lt hq.lat.1
    have a4 := rad_lt hq.lat.2
    rw [rad_m90] at a1 a3
    rw [rad_90] at a2 a4
    exact Real.injOn_sin ⟨a1.le, a2.le⟩ ⟨a3.le, a4.le⟩ hs
  rw [hlat] at f1 f2
  have w : curv (rad q.lat) * Real.cos (rad q.lat) ≠ 0 := by positivity
  have g1 := mul_left_cancel₀ w f1
  have g2 := mul_left_cancel₀ w f2
  have hlon : p.lon = q.lon := by
    have hc : Real.cos (rad (p.lon - q.lon)) = 1 := by
      rw [← rad_sub, Real.cos_sub, g1, g2]
      linear_combination Real.sin_sq_add_cos_sq (rad q.lon)
    have b1 : -(2 * Real.pi) < rad (p.lon - q.lon) := by
      have := rad_lt (a := -360) (b := p.lon - q.lon) (by linarith [hp.lon.1, hq.lon.2])
      have e : rad (-360) = -(2 * Real.pi) := by unfold rad; ring
      rwa [e] at this
    have b2 : rad (p.lon - q.lon) < 2 * Real.pi := by
      have := rad_lt (a := p.lon - q.lon) (b := 360) (by linarith [hp.lon.2, hq.lon.1])
      have e : rad 360 = 2 * Real.pi := by unfold rad; ring
      rwa [e] at this
    have := (Real.cos_eq_one_iff_of_lt_of_lt b1 b2).mp hc
    rw [← rad_0] at this
    have := rad_inj this
    linarith
  have hele : p.ele = q.ele := by
    have e1 := congrArg Pos.x h
    have e2 := congrArg Pos.y h
    simp only [geoForward, hlat, hlon] at e1 e2
    have t := Real.sin_sq_add_cos_sq (rad q.lon)
    have : (p.ele - q.ele) * Real.cos (rad q.lat) = 0 := by
      linear_combination Real.cos (rad q.lon) * e1 + Real.sin (rad q.lon) * e2 - (p.ele - q.ele) * Real.cos (rad q.lat) * t
    rcases mul_eq_zero.mp this with h0 | h0
    · linarith
    · linarith
  cases p; cases q
  simp only at hlat hlon hele
  rw [hlat, hlon, hele]

/-- C90: local coordinates are a rigid motion of the geocentric ones: all distances are the real ones. -/
theorem local_isometry (origin p q : Gps) :
    distSq (localForward origin p) (localForward origin q) = distSq (geoForward p) (geoForward q) := by
  have t1 := Real.sin_sq_add_cos_sq (rad origin.lat)
  have t2 := Real.sin_sq_add_cos_sq (rad origin.lon)
  simp only [localForward, distSq]
  generalize geoForward p = P
  generalize geoForward q = Q
  generalize geoForward origin = O
  generalize Real.sin (rad origin.lat) = s at *
  generalize Real.cos (rad origin.lat) = c at *
  generalize Real.sin (rad origin.lon) = sl at *
  generalize Real.cos (rad origin.lon) = cl at *
  have e1 : s ^ 2 = 1 - c ^ 2 := by linarith
  have e2 : sl ^ 2 = 1 - cl ^ 2 := by linarith
  generalize hx : P.x - Q.x = x
  generalize hy : P.y - Q.y = y
  generalize hz : P.z - Q.z = z
  have i1 : (-sl * (P.x - O.x) + cl * (P.y - O.y) - (-sl * (Q.x - O.x) + cl * (Q.y - O.y))) = -sl * x + cl * y := by rw [← hx, ← hy]; ring
  have i2 : (-cl * s * (P.x - O.x) + -sl * s * (P.y - O.y) + c * (P.z - O.z) -
      (-cl * s * (Q.x - O.x) + -sl * s * (Q.y - O.y) + c * (Q.z - O.z))) = -s * (cl * x + sl * y) + c * z := by rw [← hx, ← hy, ← hz]; ring
  have i3 : (cl * c * (P.x - O.x) + sl * c * (P.y - O.y) + s * (P.z - O.z) -
      (cl * c * (Q.x - O.x) + sl * c * (Q.y - O.y) + s * (Q.z - O.z))) = c * (cl * x + sl * y) + s * z := by rw [← hx, ← hy, ← hz]; ring
  rw [i1, i2, i3]
  linear_combination ((cl * x + sl * y) ^ 2 + z ^ 2) * t1 + (x ^ 2 + y ^ 2) * t2

/-- C90: the local coordinates of the origin are zero. -/
theorem local_origin (origin : Gps) : localForward origin origin = ⟨0, 0, 0⟩ := by
  simp [localForward]

/-- C90: reverse undoes forward of the geocentric projector. -/
theorem geocentric_roundtrip {rev : Pos → Gps} (h : RevOk rev) {p : Gps} (hp : OnEarth p) : geoReverse rev (geoForward p) = p :=
  geocentric_injective (h.earth p hp) hp (h.right p hp)

/-- C90: reverse undoes forward of the local projector, for every origin. -/
theorem local_roundtrip {rev : Pos → Gps} (h : RevOk rev) (origin : Gps) {p : Gps} (hp : OnEarth p) :
    localReverse rev origin (localForward origin p) = p := by
  have t1 := Real.sin_sq_add_cos_sq (rad origin.lat)
  have t2 := Real.sin_sq_add_cos_sq (rad origin.lon)
  have key : localReverse rev origin (localForward origin p) = rev (geoForward p) := by
    simp only [localForward, localReverse]
    generalize geoForward origin = O
    generalize geoForward p = P
    generalize Real.sin (rad origin.lat) = s at *
    generalize Real.cos (rad origin.lat) = c at *
    generalize Real.sin (rad origin.lon) = sl at *
    generalize Real.cos (rad origin.lon) = cl at *
    congr 1
    cases P with | mk px py pz => ?_
    cases O with | mk ox oy oz => ?_
    simp only [Pos.mk.injEq]
    refine ⟨?_, ?_, ?_⟩
    · linear_combination (cl * (cl * (px - ox) + sl * (py - oy))) * t1 + (px - ox) * t2
    · linear_combination (sl * (cl * (px - ox) + sl * (py - oy))) * t1 + (py - oy) * t2
    · linear_combination (pz - oz) * t1
  rw [key]
  exact geocentric_roundtrip h hp

/-- C90: different positions on earth have different local coordinates. -/
theorem local_injective (origin : Gps) {p q : Gps} (hp : OnEarth p) (hq : OnEarth q) (h : localForward origin p = localForward origin q) : p = q := by
  have h1 := local_isometry origin p q
  rw [h] at h1
  have h2 : distSq (geoForward p) (geoForward q) = 0 := by rw [← h1]; simp [distSq]
  apply geocentric_injective hp hq
  unfold distSq at h2
  have a := sq_nonneg ((geoForward p).x - (geoForward q).x)
  have b := sq_nonneg ((geoForward p).y - (geoForward q).y)
  have c := sq_nonneg ((geoForward p).z - (geoForward q).z)
  have x0 := (pow_eq_zero_iff (two_ne_zero)).mp (show ((geoForward p).x - (geoForward q).x) ^ 2 = 0 by linarith)
  have y0 := (pow_eq_zero_iff (two_ne_zero)).mp (show ((geoForward p).y - (geoForward q).y) ^ 2 = 0 by linarith)
  have z0 := (pow_eq_zero_iff (two_ne_zero)).mp (show ((geoForward p).z - (geoForward q).z) ^ 2 = 0 by linarith)
  generalize geoForward p = P at *
  generalize geoForward q = Q at *
  cases P; cases Q
  simp only at x0 y0 z0
  simp only [Pos.mk.injEq]
  exact ⟨by linarith, by linarith, by linarith⟩

/-- C90: z points up: a position above the origin differs in z only, by the difference of the heights. -/
theorem local_up (origin p : Gps) (h1 : p.lat = origin.lat) (h2 : p.lon = origin.lon) : localForward origin p = ⟨0, 0, p.ele - origin.ele⟩ := by
  have t1 := Real.sin_sq_add_cos_sq (rad origin.lat)
  have t2 := Real.sin_sq_add_cos_sq (rad origin.lon)
  simp only [localForward, geoForward, h1, h2, Pos.mk.injEq]
  generalize curv (rad origin.lat) = N
  generalize Real.sin (rad origin.lat) = s at *
  generalize Real.cos (rad origin.lat) = c at *
  generalize Real.sin (rad origin.lon) = sl at *
  generalize Real.cos (rad origin.lon) = cl at *
  refine ⟨by ring, ?_, ?_⟩
  · linear_combination -(p.ele - origin.ele) * s * c * t2
  · linear_combination (p.ele - origin.ele) * (c ^ 2 * t2 + t1)

/-- the coordinate x for all positions -/
theorem local_x (origin p : Gps) :
    (localForward origin p).x = (curv (rad p.lat) + p.ele) * Real.cos (rad p.lat) * Real.sin (rad (p.lon - origin.lon)) := by
  simp only [localForward, geoForward]
  rw [← rad_sub, Real.sin_sub]
  ring

/-- C90: x points east: it is positive exactly for the positions on the half of the earth to the east of the origin, and zero on its meridian. -/
theorem local_east (origin : Gps) {p : Gps} (hp : OnEarth p) :
    (0 < p.lon - origin.lon → p.lon - origin.lon < 180 → 0 < (localForward origin p).x) ∧
    (p.lon - origin.lon < 0 → -180 < p.lon - origin.lon → (localForward origin p).x < 0) ∧
    (p.lon = origin.lon → (localForward origin p).x = 0) := by
  rw [local_x]
  have hc := cos_lat_pos hp.lat
  have hN : 0 < curv (rad p.lat) + p.ele := by
    have h1 := curv_ge (rad p.lat)
    have h2 := hp.ele
    unfold wgsA at h1
    linarith
  have hpos : 0 < (curv (rad p.lat) + p.ele) * Real.cos (rad p.lat) := mul_pos hN hc
  refine ⟨?_, ?_, ?_⟩
  · intro a b
    have a' := rad_lt a
    have b' := rad_lt b
    rw [rad_0] at a'
    rw [rad_180] at b'
    exact mul_pos hpos (Real.sin_pos_of_pos_of_lt_pi a' b')
  · intro a b
    have a' := rad_lt a
    have b' := rad_lt b
    rw [rad_0] at a'
    have e : rad (-180) = -Real.pi := by unfold rad; ring
    rw [e] at b'
    exact mul_neg_of_pos_of_neg hpos (Real.sin_neg_of_neg_of_neg_pi_lt a' b')
  · intro a
    rw [a, sub_self, rad_0, Real.sin_zero, mul_zero]

/-- the coordinate y grows at least with the sine of the difference of the latitudes -/
theorem north_bound {a m N N0 c s c0 s0 : ℝ} (ha : 0 < a) (hm : 0 < m) (hm1 : m < 1) (hN : a ≤ N) (hN0 : a ≤ N0)
    (k : N ^ 2 * (c ^ 2 + m * s ^ 2) = a ^ 2) (k0 : N0 ^ 2 * (c0 ^ 2 + m * s0 ^ 2) = a ^ 2) (t : s ^ 2 + c ^ 2 = 1) (t0 : s0 ^ 2 + c0 ^ 2 = 1)
    (hcos : 0 ≤ c * c0 + s * s0) :
    a * m / 2 * (s * c0 - c * s0) ^ 2 ≤ (s * c0 - c * s0) * (-s0 * (N * c - N0 * c0) + c0 * (m * (N * s - N0 * s0))) := by
  have hNp : 0 < N := lt_of_lt_of_le ha hN
  have hN0p : 0 < N0 := lt_of_lt_of_le ha hN0
  -- the heights of either foot above the tangential plane of the other one
  obtain ⟨Q, hQ⟩ : ∃ Q, Q = c * (N * c - N0 * c0) + s * (m * (N * s - N0 * s0)) := ⟨_, rfl⟩
  obtain ⟨Q0, hQ0⟩ : ∃ Q0, Q0 = c0 * (N0 * c0 - N * c) + s0 * (m * (N0 * s0 - N * s)) := ⟨_, rfl⟩
  obtain ⟨w, hw⟩ : ∃ w, w = N * N0 * (c * c0 + m * (s * s0)) := ⟨_, rfl⟩
  have q1 : Q * N = a ^ 2 - w := by rw [hQ, hw]; linear_combination k
  have q2 : Q0 * N0 = a ^ 2 - w := by rw [hQ0, hw]; linear_combination k0
  have sq : (a ^ 2 - w) * (a ^ 2 + w) = N ^ 2 * N0 ^ 2 * m * (s * c0 - c * s0) ^ 2 := by
    rw [hw]
    linear_combination (-(N0 ^ 2 * (c0 ^ 2 + m * s0 ^ 2))) * k - a ^ 2 * k0
  have hs0 : 0 ≤ (s * c0 - c * s0) ^ 2 := sq_nonneg _
  have hr : 0 ≤ N ^ 2 * N0 ^ 2 * m * (s * c0 - c * s0) ^ 2 := by positivity
  have ha2 : 0 < a ^ 2 := by positivity
  have hwle : w ≤ a ^ 2 := by
    by_contra hc
    have h1 := not_le.mp hc
    have : (a ^ 2 - w) * (a ^ 2 + w) < 0 := mul_neg_of_neg_of_pos (by linarith) (by linarith)
    linarith
  have hQ0' : 0 ≤ Q0 := by
    by_contra hc
    have := mul_neg_of_neg_of_pos (not_le.mp hc) hN0p
    linarith
  have hQ' : a * m / 2 * (s * c0 - c * s0) ^ 2 ≤ Q := by
    have h1 : N ^ 2 * N0 ^ 2 * m * (s * c0 - c * s0) ^ 2 ≤ Q * N * (2 * a ^ 2) := by
      rw [← sq, q1]
      have : 0 ≤ a ^ 2 - w := by linarith
      nlinarith
    have h2 : a ^ 3 * m * (s * c0 - c * s0) ^ 2 ≤ N * N0 ^ 2 * m * (s * c0 - c * s0) ^ 2 := by
      have : a ^ 3 ≤ N * N0 ^ 2 := by
        have e : a ^ 2 ≤ N0 ^ 2 := pow_le_pow_left₀ ha.le hN0 2
        calc a ^ 3 = a * a ^ 2 := by ring
          _ ≤ N * N0 ^ 2 := mul_le_mul hN e ha2.le hNp.le
      have h3 : 0 ≤ m * (s * c0 - c * s0) ^ 2 := by positivity
      have := mul_le_mul_of_nonneg_right this h3
      linarith
    have h4 : N * (a ^ 3 * m * (s * c0 - c * s0) ^ 2) ≤ N * (Q * (2 * a ^ 2)) := by
      have := mul_le_mul_of_nonneg_left h2 hNp.le
      linarith
    have h5 := le_of_mul_le_mul_left h4 hNp
    have h6 : (2 * a ^ 2) * (a * m / 2 * (s * c0 - c * s0) ^ 2) ≤ (2 * a ^ 2) * Q := by linarith
    exact le_of_mul_le_mul_left h6 (by positivity)
  have hT : (s * c0 - c * s0) * (-s0 * (N * c - N0 * c0) + c0 * (m * (N * s - N0 * s0))) = Q + (c * c0 + s * s0) * Q0 := by
    rw [hQ, hQ0]
    linear_combination (c * (N * c - N0 * c0) + s * (m * (N * s - N0 * s0))) * t0
  rw [hT]
  have := mul_nonneg hcos hQ0'
  linarith

/-- C90: y points north: on the meridian of the origin it is positive for the positions up to 90 degrees further north and negative for those
further south. -/
theorem local_north {origin p : Gps} (ho : BetweenPoles origin.lat) (hp : BetweenPoles p.lat) (he : -3000000 ≤ p.ele) (hl : p.lon = origin.lon) :
    (0 < p.lat - origin.lat → p.lat - origin.lat ≤ 90 → 0 < (localForward origin p).y) ∧
    (p.lat - origin.lat < 0 → -90 ≤ p.lat - origin.lat → (localForward origin p).y < 0) := by
  have hy : (localForward origin p).y = (-Real.sin (rad origin.lat) * (curv (rad p.lat) * Real.cos (rad p.lat) - curv (rad origin.lat) * Real.cos (rad origin.lat)) +
      Real.cos (rad origin.lat) * (wgsM * (curv (rad p.lat) * Real.sin (rad p.lat) - curv (rad origin.lat) * Real.sin (rad origin.lat)))) +
      p.ele * (Real.sin (rad p.lat) * Real.cos (rad origin.lat) - Real.cos (rad p.lat) * Real.sin (rad origin.lat)) := by
    have t2 := Real.sin_sq_add_cos_sq (rad origin.lon)
    simp only [localForward, geoForward, hl]
    linear_combination -Real.sin (rad origin.lat) * ((curv (rad p.lat) + p.ele) * Real.cos (rad p.lat) -
      (curv (rad origin.lat) + origin.ele) * Real.cos (rad origin.lat)) * t2
  have hS : Real.sin (rad p.lat) * Real.cos (rad origin.lat) - Real.cos (rad p.lat) * Real.sin (rad origin.lat) = Real.sin (rad (p.lat - origin.lat)) := by
    rw [← rad_sub, Real.sin_sub]
  have hC : Real.cos (rad p.lat) * Real.cos (rad origin.lat) + Real.sin (rad p.lat) * Real.sin (rad origin.lat) = Real.cos (rad (p.lat - origin.lat)) := by
    rw [← rad_sub, Real.cos_sub]
  have main : -90 ≤ p.lat - origin.lat → p.lat - origin.lat ≤ 90 → Real.sin (rad (p.lat - origin.lat)) ≠ 0 →
      0 < Real.sin (rad (p.lat - origin.lat)) * (localForward origin p).y := by
    intro h1 h2 h3
    have hcos : 0 ≤ Real.cos (rad (p.lat - origin.lat)) := by
      apply Real.cos_nonneg_of_neg_pi_div_two_le_of_le
      · rw [← rad_m90]
        rcases eq_or_lt_of_le h1 with h | h
        · rw [h]
        · exact (rad_lt h).le
      · rw [← rad_90]
        rcases eq_or_lt_of_le h2 with h | h
        · rw [h]
        · exact (rad_lt h).le
    have := north_bound wgsA_pos wgsM_pos wgsM_lt (curv_ge (rad p.lat)) (curv_ge (rad origin.lat)) (curv_sq (rad p.lat)) (curv_sq (rad origin.lat))
      (Real.sin_sq_add_cos_sq (rad p.lat)) (Real.sin_sq_add_cos_sq (rad origin.lat)) (by rw [hC]; exact hcos)
    rw [hy, hS] at *
    have hd := wgs_depth
    have h4 : 0 < Real.sin (rad (p.lat - origin.lat)) ^ 2 := by positivity
    have h5 : 0 < (wgsA * wgsM / 2 + p.ele) * Real.sin (rad (p.lat - origin.lat)) ^ 2 := mul_pos (by linarith) h4
    linarith
  constructor
  · intro h1 h2
    have hs : 0 < Real.sin (rad (p.lat - origin.lat)) := by
      apply Real.sin_pos_of_pos_of_lt_pi
      · rw [← rad_0]; exact rad_lt h1
      · rw [← rad_180]; exact rad_lt (by linarith)
    exact (pos_iff_pos_of_mul_pos (main (by linarith) h2 hs.ne')).mp hs
  · intro h1 h2
    have hs : Real.sin (rad (p.lat - origin.lat)) < 0 := by
      apply Real.sin_neg_of_neg_of_neg_pi_lt
      · rw [← rad_0]; exact rad_lt h1
      · have e : rad (-180) = -Real.pi := by unfold rad; ring
        rw [← e]; exact rad_lt (by linarith)
    have := main h2 (by linarith) hs.ne
    by_contra hc
    have := mul_nonpos_of_nonpos_of_nonneg hs.le (not_lt.mp hc)
    linarith

/-- C90: the origin that a geocentric projector names is the centre of the earth up to two centimetres. -/
theorem geocentric_origin : distSq (geoForward geoOrigin) ⟨0, 0, 0⟩ < 0.02 ^ 2 := by
  have h1 : Real.sin (rad 90) = 1 := by rw [rad_90, Real.sin_pi_div_two]
  have h2 : Real.cos (rad 90) = 0 := by rw [rad_90, Real.cos_pi_div_two]
  have h3 : curv (rad 90) = wgsA / (1 - wgsF) := by
    unfold curv
    rw [h1]
    congr 1
    rw [show (1 : ℝ) - (1 - wgsM) * 1 ^ 2 = (1 - wgsF) ^ 2 by unfold wgsM; ring]
    apply Real.sqrt_sq
    unfold wgsF; norm_num
  simp only [geoForward, geoOrigin, distSq, h1, h2, h3]
  unfold wgsM wgsA wgsF
  norm_num

/-! ### the hypotheses are met -/

/-- there is a function with the assumed properties of Reverse -/
theorem revOk_exists : ∃ rev, RevOk rev := by
  classical
  refine ⟨fun c => if h : ∃ p, OnEarth p ∧ geoForward p = c then h.choose else ⟨0, 0, 0⟩, ?_, ?_⟩
  · intro p hp
    have h : ∃ q, OnEarth q ∧ geoForward q = geoForward p := ⟨p, hp, rfl⟩
    rw [dif_pos h]
    exact h.choose_spec.1
  · intro p hp
    have h : ∃ q, OnEarth q ∧ geoForward q = geoForward p := ⟨p, hp, rfl⟩
    rw [dif_pos h]
    exact h.choose_spec.2

/-- Karlsruhe, and a place by the Dead Sea as origin -/
example : ∃ rev, RevOk rev ∧ localReverse rev ⟨31.5, 35.5, -430⟩ (localForward ⟨31.5, 35.5, -430⟩ ⟨49, 8.4, 115⟩) = ⟨49, 8.4, 115⟩ := by
  obtain ⟨rev, h⟩ := revOk_exists
  exact ⟨rev, h, local_roundtrip h _ ⟨⟨by norm_num, by norm_num⟩, ⟨by norm_num, by norm_num⟩, by norm_num⟩⟩

/-- Karlsruhe is north and west of it -/
example : (localForward ⟨31.5, 35.5, -430⟩ ⟨49, 8.4, 115⟩).x < 0 ∧ 0 < (localForward ⟨31.5, 35.5, -430⟩ ⟨49, 35.5, 115⟩).y :=
  ⟨(local_east _ ⟨⟨by norm_num, by norm_num⟩, ⟨by norm_num, by norm_num⟩, by norm_num⟩).2.1 (by norm_num) (by norm_num),
   (local_north (origin := ⟨31.5, 35.5, -430⟩) (p := ⟨49, 35.5, 115⟩) ⟨by norm_num, by norm_num⟩ ⟨by norm_num, by norm_num⟩ (by norm_num) rfl).1 (by norm_num) (by norm_num)⟩

end Verif.Proj
