import Verif.Proj.Model
import Verif.Osm.RoundTrip
import Mathlib.Analysis.SpecialFunctions.Trigonometric.ArctanDeriv
import Mathlib.Analysis.SpecialFunctions.Log.Deriv
import Mathlib.Tactic.FieldSimp
import Mathlib.Tactic.Linarith

/-!
C61: projectors.
-/
namespace Verif.Proj

/-! ### specification -/

/-- a latitude between the poles -/
def BetweenPoles (lat : ℝ) : Prop := -90 < lat ∧ lat < 90

/-- what is assumed about GeographicLib: Reverse undoes Forward, coordinates after Transfer are those of the same position, and a position is
moved to the zone from which it came -/
structure Lib.Ok (lib : Lib) : Prop where
  inverse : ∀ lat lon z n x y, lib.forward lat lon = some (z, n, x, y) → lib.reverse z n x y = some (lat, lon)
  inverse' : ∀ lat lon z n x y x' y', lib.reverse z n x y = some (lat, lon) → lib.forward lat lon = some (z, n, x', y') → x' = x ∧ y' = y
  transfer : ∀ z n x y z' n' x' y', lib.transfer z n x y z' n' = some (x', y', z') → lib.reverse z' n' x' y' = lib.reverse z n x y
  transfer' : ∀ lat lon z n x y z' n' x' y' x'' y'', lib.reverse z n x y = some (lat, lon) → lib.forward lat lon = some (z', n', x', y') →
    lib.transfer z' n' x' y' z n = some (x'', y'', z) → x'' = x ∧ y'' = y

/-- the zone and the hemisphere of the position are those of the origin -/
def SameZone (lib : Lib) (origin g : Gps) : Prop :=
  ∃ z n x y x' y', lib.forward origin.lat origin.lon = some (z, n, x, y) ∧ lib.forward g.lat g.lon = some (z, n, x', y')

/-! ### mercator -/

theorem scale_pos {origin : Gps} (h : BetweenPoles origin.lat) : 0 < scale origin := by
  have hp := Real.pi_pos
  refine Real.cos_pos_of_mem_Ioo ⟨?_, ?_⟩
  · have := h.1; nlinarith
  · have := h.2; nlinarith

theorem tan_pos_of {lat : ℝ} (h : BetweenPoles lat) : 0 < Real.tan ((90 + lat) * Real.pi / 360) := by
  have hp := Real.pi_pos
  refine Real.tan_pos_of_pos_of_lt_pi_div_two ?_ ?_
  · have := h.1; nlinarith
  · have := h.2; nlinarith

theorem earthRadius_pos : 0 < earthRadius := by unfold earthRadius; norm_num

/-- C61: going to local coordinates and back gives the position. -/
theorem mercator_roundtrip {origin p : Gps} (ho : BetweenPoles origin.lat) (hp : BetweenPoles p.lat) :
    mercatorReverse origin (mercatorForward origin p) = p := by
  have hs := scale_pos ho
  have hr := earthRadius_pos
  have hpi := Real.pi_pos
  obtain ⟨s, hs'⟩ : ∃ s, s = scale origin := ⟨_, rfl⟩
  obtain ⟨r, hr'⟩ : ∃ r, r = earthRadius := ⟨_, rfl⟩
  unfold mercatorReverse mercatorForward
  rw [← hs'] at hs
  rw [← hr'] at hr
  rw [← hs', ← hr']
  obtain ⟨lat, lon, ele⟩ := p
  have hp' : BetweenPoles lat := hp
  have e1 : s * r * Real.log (Real.tan ((90 + lat) * Real.pi / 360)) / (r * s) = Real.log (Real.tan ((90 + lat) * Real.pi / 360)) := by
    field_simp
  simp only [e1, Real.exp_log (tan_pos_of hp')]
  rw [Real.arctan_tan]
  · congr 1
    · field_simp; ring
    · field_simp
  · have := hp'.1; nlinarith
  · have := hp'.2; nlinarith

theorem reverse_between (origin : Gps) (q : Pos) : BetweenPoles (mercatorReverse origin q).lat := by
  have hpi := Real.pi_pos
  obtain ⟨t, ht⟩ : ∃ t, t = Real.exp (q.y / (earthRadius * scale origin)) := ⟨_, rfl⟩
  have h0 : 0 < t := by rw [ht]; exact Real.exp_pos _
  have h1 := Real.arctan_pos.mpr h0
  have h2 := Real.arctan_lt_pi_div_two t
  unfold BetweenPoles mercatorReverse
  simp only [← ht]
  constructor
  · have : 0 < 360 * Real.arctan t / Real.pi := by positivity
    linarith
  · have : 360 * Real.arctan t / Real.pi < 180 := by
      rw [div_lt_iff₀ hpi]; linarith
    linarith

/-- C61: all local coordinates belong to a position between the poles, and going there and back gives the coordinates. -/
theorem mercator_roundtrip' {origin : Gps} (ho : BetweenPoles origin.lat) (q : Pos) :
    BetweenPoles (mercatorReverse origin q).lat ∧ mercatorForward origin (mercatorReverse origin q) = q := by
  refine ⟨reverse_between origin q, ?_⟩
  have hs := scale_pos ho
  have hr := earthRadius_pos
  have hpi := Real.pi_pos
  obtain ⟨s, hs'⟩ : ∃ s, s = scale origin := ⟨_, rfl⟩
  obtain ⟨r, hr'⟩ : ∃ r, r = earthRadius := ⟨_, rfl⟩
  unfold mercatorReverse mercatorForward
  rw [← hs'] at hs
  rw [← hr'] at hr
  rw [← hs', ← hr']
  obtain ⟨x, y, z⟩ := q
  have e : (90 + (360 * Real.arctan (Real.exp (y / (r * s))) / Real.pi - 90)) * Real.pi / 360 = Real.arctan (Real.exp (y / (r * s))) := by
    field_simp; ring
  simp only [e, Real.tan_arctan, Real.log_exp]
  congr 1
  · field_simp
  · field_simp

/-- C61: at every latitude lengths to the east and to the north are scaled alike, by the quotient of the cosines of the latitudes of the origin
and of the position, so that angles are kept, and lengths at the latitude of the origin. A degree to the north has a length of `π/180` radii, one to
the east is shorter by the cosine of the latitude. -/
theorem mercator_conformal (origin : Gps) {p : Gps} (hp : BetweenPoles p.lat) :
    HasDerivAt (fun lon => (mercatorForward origin ⟨p.lat, lon, p.ele⟩).x)
      (scale origin / Real.cos (p.lat * Real.pi / 180) * (earthRadius * Real.pi / 180 * Real.cos (p.lat * Real.pi / 180))) p.lon ∧
    HasDerivAt (fun lat => (mercatorForward origin ⟨lat, p.lon, p.ele⟩).y)
      (scale origin / Real.cos (p.lat * Real.pi / 180) * (earthRadius * Real.pi / 180)) p.lat ∧
    (∀ lat, (mercatorForward origin ⟨lat, p.lon, p.ele⟩).x = (mercatorForward origin p).x) ∧
    (∀ lon, (mercatorForward origin ⟨p.lat, lon, p.ele⟩).y = (mercatorForward origin p).y) := by
  have hpi := Real.pi_pos
  have hc : 0 < Real.cos (p.lat * Real.pi / 180) := scale_pos (origin := p) hp
  refine ⟨?_, ?_, fun _ => rfl, fun _ => rfl⟩
  · have h : HasDerivAt (fun lon : ℝ => lon * (scale origin * Real.pi * earthRadius / 180)) (1 * (scale origin * Real.pi * earthRadius / 180)) p.lon :=
      (hasDerivAt_id p.lon).mul_const _
    have e1 : (fun lon : ℝ => (mercatorForward origin ⟨p.lat, lon, p.ele⟩).x) = fun lon => lon * (scale origin * Real.pi * earthRadius / 180) := by
      funext lon; unfold mercatorForward; simp only; ring
    have e2 : scale origin / Real.cos (p.lat * Real.pi / 180) * (earthRadius * Real.pi / 180 * Real.cos (p.lat * Real.pi / 180)) =
        1 * (scale origin * Real.pi * earthRadius / 180) := by
      field_simp
    rw [e1, e2]; exact h
  · obtain ⟨a, ha⟩ : ∃ a, a = (90 + p.lat) * Real.pi / 360 := ⟨_, rfl⟩
    have ha0 : 0 < a := by rw [ha]; have := hp.1; nlinarith
    have ha1 : a < Real.pi / 2 := by rw [ha]; have := hp.2; nlinarith
    have hca : 0 < Real.cos a := Real.cos_pos_of_mem_Ioo ⟨by linarith, ha1⟩
    have hsa : 0 < Real.sin a := Real.sin_pos_of_pos_of_lt_pi ha0 (by linarith)
    have hin : HasDerivAt (fun lat : ℝ => (90 + lat) * Real.pi / 360) (Real.pi / 360) p.lat := by
      have := (((hasDerivAt_id p.lat).const_add 90).mul_const Real.pi).div_const 360
      simpa using this
    have htan : HasDerivAt Real.tan (1 / Real.cos a ^ 2) a := Real.hasDerivAt_tan hca.ne'
    rw [ha] at htan
    have h1 := HasDerivAt.comp p.lat htan hin
    have htp : Real.tan a ≠ 0 := by rw [ha]; exact (tan_pos_of hp).ne'
    rw [ha] at htp
    have h2 := (h1.log htp).const_mul (scale origin * earthRadius)
    rw [← ha] at h2
    have hcos : Real.cos (p.lat * Real.pi / 180) = 2 * Real.sin a * Real.cos a := by
      rw [← Real.sin_two_mul, ha, ← Real.sin_pi_div_two_sub]
      have : Real.sin (2 * ((90 + p.lat) * Real.pi / 360)) = Real.sin (Real.pi - (Real.pi / 2 - p.lat * Real.pi / 180)) := by
        congr 1; ring
      rw [this, Real.sin_pi_sub]
    have e : scale origin / Real.cos (p.lat * Real.pi / 180) * (earthRadius * Real.pi / 180) =
        scale origin * earthRadius * (1 / Real.cos a ^ 2 * (Real.pi / 360) / Real.tan a) := by
      rw [hcos, Real.tan_eq_sin_div_cos]
      field_simp
      ring
    rw [e]
    rw [ha]
    rw [ha] at h2
    exact h2

/-- Disagreement with C61: the origin does not get the coordinates 0, 0; the longitude is not taken relative to it. -/
theorem origin_counterexample : ∃ origin : Gps, BetweenPoles origin.lat ∧ (mercatorForward origin origin).x ≠ 0 := by
  refine ⟨⟨0, 180, 0⟩, ⟨by norm_num, by norm_num⟩, ?_⟩
  have hpi := Real.pi_pos
  unfold mercatorForward scale earthRadius
  simp only [zero_mul, zero_div, Real.cos_zero]
  positivity

/-- C61, C34: with this projector a map that is written to an OSM file and loaded has the positions it had. -/
theorem mercator_osm {origin : Gps} (ho : BetweenPoles origin.lat) {env : Osm.Env Pos ℝ} {rt : Pos → Pos} {m : Osm.LMap Pos}
    (hf : ∀ lat lon ele, env.forward lat lon ele = some (mercatorForward origin ⟨lat, lon, ele⟩))
    (hr : Osm.Representable env (fun q => some ((mercatorReverse origin q).lat, (mercatorReverse origin q).lon, (mercatorReverse origin q).ele)) rt m) :
    ∀ i p, m.points.get i = some p → rt p.pos = p.pos := by
  intro i p hp
  obtain ⟨g, h1, h2⟩ := hr.project i p hp
  obtain rfl := Option.some.inj h1
  rw [hf] at h2
  rw [← Option.some.inj h2]
  exact (mercator_roundtrip' ho p.pos).2

/-! ### UTM -/

theorem unshift (u : Utm) (x y ele : ℝ) : (if u.useOffset then (u.shift x y ele).x + u.xOffset else (u.shift x y ele).x) = x ∧
    (if u.useOffset then (u.shift x y ele).y + u.yOffset else (u.shift x y ele).y) = y ∧ (u.shift x y ele).z = ele := by
  unfold Utm.shift
  cases u.useOffset <;> simp

/-- C61: going to UTM coordinates and back gives the position, for all positions that can be projected. -/
theorem utm_roundtrip {lib : Lib} (hok : lib.Ok) {u : Utm} {g : Gps} {p : Pos} (h : u.forward lib g = .ok p) : u.reverse lib p = .ok g := by
  have h0 := h
  unfold Utm.forward at h
  cases hf : lib.forward g.lat g.lon with
  | none => rw [hf] at h; simp at h
  | some r =>
    obtain ⟨zone, north, x, y⟩ := r
    rw [hf] at h
    simp only at h
    have key : ∀ a b, lib.reverse u.zone u.north a b = some (g.lat, g.lon) → p = u.shift a b g.ele → u.reverse lib p = .ok g := by
      rintro a b hr rfl
      obtain ⟨e1, e2, e3⟩ := unshift u a b g.ele
      unfold Utm.reverse
      rw [e1, e2, e3, hr]
      simp only
      have eg : (⟨g.lat, g.lon, g.ele⟩ : Gps) = g := rfl
      rw [eg, h0]
      split <;> rfl
    by_cases hz : zone ≠ u.zone ∨ north ≠ u.north
    · rw [if_pos hz] at h
      by_cases ht : u.throwInPaddingArea = true
      · rw [if_pos ht] at h; simp at h
      · rw [if_neg ht] at h
        cases htr : lib.transfer zone north x y u.zone u.north with
        | none => rw [htr] at h; simp at h
        | some r =>
          obtain ⟨x', y', z'⟩ := r
          rw [htr] at h
          simp only at h
          by_cases hz' : z' ≠ u.zone
          · rw [if_pos hz'] at h; simp at h
          · rw [if_neg hz'] at h
            obtain rfl := not_not.mp hz'
            have := hok.transfer zone north x y u.zone u.north x' y' htr
            rw [hok.inverse _ _ _ _ _ _ hf] at this
            exact key x' y' this (Except.ok.inj h).symm
    · rw [if_neg hz] at h
      simp only [not_or, not_not] at hz
      obtain ⟨rfl, rfl⟩ := hz
      exact key x y (hok.inverse _ _ _ _ _ _ hf) (Except.ok.inj h).symm

theorem shift_eq {u : Utm} {p : Pos} : u.shift (if u.useOffset then p.x + u.xOffset else p.x) (if u.useOffset then p.y + u.yOffset else p.y) p.z = p := by
  unfold Utm.shift
  cases u.useOffset <;> simp

/-- C61: going from UTM coordinates to the position and back gives the coordinates, or the position can not be projected because it is outside of
the padding area of the zone, which can not happen if positions outside of the zone are rejected. -/
theorem utm_roundtrip' {lib : Lib} (hok : lib.Ok) {u : Utm} {g : Gps} {p : Pos} (h : u.reverse lib p = .ok g) :
    u.forward lib g = .ok p ∨ (u.throwInPaddingArea = false ∧ u.forward lib g = .error .forward) := by
  unfold Utm.reverse at h
  cases hr : lib.reverse u.zone u.north (if u.useOffset then p.x + u.xOffset else p.x) (if u.useOffset then p.y + u.yOffset else p.y) with
  | none => rw [hr] at h; simp at h
  | some r =>
    obtain ⟨lat, lon⟩ := r
    rw [hr] at h
    simp only at h
    have hg : g = ⟨lat, lon, p.z⟩ := by
      split at h
      · split at h
        · simp at h
        · exact (Except.ok.inj h).symm
      · exact (Except.ok.inj h).symm
    have hstrict : u.throwInPaddingArea = true → ∃ q, u.forward lib g = .ok q := by
      intro ht
      rw [if_pos ht, ← hg] at h
      cases hf : u.forward lib g with
      | error e => rw [hf] at h; simp at h
      | ok q => exact ⟨q, rfl⟩
    subst hg
    have key : u.forward lib ⟨lat, lon, p.z⟩ = .ok p ∨ u.forward lib ⟨lat, lon, p.z⟩ = .error .forward := by
      unfold Utm.forward
      simp only
      cases hf : lib.forward lat lon with
      | none => exact Or.inr rfl
      | some r =>
        obtain ⟨zone, north, x, y⟩ := r
        simp only
        by_cases hz : zone ≠ u.zone ∨ north ≠ u.north
        · rw [if_pos hz]
          by_cases ht : u.throwInPaddingArea = true
          · rw [if_pos ht]; exact Or.inr rfl
          · rw [if_neg ht]
            cases htr : lib.transfer zone north x y u.zone u.north with
            | none => exact Or.inr rfl
            | some r =>
              obtain ⟨x', y', z'⟩ := r
              simp only
              by_cases hz' : z' ≠ u.zone
              · rw [if_pos hz']; exact Or.inr rfl
              · rw [if_neg hz']
                obtain rfl := not_not.mp hz'
                obtain ⟨e1, e2⟩ := hok.transfer' lat lon u.zone u.north _ _ zone north x y x' y' hr hf htr
                left
                rw [e1, e2, shift_eq]
        · rw [if_neg hz]
          simp only [not_or, not_not] at hz
          obtain ⟨rfl, rfl⟩ := hz
          obtain ⟨e1, e2⟩ := hok.inverse' lat lon u.zone u.north _ _ x y hr hf
          left
          rw [e1, e2, shift_eq]
    rcases key with h1 | h1
    · exact Or.inl h1
    · cases ht : u.throwInPaddingArea with
      | false => exact Or.inr ⟨rfl, h1⟩
      | true =>
        obtain ⟨q, hq⟩ := hstrict ht
        rw [h1] at hq; simp at hq

/-- C61: with offset, the origin is at 0, 0. -/
theorem utm_origin {lib : Lib} {origin : Gps} {strict : Bool} {u : Utm} (h : Utm.make lib origin true strict = .ok u) :
    u.forward lib origin = .ok ⟨0, 0, origin.ele⟩ := by
  unfold Utm.make at h
  cases hf : lib.forward origin.lat origin.lon with
  | none => rw [hf] at h; simp at h
  | some r =>
    obtain ⟨zone, north, x, y⟩ := r
    rw [hf] at h
    obtain rfl := Except.ok.inj h
    unfold Utm.forward
    rw [hf]
    simp [Utm.shift]

/-- C61: the offset is a translation: the projector with offset gives the coordinates relative to those of the origin. -/
theorem utm_translation {lib : Lib} {origin : Gps} {strict : Bool} {u v : Utm} (hu : Utm.make lib origin true strict = .ok u)
    (hv : Utm.make lib origin false strict = .ok v) : ∃ o : Pos, v.forward lib origin = .ok o ∧
      ∀ g p, u.forward lib g = .ok p ↔ v.forward lib g = .ok ⟨p.x + o.x, p.y + o.y, p.z⟩ := by
  unfold Utm.make at hu hv
  cases hf : lib.forward origin.lat origin.lon with
  | none => rw [hf] at hu; simp at hu
  | some r =>
    obtain ⟨zone, north, x, y⟩ := r
    rw [hf] at hu hv
    obtain rfl := Except.ok.inj hu
    obtain rfl := Except.ok.inj hv
    refine ⟨⟨x, y, origin.ele⟩, ?_, ?_⟩
    · unfold Utm.forward; rw [hf]; simp [Utm.shift]
    · intro g p
      have key : ∀ a b e : ℝ, ((⟨a - x, b - y, e⟩ : Pos) = p ↔ (⟨a, b, e⟩ : Pos) = ⟨p.x + x, p.y + y, p.z⟩) := by
        intro a b e
        constructor
        · rintro rfl; simp
        · intro h
          injection h with h1 h2 h3
          obtain ⟨px, py, pz⟩ := p
          simp only at h1 h2 h3
          rw [h1, h2, h3]; simp
      unfold Utm.forward
      cases hg : lib.forward g.lat g.lon with
      | none => simp
      | some r =>
        obtain ⟨zone', north', x1, y1⟩ := r
        simp only
        split
        · split
          · simp
          · split
            · simp
            · split
              · simp
              · simp only [Utm.shift, if_true, Bool.false_eq_true, if_false, Except.ok.injEq]
                exact key _ _ _
        · simp only [Utm.shift, if_true, Bool.false_eq_true, if_false, Except.ok.injEq]
          exact key _ _ _

/-- C61: with throwInPaddingArea exactly the positions in the zone and hemisphere of the origin are projected. -/
theorem utm_strict {lib : Lib} {origin : Gps} {useOffset : Bool} {u : Utm} (h : Utm.make lib origin useOffset true = .ok u) (g : Gps) :
    (∃ p, u.forward lib g = .ok p) ↔ SameZone lib origin g := by
  unfold Utm.make at h
  cases hf : lib.forward origin.lat origin.lon with
  | none => rw [hf] at h; simp at h
  | some r =>
    obtain ⟨zone, north, x, y⟩ := r
    rw [hf] at h
    obtain rfl := Except.ok.inj h
    unfold Utm.forward SameZone
    rw [hf]
    cases hg : lib.forward g.lat g.lon with
    | none => simp
    | some r =>
      obtain ⟨zone', north', x1, y1⟩ := r
      simp only
      by_cases hz : zone' ≠ zone ∨ north' ≠ north
      · rw [if_pos hz]
        simp only [if_true]
        constructor
        · rintro ⟨p, hp⟩; simp at hp
        · rintro ⟨z, n, a, b, a', b', e1, e2⟩
          simp only [Option.some.injEq, Prod.mk.injEq] at e1 e2
          obtain ⟨rfl, rfl, -, -⟩ := e1
          obtain ⟨rfl, rfl, -, -⟩ := e2
          simp at hz
      · rw [if_neg hz]
        simp only [not_or, not_not] at hz
        obtain ⟨rfl, rfl⟩ := hz
        exact ⟨fun _ => ⟨_, _, _, _, _, _, rfl, rfl⟩, fun _ => ⟨_, rfl⟩⟩

/-! ### a library that meets the assumptions -/

/-- zones of 6 degrees along the equator, coordinates are degrees; positions more than 1 degree outside of the zone can not be transferred -/
noncomputable def flatLib : Lib where
  forward lat lon := some (⌊lon / 6⌋, decide (0 ≤ lat), lon - 6 * ⌊lon / 6⌋, lat)
  reverse z _ x y := some (y, x + 6 * z)
  transfer z _ x y z' _ := if |x + 6 * z - 6 * z' - 3| ≤ 4 then some (x + 6 * z - 6 * z', y, z') else none

theorem flatLib_ok : flatLib.Ok where
  inverse := by
    intro lat lon z n x y h
    simp only [flatLib, Option.some.injEq, Prod.mk.injEq] at h ⊢
    obtain ⟨rfl, -, rfl, rfl⟩ := h
    exact ⟨rfl, by ring⟩
  inverse' := by
    intro lat lon z n x y x' y' h1 h2
    simp only [flatLib, Option.some.injEq, Prod.mk.injEq] at h1 h2
    obtain ⟨rfl, rfl⟩ := h1
    obtain ⟨h3, -, h4, rfl⟩ := h2
    rw [h3] at h4
    exact ⟨by linarith, rfl⟩
  transfer := by
    intro z n x y z' n' x' y' h
    simp only [flatLib] at h ⊢
    split at h
    · simp only [Option.some.injEq, Prod.mk.injEq] at h
      obtain ⟨rfl, rfl, -⟩ := h
      simp only [Option.some.injEq, Prod.mk.injEq, true_and]
      ring
    · simp at h
  transfer' := by
    intro lat lon z n x y z' n' x' y' x'' y'' h1 h2 h3
    simp only [flatLib, Option.some.injEq, Prod.mk.injEq] at h1 h2 h3
    obtain ⟨rfl, rfl⟩ := h1
    obtain ⟨rfl, -, rfl, rfl⟩ := h2
    split at h3
    · simp only [Option.some.injEq, Prod.mk.injEq] at h3
      obtain ⟨rfl, rfl, -⟩ := h3
      exact ⟨by ring, rfl⟩
    · simp at h3

/-- a position in the padding area: it is projected to the zone of the origin, back and forth -/
example : ∃ u p, Utm.make flatLib ⟨10, 3, 0⟩ true false = .ok u ∧ u.forward flatLib ⟨20, 13 / 2, 5⟩ = .ok p ∧ p.x = 7 / 2 ∧
    u.reverse flatLib p = .ok ⟨20, 13 / 2, 5⟩ := by
  have f1 : ⌊(3 : ℝ) / 6⌋ = 0 := by rw [Int.floor_eq_iff]; norm_num
  have f2 : ⌊(13 / 2 : ℝ) / 6⌋ = 1 := by rw [Int.floor_eq_iff]; norm_num
  have h : Utm.forward flatLib ⟨0, true, true, false, 3, 10⟩ ⟨20, 13 / 2, 5⟩ = .ok ⟨7 / 2, 10, 5⟩ := by
    unfold Utm.forward flatLib Utm.shift
    simp only [f2]
    norm_num
  refine ⟨⟨0, true, true, false, 3, 10⟩, ⟨7 / 2, 10, 5⟩, ?_, h, rfl, utm_roundtrip flatLib_ok h⟩
  unfold Utm.make flatLib
  simp only [f1]
  norm_num

end Verif.Proj
