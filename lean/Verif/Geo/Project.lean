import Verif.Geo.Space

/-!
C41: projection on segments. Model of projectedPoint, lanelet2_core/src/LineStringGeometry.cpp 31-120, with exact arithmetic.
-/
namespace Verif.Geo

section
variable {F V : Type} [Field F] [LinearOrder F] [IsStrictOrderedRing F] [AddCommGroup V] [Module F V] [S : Space F V]

/-! ### model -/

/-- projectedPoint(l1, l2, p), LineStringGeometry.cpp 104-120; project(segment, point) 475-480 -/
def projectPoint (l1 l2 p : V) : V :=
  let v := l2 - l1
  let w := p - l1
  let c1 : F := dot w v
  if c1 ≤ 0 then l1 else
  let c2 : F := dot v v
  if c2 ≤ c1 then l2 else (c1 / c2) • v + l1

/-- LineParams, LineStringGeometry.cpp 21-26 -/
structure LineParams (F : Type) where
  sN : F
  sD : F
  tN : F
  tD : F

/-- calculateLineParams, LineStringGeometry.cpp 31-56; `small` is SmallNum = 1e-10 -/
def lineParams (small a b c d e den : F) : LineParams F :=
  if den < small then ⟨0, 1, e, c⟩ else
  let sN := b * e - c * d
  if sN < 0 then ⟨0, den, e, c⟩
  else if den < sN then ⟨den, den, e + b, c⟩
  else ⟨sN, den, a * e - b * d, den⟩

/-- LineStringGeometry.cpp 74-96: the parameters restricted to the segments -/
def clampParams (a b d : F) (lp : LineParams F) : LineParams F :=
  if lp.tN < 0 then
    if -d < 0 then { lp with tN := 0, sN := 0 }
    else if a < -d then { lp with tN := 0, sN := lp.sD }
    else { lp with tN := 0, sN := -d, sD := a }
  else if lp.tD < lp.tN then
    if -d + b < 0 then { lp with tN := lp.tD, sN := 0 }
    else if a < -d + b then { lp with tN := lp.tD, sN := lp.sD }
    else { lp with tN := lp.tD, sN := -d + b, sD := a }
  else lp

/-- LineStringGeometry.cpp 98-99. The code divides by zero nowhere: a zero denominator has a zero numerator (`params_range`). -/
def ratio (small n d : F) : F := if |n| < small then 0 else n / d

/-- the parameters for two segments with directions `u` and `v` and the difference `w` of their starts, LineStringGeometry.cpp 62-96 -/
def segmentParams (small : F) (w u v : V) : LineParams F :=
  let a : F := dot u u
  let b : F := dot u v
  let c : F := dot v v
  let d : F := dot u w
  let e : F := dot v w
  clampParams a b d (lineParams small a b c d e (a * c - b * b))

/-- projectedPoint(p1, p2, q1, q2), LineStringGeometry.cpp 58-102 -/
def projectSegments (small : F) (p1 p2 q1 q2 : V) : V × V :=
  let w := p1 - q1
  let u := p2 - p1
  let v := q2 - q1
  let lp := segmentParams small w u v
  (p1 + ratio small lp.sN lp.sD • u, q1 + ratio small lp.tN lp.tD • v)

/-! ### point and segment -/

/-- C41: the projection is on the segment and no point of the segment is closer. -/
theorem projectPoint_nearest (l1 l2 p : V) :
    OnSegment l1 l2 (projectPoint l1 l2 p) ∧ ∀ x, OnSegment l1 l2 x → dist (projectPoint l1 l2 p) p ≤ dist x p := by
  have key : ∀ t0 : F, 0 ≤ t0 → t0 ≤ 1 → (∀ t : F, 0 ≤ t → t ≤ 1 → 0 ≤ (t - t0) * (t0 * dot (l2 - l1) (l2 - l1) - dot (p - l1) (l2 - l1))) →
      OnSegment l1 l2 (l1 + t0 • (l2 - l1)) ∧ ∀ x, OnSegment l1 l2 x → dist (l1 + t0 • (l2 - l1)) p ≤ dist x p := by
    intro t0 h0 h1 hopt
    refine ⟨⟨t0, h0, h1, rfl⟩, ?_⟩
    rintro x ⟨t, ht0, ht1, rfl⟩
    rw [dist_le_iff]
    have e : ∀ t : F, dot (l1 + t • (l2 - l1) - p) (l1 + t • (l2 - l1) - p) =
        t * t * dot (l2 - l1) (l2 - l1) - 2 * t * dot (p - l1) (l2 - l1) + dot (p - l1) (p - l1) := by
      intro t
      have : l1 + t • (l2 - l1) - p = t • (l2 - l1) - (p - l1) := by abel
      rw [this]
      simp only [dot_sub_left (t • (l2 - l1)), dot_sub_right (t • (l2 - l1)), dot_smul_left, dot_smul_right]
      rw [dot_comm (l2 - l1) (p - l1)]; ring
    rw [e, e]
    have h2 := hopt t ht0 ht1
    have h3 := dot_self_nonneg (l2 - l1)
    nlinarith [mul_nonneg (mul_self_nonneg (t - t0)) h3]
  have hv := dot_self_nonneg (l2 - l1)
  unfold projectPoint
  simp only
  split
  · rename_i hc
    have := key 0 (le_refl _) zero_le_one fun t h0 h1 => by nlinarith
    simpa using this
  · rename_i hc
    have hc := not_le.mp hc
    split
    · rename_i hc2
      have := key 1 zero_le_one (le_refl _) fun t h0 h1 => by nlinarith
      simpa using this
    · rename_i hc2
      have hc2 := not_le.mp hc2
      have hp : (0 : F) < dot (l2 - l1) (l2 - l1) := lt_trans hc hc2
      have := key (dot (p - l1) (l2 - l1) / dot (l2 - l1) (l2 - l1)) (div_nonneg hc.le hp.le) ((div_le_one hp).mpr hc2.le)
        fun t h0 h1 => by rw [div_mul_cancel₀ _ hp.ne', sub_self, mul_zero]
      rw [add_comm]
      exact this

/-- with the projection of a point strictly inside the segment the connection is perpendicular -/
theorem projectPoint_perp {l1 l2 p : V} (h1 : projectPoint l1 l2 p ≠ l1) (h2 : projectPoint l1 l2 p ≠ l2) :
    dot (p - projectPoint l1 l2 p) (l2 - l1) = 0 := by
  unfold projectPoint at h1 h2 ⊢
  simp only at h1 h2 ⊢
  split at h1
  · exact absurd rfl h1
  · split at h1
    · rename_i hc2; rw [if_pos hc2] at h2; rename_i hc; rw [if_neg hc] at h2; exact absurd rfl h2
    · rename_i hc hc2
      rw [if_neg hc, if_neg hc2]
      have hp : (0 : F) < dot (l2 - l1) (l2 - l1) := lt_trans (not_le.mp hc) (not_le.mp hc2)
      have : p - ((dot (p - l1) (l2 - l1) / dot (l2 - l1) (l2 - l1) : F) • (l2 - l1) + l1) =
          (p - l1) - (dot (p - l1) (l2 - l1) / dot (l2 - l1) (l2 - l1) : F) • (l2 - l1) := by abel
      rw [this, dot_sub_left, dot_smul_left, div_mul_cancel₀ _ hp.ne', sub_self]

end

/-! ### two segments -/

section
variable {F : Type} [Field F] [LinearOrder F] [IsStrictOrderedRing F]

/-- the squared distance of the points with parameters `s` and `t`, without the constant part; Helper of the proofs. -/
def sq (a b c d e s t : F) : F := 2 * d * s - 2 * e * t + a * s * s - 2 * b * s * t + c * t * t

theorem params_range {small a b c d e : F} (ha : 0 ≤ a) (hc : 0 ≤ c) (hs : 0 < small) :
    let lp := clampParams a b d (lineParams small a b c d e (a * c - b * b))
    0 ≤ lp.sN ∧ lp.sN ≤ lp.sD ∧ 0 ≤ lp.tN ∧ lp.tN ≤ lp.tD := by
  have h1 : let lp := lineParams small a b c d e (a * c - b * b)
      0 ≤ lp.sN ∧ lp.sN ≤ lp.sD ∧ 0 ≤ lp.tD := by
    unfold lineParams
    simp only
    split
    · exact ⟨le_refl _, zero_le_one, hc⟩
    · rename_i hd
      have hden := lt_of_lt_of_le hs (not_lt.mp hd)
      split
      · exact ⟨le_refl _, hden.le, hc⟩
      · rename_i hn
        split
        · exact ⟨hden.le, le_refl _, hc⟩
        · rename_i hn2
          exact ⟨not_lt.mp hn, not_lt.mp hn2, hden.le⟩
  generalize lineParams small a b c d e (a * c - b * b) = lp at h1
  simp only at h1
  obtain ⟨h1, h2, h3⟩ := h1
  unfold clampParams
  simp only
  split
  · split
    · exact ⟨le_refl _, le_trans h1 h2, le_refl _, h3⟩
    · rename_i hd
      split
      · exact ⟨le_trans h1 h2, le_refl _, le_refl _, h3⟩
      · rename_i hd2
        exact ⟨not_lt.mp hd, not_lt.mp hd2, le_refl _, h3⟩
  · rename_i ht
    split
    · split
      · exact ⟨le_refl _, le_trans h1 h2, h3, le_refl _⟩
      · rename_i hd
        split
        · exact ⟨le_trans h1 h2, le_refl _, h3, le_refl _⟩
        · rename_i hd2
          exact ⟨not_lt.mp hd, not_lt.mp hd2, h3, le_refl _⟩
    · rename_i ht2
      exact ⟨h1, h2, not_lt.mp ht, not_lt.mp ht2⟩

theorem ratio_range {small n d : F} (hs : 0 < small) (h1 : 0 ≤ n) (h2 : n ≤ d) : 0 ≤ ratio small n d ∧ ratio small n d ≤ 1 := by
  unfold ratio
  split
  · exact ⟨le_refl _, zero_le_one⟩
  · rename_i h
    have hn : 0 < n := lt_of_lt_of_le hs (by rw [abs_of_nonneg h1] at h; exact not_lt.mp h)
    exact ⟨div_nonneg h1 (le_trans h1 h2), (div_le_one (lt_of_lt_of_le hn h2)).mpr h2⟩

/-- going from the best point of the strip `0 ≤ s ≤ 1` to any point of the square, the distance does not decrease; thus the border
`t = τ` between them has a point that is at least as good -/
theorem sq_border {a b c d e : F} (hQ : ∀ p q : F, 0 ≤ a * p * p - 2 * b * p * q + c * q * q) {s1 t1 s t τ : F}
    (h1 : sq a b c d e s1 t1 ≤ sq a b c d e s t) (hs1 : 0 ≤ s1) (hs1' : s1 ≤ 1) (hs : 0 ≤ s) (hs' : s ≤ 1)
    (hτ : (t1 < τ ∧ τ ≤ t) ∨ (τ < t1 ∧ t ≤ τ)) :
    ∃ s2, 0 ≤ s2 ∧ s2 ≤ 1 ∧ sq a b c d e s2 τ ≤ sq a b c d e s t := by
  have hne : t - t1 ≠ 0 := by rcases hτ with ⟨h, h'⟩ | ⟨h, h'⟩ <;> intro hc <;> linarith
  -- τ = t1 + l (t - t1)
  obtain ⟨l, hl0, hl1, hl⟩ : ∃ l : F, 0 ≤ l ∧ l ≤ 1 ∧ τ = t1 + l * (t - t1) := by
    refine ⟨(τ - t1) / (t - t1), ?_, ?_, ?_⟩
    · rcases hτ with ⟨h, h'⟩ | ⟨h, h'⟩
      · exact div_nonneg (by linarith) (by linarith)
      · exact div_nonneg_of_nonpos (by linarith) (by linarith)
    · rcases hτ with ⟨h, h'⟩ | ⟨h, h'⟩
      · exact (div_le_one (by linarith)).mpr (by linarith)
      · rw [div_le_one_of_neg (by linarith)]; linarith
    · rw [div_mul_cancel₀ _ hne]; ring
  refine ⟨s1 + l * (s - s1), ?_, ?_, ?_⟩
  · nlinarith [mul_nonneg hl0 hs, mul_nonneg (sub_nonneg.mpr hl1) hs1]
  · nlinarith [mul_nonneg hl0 (sub_nonneg.mpr hs'), mul_nonneg (sub_nonneg.mpr hl1) (sub_nonneg.mpr hs1')]
  · have e : sq a b c d e (s1 + l * (s - s1)) τ = (1 - l) * sq a b c d e s1 t1 + l * sq a b c d e s t -
        l * (1 - l) * (a * (s - s1) * (s - s1) - 2 * b * (s - s1) * (t - t1) + c * (t - t1) * (t - t1)) := by
      rw [hl]; unfold sq; ring
    rw [e]
    have h2 := hQ (s - s1) (t - t1)
    have h3 : 0 ≤ l * (1 - l) * (a * (s - s1) * (s - s1) - 2 * b * (s - s1) * (t - t1) + c * (t - t1) * (t - t1)) :=
      mul_nonneg (mul_nonneg hl0 (by linarith)) h2
    have h4 := mul_le_mul_of_nonneg_left h1 (sub_nonneg.mpr hl1)
    linarith

/-- the best `s` for a given `t`: clamp((b t - d) / a) -/
theorem sq_best_s {a b c d e : F} (ha : 0 ≤ a) (had : a = 0 → d = 0 ∧ b = 0) {τ m : F} (hm : m = b * τ - d) {n : F}
    (h : (m < 0 ∧ n = 0) ∨ (a < m ∧ n = 1) ∨ (0 ≤ m ∧ m ≤ a ∧ n = m / a)) {s : F} (hs : 0 ≤ s) (hs' : s ≤ 1) :
    sq a b c d e n τ ≤ sq a b c d e s τ := by
  have e1 : ∀ s, sq a b c d e s τ = a * s * s - 2 * m * s - 2 * e * τ + c * τ * τ := by
    intro s; rw [hm]; unfold sq; ring
  rw [e1, e1]
  rcases h with ⟨h1, rfl⟩ | ⟨h1, rfl⟩ | ⟨h1, h2, h3⟩
  · nlinarith [mul_nonneg ha (mul_self_nonneg s), mul_nonneg (neg_nonneg.mpr h1.le) hs]
  · nlinarith [mul_nonneg ha (mul_self_nonneg (1 - s)), mul_nonneg (sub_nonneg.mpr h1.le) (sub_nonneg.mpr hs')]
  · rcases ha.eq_or_lt with h0 | h0
    · obtain ⟨hd, hb⟩ := had h0.symm
      have : m = 0 := by rw [hm, hd, hb]; ring
      rw [h3, this, ← h0]; simp
    · have h4 : a * n = m := by rw [h3, mul_div_cancel₀ _ h0.ne']
      have : a * s * s - 2 * m * s - (a * n * n - 2 * m * n) = a * ((s - n) * (s - n)) := by rw [← h4]; ring
      have := mul_nonneg ha (mul_self_nonneg (s - n))
      linarith

/-- the point before clamping `t` is the best one of the strip -/
theorem sq_strip {small a b c d e : F} (hs : 0 < small) (hc : 0 < c)
    (hden : a * c - b * b = 0 ∨ small ≤ a * c - b * b) (hK : a * c - b * b = 0 → b * e - c * d = 0) :
    let lp := lineParams small a b c d e (a * c - b * b)
    ∀ s t, 0 ≤ s → s ≤ 1 → sq a b c d e (lp.sN / lp.sD) (lp.tN / lp.tD) ≤ sq a b c d e s t := by
  have e1 : ∀ s t, c * sq a b c d e s t = (c * t - e - b * s) * (c * t - e - b * s) +
      ((a * c - b * b) * s * s - 2 * (b * e - c * d) * s) - e * e := by
    intro s t; unfold sq; ring
  have key : ∀ s1 t1, c * t1 = e + b * s1 → (∀ s, 0 ≤ s → s ≤ 1 →
      (a * c - b * b) * s1 * s1 - 2 * (b * e - c * d) * s1 ≤ (a * c - b * b) * s * s - 2 * (b * e - c * d) * s) →
      ∀ s t, 0 ≤ s → s ≤ 1 → sq a b c d e s1 t1 ≤ sq a b c d e s t := by
    intro s1 t1 h1 h2 s t h3 h4
    refine le_of_mul_le_mul_left ?_ hc
    rw [e1, e1]
    have h5 : c * t1 - e - b * s1 = 0 := by rw [h1]; ring
    rw [h5]
    have := h2 s h3 h4
    have := mul_self_nonneg (c * t - e - b * s)
    linarith
  unfold lineParams
  simp only
  generalize hD : a * c - b * b = D at *
  generalize hKK : b * e - c * d = K at *
  split
  · rename_i hlt
    have h0 : D = 0 := hden.resolve_right (not_le.mpr hlt)
    refine key _ _ ?_ ?_
    · rw [zero_div, mul_div_cancel₀ _ hc.ne']; ring
    · intro s _ _; rw [h0, hK h0]; simp
  · rename_i hlt
    have hp : 0 < D := lt_of_lt_of_le hs (not_lt.mp hlt)
    split
    · rename_i hn
      refine key _ _ ?_ ?_
      · rw [zero_div, mul_div_cancel₀ _ hc.ne']; ring
      · intro s h1 h2
        rw [zero_div]
        nlinarith [mul_nonneg hp.le (mul_self_nonneg s), mul_nonneg (neg_nonneg.mpr hn.le) h1]
    · rename_i hn
      split
      · rename_i hn2
        refine key _ _ ?_ ?_
        · rw [div_self hp.ne', mul_div_cancel₀ _ hc.ne']; ring
        · intro s h1 h2
          rw [div_self hp.ne']
          nlinarith [mul_nonneg hp.le (mul_self_nonneg (1 - s)), mul_nonneg (sub_nonneg.mpr hn2.le) (sub_nonneg.mpr h2)]
      · refine key _ _ ?_ ?_
        · have : c * ((a * e - b * d) / D) * D = (e + b * (K / D)) * D := by
            rw [mul_assoc, div_mul_cancel₀ _ hp.ne', add_mul, mul_assoc b, div_mul_cancel₀ _ hp.ne', ← hD, ← hKK]; ring
          exact mul_right_cancel₀ hp.ne' this
        · intro s h1 h2
          have h3 : D * (K / D) = K := mul_div_cancel₀ _ hp.ne'
          generalize K / D = x at h3
          have : D * s * s - 2 * K * s - (D * x * x - 2 * K * x) = D * ((s - x) * (s - x)) := by rw [← h3]; ring
          have := mul_nonneg hp.le (mul_self_nonneg (s - x))
          linarith

/-- the parameters are optimal -/
theorem sq_optimal {small a b c d e : F} (hs : 0 < small) (ha : 0 ≤ a) (hc : 0 < c)
    (hQ : ∀ p q : F, 0 ≤ a * p * p - 2 * b * p * q + c * q * q) (had : a = 0 → d = 0 ∧ b = 0)
    (hden : a * c - b * b = 0 ∨ small ≤ a * c - b * b) (hK : a * c - b * b = 0 → b * e - c * d = 0) :
    let lp := clampParams a b d (lineParams small a b c d e (a * c - b * b))
    ∀ s t, 0 ≤ s → s ≤ 1 → 0 ≤ t → t ≤ 1 → sq a b c d e (lp.sN / lp.sD) (lp.tN / lp.tD) ≤ sq a b c d e s t := by
  have h1 := sq_strip (e := e) hs hc hden hK
  have h2 : let lp := lineParams small a b c d e (a * c - b * b)
      0 ≤ lp.sN ∧ lp.sN ≤ lp.sD ∧ 0 < lp.sD ∧ 0 < lp.tD := by
    unfold lineParams
    simp only
    split
    · exact ⟨le_refl _, zero_le_one, zero_lt_one, hc⟩
    · rename_i hd
      have hp := lt_of_lt_of_le hs (not_lt.mp hd)
      split
      · exact ⟨le_refl _, hp.le, hp, hc⟩
      · rename_i hn
        split
        · exact ⟨hp.le, le_refl _, hp, hc⟩
        · rename_i hn2
          exact ⟨not_lt.mp hn, not_lt.mp hn2, hp, hp⟩
  generalize lineParams small a b c d e (a * c - b * b) = lp at h1 h2
  simp only at h1 h2
  obtain ⟨hs0, hs1, hsD, htD⟩ := h2
  have hr0 : 0 ≤ lp.sN / lp.sD := div_nonneg hs0 hsD.le
  have hr1 : lp.sN / lp.sD ≤ 1 := (div_le_one hsD).mpr hs1
  intro lp' s t hs hs' ht ht'
  have hstrip := h1 s t hs hs'
  show sq a b c d e ((clampParams a b d lp).sN / (clampParams a b d lp).sD)
    ((clampParams a b d lp).tN / (clampParams a b d lp).tD) ≤ _
  unfold clampParams
  split
  · rename_i htn
    have ht1 : lp.tN / lp.tD < 0 := div_neg_of_neg_of_pos htn htD
    obtain ⟨s2, hs2, hs2', hle⟩ := sq_border hQ hstrip hr0 hr1 hs hs' (.inl ⟨ht1, ht⟩)
    have hbest : ∀ n, (-d < 0 ∧ n = 0) ∨ (a < -d ∧ n = 1) ∨ (0 ≤ -d ∧ -d ≤ a ∧ n = -d / a) →
        sq a b c d e n 0 ≤ sq a b c d e s t :=
      fun n hn => le_trans (sq_best_s ha had (τ := 0) (m := -d) (by ring) hn hs2 hs2') hle
    split
    · rename_i hd
      simp only [zero_div]
      exact hbest 0 (.inl ⟨hd, rfl⟩)
    · rename_i hd
      split
      · rename_i hd2
        simp only [zero_div, div_self hsD.ne']
        exact hbest 1 (.inr (.inl ⟨hd2, rfl⟩))
      · rename_i hd2
        simp only [zero_div]
        exact hbest _ (.inr (.inr ⟨not_lt.mp hd, not_lt.mp hd2, rfl⟩))
  · rename_i htn
    split
    · rename_i htn2
      have ht1 : 1 < lp.tN / lp.tD := (one_lt_div htD).mpr htn2
      obtain ⟨s2, hs2, hs2', hle⟩ := sq_border hQ hstrip hr0 hr1 hs hs' (.inr ⟨ht1, ht'⟩)
      have hbest : ∀ n, (-d + b < 0 ∧ n = 0) ∨ (a < -d + b ∧ n = 1) ∨ (0 ≤ -d + b ∧ -d + b ≤ a ∧ n = (-d + b) / a) →
          sq a b c d e n 1 ≤ sq a b c d e s t :=
        fun n hn => le_trans (sq_best_s ha had (τ := 1) (m := -d + b) (by ring) hn hs2 hs2') hle
      split
      · rename_i hd
        simp only [zero_div, div_self htD.ne']
        exact hbest 0 (.inl ⟨hd, rfl⟩)
      · rename_i hd
        split
        · rename_i hd2
          simp only [div_self htD.ne', div_self hsD.ne']
          exact hbest 1 (.inr (.inl ⟨hd2, rfl⟩))
        · rename_i hd2
          simp only [div_self htD.ne']
          exact hbest _ (.inr (.inr ⟨not_lt.mp hd, not_lt.mp hd2, rfl⟩))
    · exact hstrip

/-- denominators of the parameters -/
theorem params_den {small a b c d e : F} :
    let lp := clampParams a b d (lineParams small a b c d e (a * c - b * b))
    (lp.sD = 1 ∨ lp.sD = a ∨ (small ≤ a * c - b * b ∧ lp.sD = a * c - b * b)) ∧
    (lp.tD = c ∨ (small ≤ a * c - b * b ∧ lp.tD = a * c - b * b)) := by
  have h1 : let lp := lineParams small a b c d e (a * c - b * b)
      (lp.sD = 1 ∨ lp.sD = a ∨ (small ≤ a * c - b * b ∧ lp.sD = a * c - b * b)) ∧
      (lp.tD = c ∨ (small ≤ a * c - b * b ∧ lp.tD = a * c - b * b)) := by
    unfold lineParams
    simp only
    split
    · exact ⟨.inl rfl, .inl rfl⟩
    · rename_i hd
      have hd := not_lt.mp hd
      split
      · exact ⟨.inr (.inr ⟨hd, rfl⟩), .inl rfl⟩
      · split
        · exact ⟨.inr (.inr ⟨hd, rfl⟩), .inl rfl⟩
        · exact ⟨.inr (.inr ⟨hd, rfl⟩), .inr ⟨hd, rfl⟩⟩
  generalize lineParams small a b c d e (a * c - b * b) = lp at h1
  simp only at h1
  obtain ⟨h1, h2⟩ := h1
  unfold clampParams
  simp only
  split
  · split
    · exact ⟨h1, h2⟩
    · split
      · exact ⟨h1, h2⟩
      · exact ⟨.inr (.inl rfl), h2⟩
  · split
    · split
      · exact ⟨h1, h2⟩
      · split
        · exact ⟨h1, h2⟩
        · exact ⟨.inr (.inl rfl), h2⟩
    · exact ⟨h1, h2⟩

theorem ratio_error {small n d ε : F} (hn : 0 ≤ n) (hd : 0 < d) (h : small ≤ ε * d) (hε : 0 ≤ ε) : |ratio small n d - n / d| ≤ ε := by
  unfold ratio
  split
  · rename_i hlt
    rw [abs_of_nonneg hn] at hlt
    rw [zero_sub, abs_neg, abs_of_nonneg (div_nonneg hn hd.le), div_le_iff₀ hd]
    linarith
  · simpa using hε

end

section
variable {F V : Type} [Field F] [LinearOrder F] [IsStrictOrderedRing F] [AddCommGroup V] [Module F V] [S : Space F V]

/-- C42: the two points are on their segments. -/
theorem projectSegments_on {small : F} (hs : 0 < small) (p1 p2 q1 q2 : V) :
    OnSegment p1 p2 (projectSegments small p1 p2 q1 q2).1 ∧ OnSegment q1 q2 (projectSegments small p1 p2 q1 q2).2 := by
  have h := params_range (b := dot (p2 - p1) (q2 - q1)) (d := dot (p2 - p1) (p1 - q1)) (e := dot (q2 - q1) (p1 - q1))
    (dot_self_nonneg (p2 - p1)) (dot_self_nonneg (q2 - q1)) hs
  obtain ⟨h1, h2, h3, h4⟩ := h
  obtain ⟨r1, r2⟩ := ratio_range hs h1 h2
  obtain ⟨r3, r4⟩ := ratio_range hs h3 h4
  exact ⟨⟨_, r1, r2, rfl⟩, ⟨_, r3, r4, rfl⟩⟩

/-- C42: no two points of the segments are closer, up to an error of `ε` times the length of the segments: `ε` bounds SmallNum relative
to the squared lengths of the segments and, unless they are parallel, to the squared area between them. The first segment may be
a single point, not the second. -/
theorem projectSegments_nearest_partial {small ε : F} (hs : 0 < small) {p1 p2 q1 q2 : V} (hq : q1 ≠ q2)
    (h1 : small ≤ ε) (ha : p1 = p2 ∨ small ≤ ε * dot (p2 - p1) (p2 - p1)) (hc : small ≤ ε * dot (q2 - q1) (q2 - q1))
    (hd : let area := dot (p2 - p1) (p2 - p1) * dot (q2 - q1) (q2 - q1) - dot (p2 - p1) (q2 - q1) * dot (p2 - p1) (q2 - q1)
      area = 0 ∨ (small ≤ area ∧ small ≤ ε * area))
    {x y : V} (hx : OnSegment p1 p2 x) (hy : OnSegment q1 q2 y) :
    dist (projectSegments small p1 p2 q1 q2).1 (projectSegments small p1 p2 q1 q2).2 ≤
      dist x y + ε * (dist p1 p2 + dist q1 q2) := by
  obtain ⟨s, hs0, hs1, rfl⟩ := hx
  obtain ⟨t, ht0, ht1, rfl⟩ := hy
  have hε : 0 ≤ ε := le_trans hs.le h1
  simp only at hd
  have hv : q2 - q1 ≠ 0 := sub_ne_zero.mpr (Ne.symm hq)
  have hcpos : (0 : F) < dot (q2 - q1) (q2 - q1) := S.dot_pos _ hv
  have hapos : (0 : F) ≤ dot (p2 - p1) (p2 - p1) := dot_self_nonneg _
  show dist (p1 + ratio small (segmentParams small (p1 - q1) (p2 - p1) (q2 - q1)).sN (segmentParams small (p1 - q1) (p2 - p1) (q2 - q1)).sD • (p2 - p1))
    (q1 + ratio small (segmentParams small (p1 - q1) (p2 - p1) (q2 - q1)).tN (segmentParams small (p1 - q1) (p2 - p1) (q2 - q1)).tD • (q2 - q1)) ≤ _
  have hu0 : p1 = p2 ↔ p2 - p1 = 0 := by rw [sub_eq_zero]; exact eq_comm
  have e1 : dist p1 p2 = norm (p2 - p1) := dist_comm p1 p2
  have e2 : dist q1 q2 = norm (q2 - q1) := dist_comm q1 q2
  rw [e1, e2]
  rw [hu0] at ha
  have hpt : ∀ s t : F, dist (p1 + s • (p2 - p1)) (q1 + t • (q2 - q1)) = norm ((p1 - q1) + s • (p2 - p1) - t • (q2 - q1)) := by
    intro s t; unfold dist; congr 1; abel
  rw [hpt, hpt]
  generalize p1 - q1 = w at *
  generalize p2 - p1 = u at *
  generalize q2 - q1 = v at *
  -- the exact optimum
  have hsq : ∀ s t : F, dot (w + s • u - t • v) (w + s • u - t • v) =
      sq (dot u u) (dot u v) (dot v v) (dot u w) (dot v w) s t + dot w w := by
    intro s t
    unfold sq
    simp only [dot_sub_left, dot_sub_right, dot_add_left, dot_add_right, dot_smul_left, dot_smul_right]
    rw [dot_comm w u, dot_comm w v, dot_comm v u]; ring
  have hQ : ∀ p q : F, 0 ≤ dot u u * p * p - 2 * dot u v * p * q + dot v v * q * q := by
    intro p q
    have := dot_self_nonneg (p • u - q • v)
    simp only [dot_sub_left, dot_sub_right, dot_smul_left, dot_smul_right] at this
    rw [dot_comm v u] at this
    nlinarith
  have had : (dot u u : F) = 0 → (dot u w : F) = 0 ∧ (dot u v : F) = 0 := by
    intro h
    rw [dot_self_eq_zero.mp h]
    exact ⟨dot_zero_left _, dot_zero_left _⟩
  have hK : (dot u u * dot v v - dot u v * dot u v : F) = 0 → (dot u v * dot v w - dot v v * dot u w : F) = 0 := by
    intro h
    have := parallel_of_dot_sq h
    have := congrArg (fun z => (dot z w : F)) this
    simp only [dot_smul_left] at this
    rw [this, sub_self]
  have hopt := sq_optimal (e := dot v w) hs hapos hcpos hQ had (hd.imp id And.left) hK s t hs0 hs1 ht0 ht1
  have hrange := params_range (small := small) (b := dot u v) (d := dot u w) (e := dot v w) hapos hcpos.le hs
  have hden := params_den (small := small) (a := dot u u) (b := dot u v) (c := dot v v) (d := dot u w) (e := dot v w)
  change sq _ _ _ _ _ ((segmentParams small w u v).sN / (segmentParams small w u v).sD)
    ((segmentParams small w u v).tN / (segmentParams small w u v).tD) ≤ _ at hopt
  change 0 ≤ (segmentParams small w u v).sN ∧ (segmentParams small w u v).sN ≤ (segmentParams small w u v).sD ∧
    0 ≤ (segmentParams small w u v).tN ∧ (segmentParams small w u v).tN ≤ (segmentParams small w u v).tD at hrange
  change ((segmentParams small w u v).sD = 1 ∨ (segmentParams small w u v).sD = dot u u ∨ _ ∧ (segmentParams small w u v).sD = _) ∧
    ((segmentParams small w u v).tD = dot v v ∨ _ ∧ (segmentParams small w u v).tD = _) at hden
  generalize segmentParams small w u v = lp at *
  obtain ⟨r1, r2, r3, r4⟩ := hrange
  have hexact : norm (w + (lp.sN / lp.sD) • u - (lp.tN / lp.tD) • v) ≤ norm (w + s • u - t • v) := by
    rw [norm_le_iff, hsq, hsq]; linarith
  -- the error
  have hse : |ratio small lp.sN lp.sD - lp.sN / lp.sD| * norm u ≤ ε * norm u := by
    by_cases hu : u = 0
    · rw [hu, norm_zero, mul_zero, mul_zero]
    · have hup : (0 : F) < dot u u := S.dot_pos u hu
      refine mul_le_mul_of_nonneg_right ?_ (norm_nonneg u)
      rcases hden.1 with h | h | ⟨h, h'⟩
      · exact ratio_error r1 (by rw [h]; exact zero_lt_one) (by rw [h, mul_one]; exact h1) hε
      · exact ratio_error r1 (by rw [h]; exact hup) (by rw [h]; exact ha.resolve_left hu) hε
      · have hp : (0 : F) < dot u u * dot v v - dot u v * dot u v := lt_of_lt_of_le hs h
        exact ratio_error r1 (by rw [h']; exact hp) (by rw [h']; exact (hd.resolve_left hp.ne').2) hε
  have hte : |ratio small lp.tN lp.tD - lp.tN / lp.tD| ≤ ε := by
    rcases hden.2 with h | ⟨h, h'⟩
    · exact ratio_error r3 (by rw [h]; exact hcpos) (by rw [h]; exact hc) hε
    · have hp : (0 : F) < dot u u * dot v v - dot u v * dot u v := lt_of_lt_of_le hs h
      exact ratio_error r3 (by rw [h']; exact hp) (by rw [h']; exact (hd.resolve_left hp.ne').2) hε
  have hte' := mul_le_mul_of_nonneg_right hte (norm_nonneg v)
  generalize ratio small lp.sN lp.sD = sc at *
  generalize ratio small lp.tN lp.tD = tc at *
  have e3 : w + sc • u - tc • v = (w + (lp.sN / lp.sD) • u - (lp.tN / lp.tD) • v) +
      ((sc - lp.sN / lp.sD) • u + -((tc - lp.tN / lp.tD) • v)) := by module
  rw [e3]
  have h5 := norm_add_le (w + (lp.sN / lp.sD) • u - (lp.tN / lp.tD) • v) ((sc - lp.sN / lp.sD) • u + -((tc - lp.tN / lp.tD) • v))
  have h6 := norm_add_le ((sc - lp.sN / lp.sD) • u) (-((tc - lp.tN / lp.tD) • v))
  rw [norm_neg, norm_smul, norm_smul] at h6
  linarith

end
end Verif.Geo
