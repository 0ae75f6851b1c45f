import Verif.Geo.Arc
import Verif.Geo.Plane
import Mathlib.Tactic.LinearCombination
import Mathlib.Tactic.FieldSimp

/-!
C44: arc coordinates. Model of signedDistance, toArcCoordinates and fromArcCoordinates,
lanelet2_core/include/lanelet2_core/geometry/impl/LineString.h, with exact arithmetic. Points are compared exactly
(boost::geometry::equals has a tolerance of a few ulps).
-/
namespace Verif.Geo

/-! ### model -/

/-- the z component of crossProd, impl/LineString.h 38-40 -/
noncomputable def cross (u v : ℝ × ℝ) : ℝ := u.1 * v.2 - u.2 * v.1

/-- pointIsLeftOf, impl/LineString.h 51-54 -/
noncomputable def pointIsLeftOf (a b p : ℝ × ℝ) : Bool := decide (0 < cross (b - a) (p - a))

/-- isLeftOf, impl/LineString.h 77-94 with findPoint 46-49: `closest` is the closest segment, `proj` the projected point -/
noncomputable def isLeftOf (l : List (ℝ × ℝ)) (p : ℝ × ℝ) (closest : (ℝ × ℝ) × (ℝ × ℝ)) (proj : ℝ × ℝ) : Except Fault Bool :=
  let isLeft := pointIsLeftOf closest.1 closest.2 p
  if closest.2 = proj then
    match l.dropWhile fun x => decide (x ≠ closest.2) with
    | [] => .error .ub
    | [_] => .ok isLeft
    | _ :: next :: _ =>
      if isLeft ≠ pointIsLeftOf closest.2 next p ∧ isLeft = pointIsLeftOf closest.1 closest.2 next then .ok (!isLeft) else .ok isLeft
  else .ok isLeft

/-- signedDistanceImpl, impl/LineString.h 127-137: the signed distance, the closest segment and the projected point -/
noncomputable def signedDistanceImpl (ix : Index ℝ (ℝ × ℝ)) (l : List (ℝ × ℝ)) (p : ℝ × ℝ) :
    Except Fault (ℝ × ((ℝ × ℝ) × (ℝ × ℝ)) × (ℝ × ℝ)) := do
  let r ← projectLine ix l p
  let proj := projectPoint r.segm.1 r.segm.2 p
  let d := dist proj p
  let left ← isLeftOf l p r.segm proj
  return (if left then d else -d, r.segm, proj)

/-- primitives/Point.h 98-101. -/
structure ArcCoordinates where
  length : ℝ
  distance : ℝ

/-- the loop of toArcCoordinates, impl/LineString.h 729-737 -/
noncomputable def lengthUntil (a : ℝ × ℝ) : List (ℝ × ℝ) → ℝ
  | x :: y :: l => if x = a then 0 else dist x y + lengthUntil a (y :: l)
  | _ => 0

/-- toArcCoordinates, impl/LineString.h 723-740 -/
noncomputable def toArcCoordinates (ix : Index ℝ (ℝ × ℝ)) (l : List (ℝ × ℝ)) (p : ℝ × ℝ) : Except Fault ArcCoordinates := do
  let r ← signedDistanceImpl ix l p
  return ⟨lengthUntil r.2.1.1 l + dist r.2.1.1 r.2.2, r.1⟩

/-- Eigen's normalized(); impl/LineString.h 169-210, 832-854 -/
noncomputable def normalized (v : ℝ × ℝ) : ℝ × ℝ := if 0 < norm v then (1 / norm v) • v else v

/-- fromArcCoords, impl/LineString.h 139-160; indices are in range (the checks for that are not modelled, out of range is undefined behaviour) -/
noncomputable def fromArcCoords (l : List (ℝ × ℝ)) (start : ℝ × ℝ) (startIdx endIdx : Nat) (d : ℝ) : Except Fault (ℝ × ℝ) :=
  match l[startIdx]?, l[endIdx]? with
  | some a, some b => .ok (start + d • normalized (-(b.2 - a.2), b.1 - a.1))
  | _, _ => .error .ub

/-- the indices chosen in fromArcCoordinates, impl/LineString.h 839-850 -/
noncomputable def arcIndices (l : List (ℝ × ℝ)) (length : ℝ) : Nat × Nat :=
  match (accumulatedLengthRatios l).findIdx? fun r => decide (length < r * lineLen l) with
  | some i => (i, i + 1)
  | none => (l.length - 2, l.length - 1)

/-- fromArcCoordinates, impl/LineString.h 831-854 -/
noncomputable def fromArcCoordinates (eps : ℝ) (l : List (ℝ × ℝ)) (c : ArcCoordinates) : Except Fault (ℝ × ℝ) :=
  if l.length < 2 then .error .invalidInput else do
  let start ← interpolatedPointAtDistance eps l c.length
  fromArcCoords l start (arcIndices l c.length).1 (arcIndices l c.length).2 c.distance

/-! ### specification -/

/-- `x` is a closest point to `p` on the linestring; Specification. -/
def Closest (l : List (ℝ × ℝ)) (p x : ℝ × ℝ) : Prop := OnLine l x ∧ ∀ y, OnLine l y → dist x p ≤ dist y p

/-- `p` is left of the corner a-b-c: for a left turn left of both segments, otherwise left of one of them; Specification. -/
def LeftOfCorner (a b c p : ℝ × ℝ) : Prop :=
  if 0 < cross (b - a) (c - a) then 0 < cross (b - a) (p - a) ∧ 0 < cross (c - b) (p - b)
  else 0 < cross (b - a) (p - a) ∨ 0 < cross (c - b) (p - b)

/-! ### proofs -/

theorem zip_split {l : List (ℝ × ℝ)} {s : (ℝ × ℝ) × (ℝ × ℝ)} (h : s ∈ l.zip l.tail) :
    ∃ pre post, l = pre ++ s.1 :: s.2 :: post := by
  induction l with
  | nil => cases h
  | cons x l ih =>
    cases l with
    | nil => cases h
    | cons y l =>
      rcases List.mem_cons.mp h with rfl | h
      · exact ⟨[], l, rfl⟩
      · obtain ⟨pre, post, e⟩ := ih h
        exact ⟨x :: pre, post, by rw [e]; rfl⟩

/-- the segment of a single point, or two points following each other -/
theorem segs_split {l : List (ℝ × ℝ)} {s : (ℝ × ℝ) × (ℝ × ℝ)} (h : s ∈ segs l) :
    (l = [s.1] ∧ s.2 = s.1) ∨ ∃ pre post, l = pre ++ s.1 :: s.2 :: post := by
  match l, h with
  | [x], h => simp only [segs, List.mem_singleton] at h; subst h; exact .inl ⟨rfl, rfl⟩
  | x :: y :: l, h => exact .inr (zip_split h)

theorem segs_mem {l : List (ℝ × ℝ)} {s : (ℝ × ℝ) × (ℝ × ℝ)} (h : s ∈ segs l) : s.1 ∈ l ∧ s.2 ∈ l := by
  rcases segs_split h with ⟨e, e2⟩ | ⟨pre, post, e⟩
  · rw [e, e2]; simp
  · rw [e]; simp

theorem lengthUntil_eq : ∀ (pre : List (ℝ × ℝ)) (a b : ℝ × ℝ) (post : List (ℝ × ℝ)), a ∉ pre →
    lengthUntil a (pre ++ a :: b :: post) = lineLen (pre ++ [a]) := by
  intro pre
  induction pre with
  | nil => intro a b post _; simp [lengthUntil, lineLen]
  | cons x pre ih =>
    intro a b post h
    have hx : x ≠ a := fun hc => h (by simp [hc])
    have ha : a ∉ pre := fun hc => h (by simp [hc])
    cases pre with
    | nil => simp [lengthUntil, lineLen, hx]
    | cons y pre =>
      have := ih a b post ha
      simp only [List.cons_append, lengthUntil, hx, if_false, lineLen] at this ⊢
      rw [this]

theorem at_split : ∀ (pre : List (ℝ × ℝ)) (a b : ℝ × ℝ) (post : List (ℝ × ℝ)) (t : ℝ), 0 ≤ t → t ≤ 1 →
    At (pre ++ a :: b :: post) (lineLen (pre ++ [a]) + t * dist a b) (a + t • (b - a)) := by
  intro pre
  induction pre with
  | nil => intro a b post t h0 h1; simpa [lineLen] using At.seg a b post t h0 h1
  | cons x pre ih =>
    intro a b post t h0 h1
    have := ih a b post t h0 h1
    cases pre with
    | nil =>
      have := At.later x a (b :: post) _ _ this
      simpa [lineLen] using this
    | cons y pre =>
      have := At.later x y (pre ++ a :: b :: post) _ _ this
      simp only [List.cons_append, lineLen] at this ⊢
      rw [add_assoc]
      exact this

theorem dist_param (a b : ℝ × ℝ) {t : ℝ} (h : 0 ≤ t) : dist a (a + t • (b - a)) = t * dist a b := by
  unfold dist
  rw [show a - (a + t • (b - a)) = t • (a - b) by module, norm_smul, abs_of_nonneg h]

theorem isLeftOf_ok {l : List (ℝ × ℝ)} {p : ℝ × ℝ} {s : (ℝ × ℝ) × (ℝ × ℝ)} {proj : ℝ × ℝ} (h : s.2 ∈ l) :
    ∃ b, isLeftOf l p s proj = .ok b := by
  unfold isLeftOf
  simp only
  split
  · split
    · rename_i hc
      have : s.2 ∈ l.takeWhile fun x => decide (x ≠ s.2) := by
        have := List.takeWhile_append_dropWhile (p := fun x => decide (x ≠ s.2)) (l := l)
        rw [hc, List.append_nil] at this
        rw [this]; exact h
      have : ∀ (l : List (ℝ × ℝ)) x, x ∈ l.takeWhile (fun x => decide (x ≠ s.2)) → x ≠ s.2 := by
        intro l x hx
        induction l with
        | nil => cases hx
        | cons y l ih =>
          rw [List.takeWhile_cons] at hx
          split at hx
          · rename_i hy
            rcases List.mem_cons.mp hx with rfl | hx
            · simpa using hy
            · exact ih hx
          · cases hx
      exact absurd rfl (this _ _ ‹_›)
    · exact ⟨_, rfl⟩
    · split <;> exact ⟨_, rfl⟩
  · exact ⟨_, rfl⟩

theorem toArc_eq {ix : Index ℝ (ℝ × ℝ)} (hix : ix.Ok) {l : List (ℝ × ℝ)} (hl : l ≠ []) (p : ℝ × ℝ) :
    ∃ (s : (ℝ × ℝ) × (ℝ × ℝ)) (x : ℝ × ℝ) (b : Bool), s ∈ segs l ∧ x = projectPoint s.1 s.2 p ∧ Closest l p x ∧
      toArcCoordinates ix l p = .ok ⟨lengthUntil s.1 l + dist s.1 x, if b then dist x p else -dist x p⟩ := by
  obtain ⟨r, h1, h2, h3, h4, h5⟩ := projectLine_nearest hix hl p
  obtain ⟨b, hb⟩ := isLeftOf_ok (p := p) (proj := projectPoint r.segm.1 r.segm.2 p) (segs_mem h2).2
  refine ⟨r.segm, r.p, b, h2, h3, ⟨h4, h5⟩, ?_⟩
  unfold toArcCoordinates signedDistanceImpl
  rw [h1]
  simp only [bind, Except.bind, hb, pure, Except.pure]
  rw [h3]

/-- C44: the distance is the one of the closest point of the linestring, and the length is the position of this point, if the linestring does
not come back to the position of an earlier point, except for its end. -/
theorem toArcCoordinates_partial {ix : Index ℝ (ℝ × ℝ)} (hix : ix.Ok) {l : List (ℝ × ℝ)} (hl : l ≠ []) (p : ℝ × ℝ) :
    ∃ x c, toArcCoordinates ix l p = .ok c ∧ Closest l p x ∧ |c.distance| = dist x p ∧
      (l.dropLast.Nodup → At l c.length x) := by
  obtain ⟨s, x, b, h2, h3, h4, e⟩ := toArc_eq hix hl p
  refine ⟨x, _, e, h4, ?_, ?_⟩
  · have := dist_nonneg x p
    simp only
    split
    · exact abs_of_nonneg this
    · rw [abs_neg]; exact abs_of_nonneg this
  · intro hn
    simp only
    obtain ⟨t, h0, h1, hx⟩ := (projectPoint_nearest s.1 s.2 p).1
    rw [h3]
    rcases segs_split h2 with ⟨e, e2⟩ | ⟨pre, post, e⟩
    · rw [e2] at hx ⊢
      rw [sub_self, smul_zero, add_zero] at hx
      rw [hx, dist_self, e]
      simpa [lengthUntil] using At.single s.1
    · have ha : s.1 ∉ pre := by
        rw [e, List.dropLast_append_of_ne_nil (by simp), List.nodup_append] at hn
        intro hc
        exact hn.2.2 _ hc s.1 (by cases post <;> simp) rfl
      rw [hx, dist_param _ _ h0]
      conv => rw [e]
      rw [lengthUntil_eq _ _ _ _ ha]
      exact at_split pre _ _ post t h0 h1

theorem lineLen_snoc (pre : List (ℝ × ℝ)) (a b : ℝ × ℝ) : lineLen (pre ++ [a, b]) = lineLen (pre ++ [a]) + dist a b := by
  rw [lineLen_append]
  simp [lineLen]

theorem interpLoop_split {eps s : ℝ} : ∀ (pre : List (ℝ × ℝ)) (x a b : ℝ × ℝ) (post : List (ℝ × ℝ)) (t cum : ℝ), 0 < t → t ≤ 1 → a ≠ b →
    s = cum + lineLen (x :: pre ++ [a]) + t * dist a b →
    interpLoop eps s cum x (pre ++ a :: b :: post) = if t * dist a b < eps then a else a + t • (b - a) := by
  intro pre
  induction pre with
  | nil =>
    intro x a b post t cum h0 h1 hab hs
    have hd : 0 < dist a b := lt_of_le_of_ne (dist_nonneg _ _) fun hc => hab (dist_eq_zero.mp hc.symm)
    have ht : 0 < t * dist a b := mul_pos h0 hd
    have hle : t * dist a b ≤ dist a b := by nlinarith
    simp only [List.cons_append, List.nil_append, lineLen, add_zero] at hs
    rw [List.nil_append, interpLoop]
    simp only
    rw [if_neg (by linarith), interpLoop]
    simp only
    rw [if_pos (by linarith), show s - (cum + dist x a + dist a b - dist a b) = t * dist a b by rw [hs]; ring,
      mul_div_assoc, div_self hd.ne', mul_one]
  | cons y pre ih =>
    intro x a b post t cum h0 h1 hab hs
    have hd : 0 < dist a b := lt_of_le_of_ne (dist_nonneg _ _) fun hc => hab (dist_eq_zero.mp hc.symm)
    have ht : 0 < t * dist a b := mul_pos h0 hd
    have hl := lineLen_nonneg (y :: pre ++ [a])
    have hs' : s = cum + dist x y + lineLen (y :: pre ++ [a]) + t * dist a b := by
      rw [hs]
      simp only [List.cons_append, lineLen]
      ring
    rw [List.cons_append, interpLoop]
    simp only
    rw [if_neg (by linarith)]
    exact ih y a b post t _ h0 h1 hab hs'

theorem interpolated_split {eps : ℝ} (pre : List (ℝ × ℝ)) (a b : ℝ × ℝ) (post : List (ℝ × ℝ)) (t : ℝ) (h0 : 0 < t) (h1 : t ≤ 1) (hab : a ≠ b) :
    interpolatedPointAtDistance eps (pre ++ a :: b :: post) (lineLen (pre ++ [a]) + t * dist a b) =
      .ok (if t * dist a b < eps then a else a + t • (b - a)) := by
  have hd : 0 < dist a b := lt_of_le_of_ne (dist_nonneg _ _) fun hc => hab (dist_eq_zero.mp hc.symm)
  have ht : 0 < t * dist a b := mul_pos h0 hd
  have hl := lineLen_nonneg (pre ++ [a])
  unfold interpolatedPointAtDistance
  rw [if_neg (by linarith), if_neg (by linarith)]
  cases pre with
  | nil =>
    have hle : t * dist a b ≤ dist a b := by nlinarith
    simp only [List.nil_append, lineLen, zero_add, interpLoop]
    rw [if_pos hle, show t * dist a b - (dist a b - dist a b) = t * dist a b by ring, mul_div_assoc, div_self hd.ne', mul_one]
  | cons x pre =>
    simp only [List.cons_append]
    rw [interpLoop_split pre x a b post t 0 h0 h1 hab (by simp)]

theorem lengthRatios_eq {l : List (ℝ × ℝ)} (h : 0 < lineLen l) :
    lengthRatios l = (l.zip l.tail).map fun s => dist s.1 s.2 / lineLen l := by
  unfold lengthRatios
  match l, h with
  | [], h => simp [lineLen] at h
  | [x], h => simp [lineLen] at h
  | [x, y], h =>
    simp only [lineLen, add_zero] at h
    simp [lineLen, div_self h.ne']
  | x :: y :: z :: l, h => simp

theorem zip_take : ∀ (l : List (ℝ × ℝ)) (i : Nat), (l.zip l.tail).take (i + 1) = (l.take (i + 2)).zip (l.take (i + 2)).tail := by
  intro l
  induction l with
  | nil => intro i; simp
  | cons x l ih =>
    intro i
    cases l with
    | nil => simp
    | cons y l =>
      cases i with
      | zero => simp
      | succ i =>
        have := ih i
        simp only [List.tail_cons, List.zip_cons_cons, List.take_succ_cons] at this ⊢
        rw [this]

theorem accumulated_length {l : List (ℝ × ℝ)} (h : 0 < lineLen l) {i : Nat} {c : ℝ} (hc : (accumulatedLengthRatios l)[i]? = some c) :
    c * lineLen l = lineLen (l.take (i + 2)) := by
  rw [(accumulated_eq l).2 i c hc, lengthRatios_eq h, ← List.map_take, zip_take, ← sum_zip (l.take (i + 2))]
  generalize (l.take (i + 2)).zip (l.take (i + 2)).tail = z
  induction z with
  | nil => simp
  | cons s z ih =>
    simp only [List.map_cons, List.sum_cons, add_mul, ih]
    rw [div_mul_cancel₀ _ h.ne']

theorem arcIndices_split (pre : List (ℝ × ℝ)) (a b : ℝ × ℝ) (post : List (ℝ × ℝ)) (t : ℝ) (h0 : 0 ≤ t) (h1 : t < 1) (hab : a ≠ b) :
    arcIndices (pre ++ a :: b :: post) (lineLen (pre ++ [a]) + t * dist a b) = (pre.length, pre.length + 1) := by
  have hd : 0 < dist a b := lt_of_le_of_ne (dist_nonneg _ _) fun hc => hab (dist_eq_zero.mp hc.symm)
  have ht : 0 ≤ t * dist a b := mul_nonneg h0 hd.le
  have hlt : t * dist a b < dist a b := by nlinarith
  set l := pre ++ a :: b :: post with hl
  have hpos : 0 < lineLen l := by
    rw [hl, lineLen_append]
    have := lineLen_nonneg (pre ++ [a])
    have := lineLen_nonneg (b :: post)
    linarith
  have hlen : (accumulatedLengthRatios l).length = l.length - 1 := (accumulated_spec hpos).1
  have hlen2 : l.length = pre.length + (post.length + 2) := by rw [hl]; simp
  have key : (accumulatedLengthRatios l).findIdx? (fun r => decide (lineLen (pre ++ [a]) + t * dist a b < r * lineLen l)) = some pre.length := by
    rw [List.findIdx?_eq_some_iff_getElem]
    have hi : pre.length < (accumulatedLengthRatios l).length := by omega
    refine ⟨hi, ?_, ?_⟩
    · rw [accumulated_length hpos (List.getElem?_eq_getElem hi)]
      have : l.take (pre.length + 2) = pre ++ [a, b] := by
        rw [hl, List.take_append]
        simp
      rw [this, lineLen_snoc]
      simpa using hlt
    · intro j hj
      have hj' : j < (accumulatedLengthRatios l).length := by omega
      rw [accumulated_length hpos (List.getElem?_eq_getElem hj')]
      have e : l.take (j + 2) = (pre ++ [a]).take (j + 2) := by
        rw [hl, show pre ++ a :: b :: post = (pre ++ [a]) ++ b :: post by simp, List.take_append_of_le_length (by simp; omega)]
      have hm : lineLen ((pre ++ [a]).take (j + 2)) ≤ lineLen (pre ++ [a]) := by
        rw [← sum_zip, ← sum_zip (pre ++ [a]), ← zip_take, List.map_take]
        have := sum_take_le (xs := ((pre ++ [a]).zip (pre ++ [a]).tail).map fun s => dist s.1 s.2)
          (by intro x hx; obtain ⟨s, -, rfl⟩ := List.mem_map.mp hx; exact dist_nonneg _ _)
          (i := j + 1) (j := max (j + 1) (((pre ++ [a]).zip (pre ++ [a]).tail).map fun s => dist s.1 s.2).length) (le_max_left _ _)
        rwa [List.take_of_length_le (le_max_right _ _)] at this
      rw [e]
      simp only [decide_eq_true_eq, not_lt]
      linarith
  unfold arcIndices
  rw [key]

theorem perp_shift {u w : ℝ × ℝ} (hu : u ≠ 0) (h : dot w u = 0) :
    (if 0 < cross u w then norm w else -norm w) • normalized (-u.2, u.1) = w := by
  have hn : norm ((-u.2, u.1) : ℝ × ℝ) = norm u := by
    rw [norm2, norm2]; congr 1; ring
  have hp : 0 < norm u := lt_of_le_of_ne (norm_nonneg u) fun hc => hu (norm_eq_zero.mp hc.symm)
  have hs : norm u * norm u = u.1 * u.1 + u.2 * u.2 := by rw [norm_sq, dot2]
  have hw : norm w * norm w = w.1 * w.1 + w.2 * w.2 := by rw [norm_sq, dot2]
  rw [dot2] at h
  have hk : cross u w * cross u w = (norm u * norm w) * (norm u * norm w) := by
    rw [show (norm u * norm w) * (norm u * norm w) = (norm u * norm u) * (norm w * norm w) by ring, hs, hw]
    unfold cross
    linear_combination (-(w.1 * u.1 + w.2 * u.2)) * h
  have hnn : 0 ≤ norm u * norm w := mul_nonneg hp.le (norm_nonneg w)
  have habs : |cross u w| = norm u * norm w := by
    rw [← abs_of_nonneg hnn]; exact abs_eq_abs.mpr (mul_self_eq_mul_self_iff.mp hk)
  have hd : (if 0 < cross u w then norm w else -norm w) * norm u = cross u w := by
    split
    · rename_i hc; rw [abs_of_pos hc] at habs; rw [habs]; ring
    · rename_i hc; rw [abs_of_nonpos (not_lt.mp hc)] at habs; linarith
  set d := if 0 < cross u w then norm w else -norm w
  unfold normalized
  rw [hn, if_pos hp]
  have hne := hp.ne'
  have hd' : d = cross u w / norm u := by rw [← hd]; field_simp
  have h1 : cross u w * -u.2 = norm u * norm u * w.1 := by rw [hs]; unfold cross; linear_combination (-u.1) * h
  have h2 : cross u w * u.1 = norm u * norm u * w.2 := by rw [hs]; unfold cross; linear_combination (-u.2) * h
  rw [hd']
  ext
  · simp only [Prod.smul_fst, smul_eq_mul]
    field_simp
    linarith
  · simp only [Prod.smul_snd, smul_eq_mul]
    field_simp
    linarith

/-- C44: a point whose closest point on the linestring lies inside of a segment is recovered from its arc coordinates, up to less than
`eps` (1e-8) in the direction of the linestring. -/
theorem arc_roundtrip_partial {ix : Index ℝ (ℝ × ℝ)} (hix : ix.Ok) {eps : ℝ} (heps : 0 < eps) {l : List (ℝ × ℝ)} (hl : l ≠ []) {p : ℝ × ℝ}
    (hn : l.dropLast.Nodup) (hin : ∀ x, Closest l p x → x ∉ l) :
    ∃ c q, toArcCoordinates ix l p = .ok c ∧ fromArcCoordinates eps l c = .ok q ∧ dist q p < eps ∧
      ((∀ x, Closest l p x → ∀ v ∈ l, eps ≤ dist v x) → q = p) := by
  obtain ⟨r, h1, h2, h3, h4, h5⟩ := projectLine_nearest hix hl p
  have hcl : Closest l p r.p := ⟨h4, h5⟩
  have hin := hin r.p hcl
  generalize hrx : r.p = x at *
  obtain ⟨t, h0, h1', hpt⟩ := (projectPoint_nearest r.segm.1 r.segm.2 p).1
  rw [← h3] at hpt
  have hne1 : x ≠ r.segm.1 := fun hc => hin (hc ▸ (segs_mem h2).1)
  have hne2 : x ≠ r.segm.2 := fun hc => hin (hc ▸ (segs_mem h2).2)
  have hab : r.segm.1 ≠ r.segm.2 := by
    intro hc
    rw [← hc, sub_self, smul_zero, add_zero] at hpt
    exact hne1 hpt
  have ht0 : 0 < t := lt_of_le_of_ne h0 fun hc => hne1 (by rw [hpt, ← hc]; simp)
  have ht1 : t < 1 := lt_of_le_of_ne h1' fun hc => hne2 (by rw [hpt, hc]; simp)
  have hperp := projectPoint_perp (l1 := r.segm.1) (l2 := r.segm.2) (p := p) (h3 ▸ hne1) (h3 ▸ hne2)
  rw [← h3] at hperp
  rcases segs_split h2 with ⟨-, e2⟩ | ⟨pre, post, e⟩
  · exact absurd e2.symm hab
  have ha : r.segm.1 ∉ pre := by
    rw [e, List.dropLast_append_of_ne_nil (by simp), List.nodup_append] at hn
    intro hc
    exact hn.2.2 _ hc r.segm.1 (by cases post <;> simp) rfl
  generalize hA : r.segm.1 = a at *
  generalize hB : r.segm.2 = b at *
  have hu : b - a ≠ 0 := sub_ne_zero.mpr hab.symm
  have hleft : pointIsLeftOf a b p = decide (0 < cross (b - a) (p - x)) := by
    unfold pointIsLeftOf
    congr 2
    rw [hpt]
    unfold cross
    simp only [Prod.fst_sub, Prod.snd_sub, Prod.fst_add, Prod.snd_add, Prod.smul_fst, Prod.smul_snd, smul_eq_mul]
    ring_nf
  have hto : toArcCoordinates ix l p = .ok ⟨lineLen (pre ++ [a]) + t * dist a b,
      if 0 < cross (b - a) (p - x) then norm (p - x) else -norm (p - x)⟩ := by
    unfold toArcCoordinates signedDistanceImpl isLeftOf
    rw [h1]
    simp only [bind, Except.bind, hA, hB, ← h3, pure, Except.pure]
    rw [if_neg (fun hc => hne2 hc.symm)]
    simp only [hleft, decide_eq_true_eq]
    have hd : dist x p = norm (p - x) := by rw [dist_comm]; rfl
    have hl2 : lengthUntil r.segm.1 l = lineLen (pre ++ [a]) := by
      rw [hA, e, lengthUntil_eq _ _ _ _ ha]
    have hd2 : dist r.segm.1 x = t * dist a b := by rw [hA, hpt, dist_param _ _ h0]
    rw [hd, hl2, hd2]
  have hshift := perp_shift hu hperp
  refine ⟨_, (if t * dist a b < eps then a else x) + (p - x), hto, ?_, ?_, ?_⟩
  · unfold fromArcCoordinates
    have hle : ¬ l.length < 2 := by rw [e]; simp; omega
    rw [if_neg hle]
    simp only
    rw [e, interpolated_split pre a b post t ht0 h1' hab, arcIndices_split pre a b post t h0 ht1 hab, ← hpt]
    simp only [bind, Except.bind, fromArcCoords]
    rw [show (pre ++ a :: b :: post)[pre.length]? = some a by simp, show (pre ++ a :: b :: post)[pre.length + 1]? = some b by simp]
    simp only
    rw [show ((-(b.2 - a.2), b.1 - a.1) : ℝ × ℝ) = (-(b - a).2, (b - a).1) from rfl, hshift]
  · split
    · rename_i hlt
      rw [show dist (a + (p - x)) p = dist a x by unfold dist; congr 1; abel, hpt, dist_param _ _ h0]
      exact hlt
    · rw [add_sub_cancel, dist_self]; exact heps
  · intro hv
    have := hv x hcl a (by rw [e]; simp)
    rw [hpt, dist_param _ _ h0] at this
    rw [if_neg (not_lt.mpr this)]
    abel

theorem norm_normalized {v : ℝ × ℝ} (h : v ≠ 0) : norm (normalized v) = 1 := by
  have hp : 0 < norm v := lt_of_le_of_ne (norm_nonneg v) fun hc => h (norm_eq_zero.mp hc.symm)
  unfold normalized
  rw [if_pos hp, norm_smul, abs_of_pos (by positivity), one_div, inv_mul_cancel₀ hp.ne']

/-- C44, the other direction: the point made from arc coordinates is at the given distance from the point at the given length, up to
less than `eps` along the linestring. A length beyond the end stands for the end. -/
theorem fromArcCoordinates_spec {eps : ℝ} (heps : 0 < eps) {l : List (ℝ × ℝ)} (h2 : 2 ≤ l.length) (hne : ∀ s ∈ segs l, s.1 ≠ s.2)
    {c : ArcCoordinates} (hc : 0 ≤ c.length) :
    ∃ q x s, fromArcCoordinates eps l c = .ok q ∧ At l s x ∧ s ≤ min c.length (lineLen l) ∧ min c.length (lineLen l) - eps < s ∧
      dist x q = |c.distance| := by
  have hl : l ≠ [] := by rintro rfl; simp at h2
  obtain ⟨x, s, h3, h4, h5, h6⟩ := interpolated_at heps hl hc
  have hidx : ∃ i, arcIndices l c.length = (i, i + 1) ∧ i + 1 < l.length := by
    unfold arcIndices
    split
    · rename_i i hi
      obtain ⟨hi, -⟩ := List.findIdx?_eq_some_iff_getElem.mp hi
      have hpos : 0 < lineLen l := by
        match l, h2 with
        | a :: b :: l, _ =>
          rw [lineLen]
          have := lineLen_nonneg (b :: l)
          have : 0 < dist a b :=
            lt_of_le_of_ne (dist_nonneg _ _) fun hc => hne (a, b) (by simp [segs]) (dist_eq_zero.mp hc.symm)
          linarith
      rw [(accumulated_spec hpos).1] at hi
      exact ⟨i, rfl, by omega⟩
    · exact ⟨l.length - 2, by congr 1; omega, by omega⟩
  obtain ⟨i, hi, hlt⟩ := hidx
  have hab : l[i] ≠ l[i + 1] := by
    refine hne (l[i], l[i + 1]) ?_
    have : (l[i], l[i + 1]) ∈ l.zip l.tail := by
      refine List.mem_of_getElem? (i := i) ?_
      rw [List.getElem?_zip_eq_some]
      exact ⟨List.getElem?_eq_getElem (by omega), by rw [List.getElem?_tail]; exact List.getElem?_eq_getElem hlt⟩
    have hz : ∀ k : List (ℝ × ℝ), 2 ≤ k.length → segs k = k.zip k.tail := by
      intro k hk
      match k, hk with
      | a :: b :: k, _ => rfl
    rw [hz l h2]
    exact this
  refine ⟨x + c.distance • normalized (-(l[i + 1].2 - l[i].2), l[i + 1].1 - l[i].1), x, s, ?_, h4, h5, h6, ?_⟩
  · unfold fromArcCoordinates
    rw [if_neg (by omega), h3]
    simp only [bind, Except.bind, hi, fromArcCoords]
    rw [List.getElem?_eq_getElem (show i < l.length by omega), List.getElem?_eq_getElem hlt]
  · have hz : ((-(l[i + 1].2 - l[i].2), l[i + 1].1 - l[i].1) : ℝ × ℝ) ≠ 0 := by
      intro hz
      have z1 := congrArg Prod.fst hz
      have z2 := congrArg Prod.snd hz
      simp only [Prod.fst_zero, Prod.snd_zero] at z1 z2
      exact hab (Prod.ext (by linarith) (by linarith))
    unfold dist
    rw [show ∀ y : ℝ × ℝ, x - (x + y) = -y by intro y; abel, norm_neg, norm_smul, norm_normalized hz, mul_one]

/-- a linestring with fewer than two points is rejected -/
theorem fromArcCoordinates_short (eps : ℝ) {l : List (ℝ × ℝ)} (h : l.length < 2) (c : ArcCoordinates) :
    fromArcCoordinates eps l c = .error .invalidInput := if_pos h

theorem signedDistance_inv {ix : Index ℝ (ℝ × ℝ)} {l : List (ℝ × ℝ)} {p x : ℝ × ℝ} {s : (ℝ × ℝ) × (ℝ × ℝ)} {d : ℝ}
    (h : signedDistanceImpl ix l p = .ok (d, s, x)) :
    x = projectPoint s.1 s.2 p ∧ ∃ b, isLeftOf l p s x = .ok b ∧ d = if b then dist x p else -dist x p := by
  unfold signedDistanceImpl at h
  cases hr : projectLine ix l p with
  | error e => rw [hr] at h; cases h
  | ok r =>
    rw [hr] at h
    simp only [bind, Except.bind] at h
    cases hb : isLeftOf l p r.segm (projectPoint r.segm.1 r.segm.2 p) with
    | error e => rw [hb] at h; cases h
    | ok b =>
      rw [hb] at h
      simp only [pure, Except.pure, Except.ok.injEq, Prod.mk.injEq] at h
      obtain ⟨h1, h2, h3⟩ := h
      rw [← h2, ← h3]
      exact ⟨rfl, b, hb, h1.symm⟩

theorem sign_iff {x p : ℝ × ℝ} {b : Bool} (h : b = true → x ≠ p) : 0 < (if b then dist x p else -dist x p) ↔ b = true := by
  have := dist_nonneg x p
  cases b with
  | false => simpa using this
  | true =>
    simp only [if_true, iff_true]
    exact lt_of_le_of_ne this fun hc => h rfl (dist_eq_zero.mp hc.symm)

/-- C44: the sign of the distance, if the closest point is not the end of its segment: positive iff the point is left of the segment. -/
theorem signedDistance_inside {ix : Index ℝ (ℝ × ℝ)} {l : List (ℝ × ℝ)} {p x a b : ℝ × ℝ} {d : ℝ}
    (h : signedDistanceImpl ix l p = .ok (d, (a, b), x)) (hx : x ≠ b) : 0 < d ↔ 0 < cross (b - a) (p - a) := by
  obtain ⟨h1, c, h2, rfl⟩ := signedDistance_inv h
  unfold isLeftOf at h2
  rw [if_neg (fun hc => hx hc.symm)] at h2
  simp only [Except.ok.injEq] at h2
  subst h2
  have e : pointIsLeftOf a b p = true ↔ 0 < cross (b - a) (p - a) := by unfold pointIsLeftOf; simp
  rw [sign_iff, e]
  intro hl hc
  rw [e] at hl
  obtain ⟨t, -, -, ht⟩ := (projectPoint_nearest a b p).1
  simp only at h1
  rw [← h1, hc] at ht
  have : cross (b - a) (p - a) = 0 := by
    rw [ht]
    unfold cross
    simp only [Prod.fst_sub, Prod.snd_sub, Prod.fst_add, Prod.snd_add, Prod.smul_fst, Prod.smul_snd, smul_eq_mul]
    ring
  linarith

/-- C44: the sign of the distance at a corner: positive iff the point is left of the corner. This is about the segment before the corner;
if the search finds the segment behind it first, the corner is not looked at. -/
theorem signedDistance_corner_partial {ix : Index ℝ (ℝ × ℝ)} {pre post : List (ℝ × ℝ)} {p a b c : ℝ × ℝ} {d : ℝ}
    (hn : b ∉ pre ++ [a]) (h : signedDistanceImpl ix (pre ++ a :: b :: c :: post) p = .ok (d, (a, b), b)) : 0 < d ↔ LeftOfCorner a b c p := by
  obtain ⟨-, v, h2, rfl⟩ := signedDistance_inv h
  have hdrop : (pre ++ a :: b :: c :: post).dropWhile (fun x => decide (x ≠ b)) = b :: c :: post := by
    have : pre ++ a :: b :: c :: post = (pre ++ [a]) ++ b :: c :: post := by simp
    rw [this, List.dropWhile_append_of_pos]
    · simp
    · intro x hx
      simp only [decide_eq_true_eq]
      rintro rfl
      exact hn hx
  have e : ∀ a b p, pointIsLeftOf a b p = true ↔ 0 < cross (b - a) (p - a) := by intro a b p; unfold pointIsLeftOf; simp
  unfold isLeftOf at h2
  simp only [if_true, hdrop] at h2
  have hv : v = true ↔ LeftOfCorner a b c p := by
    unfold LeftOfCorner
    simp only [← e]
    revert h2
    cases pointIsLeftOf a b p <;> cases pointIsLeftOf b c p <;> cases pointIsLeftOf a b c <;> simp <;> rintro rfl <;> simp
  rw [sign_iff, hv]
  intro hl hc
  rw [hv] at hl
  subst hc
  unfold LeftOfCorner cross at hl
  simp only [Prod.fst_sub, Prod.snd_sub] at hl
  split at hl
  · rcases hl with ⟨-, h⟩; simp at h
  · rcases hl with h | h
    · have : (b.1 - a.1) * (b.2 - a.2) - (b.2 - a.2) * (b.1 - a.1) = 0 := by ring
      linarith
    · simp at h

/-! ### examples -/

theorem dist_nat (x y : ℝ × ℝ) (n : ℝ) (h : 0 ≤ n) (e : (x.1 - y.1) * (x.1 - y.1) + (x.2 - y.2) * (x.2 - y.2) = n * n) : dist x y = n := by
  rw [dist2, e, Real.sqrt_mul_self h]

/-- a corner and a point inside of it -/
example : ∃ c, toArcCoordinates index2 [(0, 0), (4, 0), (4, 4)] (3, 2) = .ok c ∧
    fromArcCoordinates (1 / 10 ^ 8) [(0, 0), (4, 0), (4, 4)] c = .ok (3, 2) := by
  have hcl : ∀ x, Closest [(0, 0), (4, 0), (4, 4)] (3, 2) x → x = (4, 2) := by
    rintro x ⟨⟨s, hs, t, h0, h1, rfl⟩, h⟩
    have := h (4, 2) ⟨((4, 0), (4, 4)), by simp [segs], 1 / 2, by norm_num, by norm_num, by ext <;> norm_num⟩
    rw [dist_nat (4, 2) (3, 2) 1 (by norm_num) (by norm_num), dist2, Real.sqrt_le_one] at this
    simp only [segs, List.tail_cons, List.zip_cons_cons, List.zip_nil_right, List.mem_cons, List.not_mem_nil, or_false] at hs
    rcases hs with rfl | rfl <;>
      simp only [Prod.fst_add, Prod.snd_add, Prod.smul_fst, Prod.smul_snd, Prod.fst_sub, Prod.snd_sub, smul_eq_mul] at this
    · nlinarith [mul_self_nonneg (t * 4 - 3)]
    · have : t = 1 / 2 := by
        have : (4 * t - 2) * (4 * t - 2) ≤ 0 := by nlinarith
        have := mul_self_eq_zero.mp (le_antisymm this (mul_self_nonneg _))
        linarith
      rw [this]; ext <;> norm_num
  obtain ⟨c, q, h1, h2, -, h3⟩ := arc_roundtrip_partial index2_ok (eps := 1 / 10 ^ 8) (by norm_num)
    (l := [(0, 0), (4, 0), (4, 4)]) (by simp) (p := (3, 2)) (by simp) (by
      intro x hx; rw [hcl x hx]; simp)
  refine ⟨c, h1, ?_⟩
  rw [h2, h3]
  intro x hx v hv
  rw [hcl x hx, dist2]
  refine Real.le_sqrt_of_sq_le ?_
  simp only [List.mem_cons, List.not_mem_nil, or_false] at hv
  rcases hv with rfl | rfl | rfl <;> norm_num

/-- Disagreement with C44 (round trip): a point beyond the end is not recovered. -/
theorem beyond_end_counterexample {ix : Index ℝ (ℝ × ℝ)} (hix : ix.Ok) {eps : ℝ} (heps : 0 < eps) (heps1 : eps < 1) :
    ∃ c q, toArcCoordinates ix [(0, 0), (4, 0)] (6, 0) = .ok c ∧ fromArcCoordinates eps [(0, 0), (4, 0)] c = .ok q ∧ 2 ≤ dist q (6, 0) := by
  obtain ⟨s, x, b, h2, h3, h4, e⟩ := toArc_eq hix (l := [(0, 0), (4, 0)]) (by simp) (6, 0)
  simp only [segs, List.tail_cons, List.zip_cons_cons, List.zip_nil_right, List.mem_cons, List.not_mem_nil, or_false] at h2
  subst h2
  have hx : x = (4, 0) := by
    rw [h3]; unfold projectPoint
    simp only [dot2, Prod.fst_sub, Prod.snd_sub]
    norm_num
  subst hx
  have d1 : dist ((0, 0) : ℝ × ℝ) (4, 0) = 4 := dist_nat _ _ _ (by norm_num) (by norm_num)
  have d2 : dist ((4, 0) : ℝ × ℝ) (6, 0) = 2 := dist_nat _ _ _ (by norm_num) (by norm_num)
  refine ⟨_, (4, if b then 2 else -2), e, ?_, ?_⟩
  · have l1 : lengthUntil ((0, 0) : ℝ × ℝ) [(0, 0), (4, 0)] = 0 := by simp [lengthUntil]
    simp only [l1, d1, d2]
    have i := interpolated_split (eps := eps) [] ((0, 0) : ℝ × ℝ) (4, 0) [] 1 (by norm_num) (by norm_num) (by simp)
    simp only [List.nil_append, lineLen, d1, zero_add, one_mul] at i
    rw [if_neg (by linarith)] at i
    have a : arcIndices [((0, 0) : ℝ × ℝ), (4, 0)] 4 = (0, 1) := by
      simp [arcIndices, accumulatedLengthRatios, lengthRatios, accFrom, lineLen, d1]
    have n : normalized ((-(0 - 0), 4 - 0) : ℝ × ℝ) = (0, 1) := by
      have : norm ((-(0 - 0), 4 - 0) : ℝ × ℝ) = 4 := by
        rw [norm2, show (-(0 - 0) : ℝ) * (-(0 - 0)) + (4 - 0) * (4 - 0) = 4 * 4 by norm_num, Real.sqrt_mul_self (by norm_num)]
      unfold normalized
      rw [this, if_pos (by norm_num)]
      ext <;> norm_num
    unfold fromArcCoordinates
    rw [if_neg (by simp), zero_add, i]
    simp only [bind, Except.bind, a, fromArcCoords, List.getElem?_cons_zero, List.getElem?_cons_succ, n]
    cases b <;> simp
  · rw [dist2]
    refine Real.le_sqrt_of_sq_le ?_
    cases b <;> norm_num

/-- Disagreement with C44 (length): the linestring passes (0, 0) twice, the closest segment is the one after the second time, but the length
is counted from the first time. The closest point is not at the returned length. -/
theorem self_touch_counterexample {ix : Index ℝ (ℝ × ℝ)} (hix : ix.Ok) :
    ∃ c, toArcCoordinates ix [(0, 0), (4, 0), (0, 0), (-4, 0)] (-2, 0) = .ok c ∧ c.length = 2 ∧
      (∀ x, Closest [(0, 0), (4, 0), (0, 0), (-4, 0)] (-2, 0) x → x = (-2, 0)) ∧ At [(0, 0), (4, 0), (0, 0), (-4, 0)] 10 ((-2, 0) : ℝ × ℝ) ∧
      ∀ s, At [(0, 0), (4, 0), (0, 0), (-4, 0)] s ((-2, 0) : ℝ × ℝ) → s = 10 := by
  have d1 : dist ((0, 0) : ℝ × ℝ) (4, 0) = 4 := dist_nat _ _ _ (by norm_num) (by norm_num)
  have d2 : dist ((4, 0) : ℝ × ℝ) (0, 0) = 4 := dist_nat _ _ _ (by norm_num) (by norm_num)
  have d3 : dist ((0, 0) : ℝ × ℝ) (-4, 0) = 4 := dist_nat _ _ _ (by norm_num) (by norm_num)
  have d4 : dist ((0, 0) : ℝ × ℝ) (-2, 0) = 2 := dist_nat _ _ _ (by norm_num) (by norm_num)
  have hat : At [(0, 0), (4, 0), (0, 0), (-4, 0)] 10 ((-2, 0) : ℝ × ℝ) := by
    have h := At.later (0, 0) _ _ _ _ (At.later (4, 0) _ _ _ _ (At.seg ((0, 0) : ℝ × ℝ) (-4, 0) [] (1 / 2) (by norm_num) (by norm_num)))
    rw [d1, d2, d3] at h
    have e1 : (4 + (4 + 1 / 2 * 4) : ℝ) = 10 := by norm_num
    have e2 : ((0, 0) : ℝ × ℝ) + (1 / 2 : ℝ) • (((-4, 0) : ℝ × ℝ) - (0, 0)) = (-2, 0) := by ext <;> norm_num
    rw [e1, e2] at h
    exact h
  have hcl : ∀ x, Closest [(0, 0), (4, 0), (0, 0), (-4, 0)] (-2, 0) x → x = (-2, 0) := by
    rintro x ⟨-, h⟩
    have := h (-2, 0) (at_onLine hat)
    rw [dist_self] at this
    exact dist_eq_zero.mp (le_antisymm this (dist_nonneg _ _))
  obtain ⟨s, x, b, h2, h3, h4, e⟩ := toArc_eq hix (l := [(0, 0), (4, 0), (0, 0), (-4, 0)]) (by simp) (-2, 0)
  have hx := hcl x h4
  subst hx
  refine ⟨_, e, ?_, hcl, hat, ?_⟩
  · simp only [segs, List.tail_cons, List.zip_cons_cons, List.zip_nil_right, List.mem_cons, List.not_mem_nil, or_false] at h2
    rcases h2 with rfl | rfl | rfl
    · exfalso
      unfold projectPoint at h3
      simp only [dot2, Prod.fst_sub, Prod.snd_sub] at h3
      norm_num at h3
    · exfalso
      unfold projectPoint at h3
      simp only [dot2, Prod.fst_sub, Prod.snd_sub] at h3
      norm_num at h3
    · simp only [d4]
      simp [lengthUntil]
  · intro s hs
    generalize hp : ((-2, 0) : ℝ × ℝ) = p at hs
    cases hs with
    | seg _ _ _ t h0 h1 =>
      exfalso
      have := congrArg Prod.fst hp
      simp only [Prod.fst_add, Prod.smul_fst, Prod.fst_sub, smul_eq_mul] at this
      linarith
    | later _ _ _ s _ hs =>
      cases hs with
      | seg _ _ _ t h0 h1 =>
        exfalso
        have := congrArg Prod.fst hp
        simp only [Prod.fst_add, Prod.smul_fst, Prod.fst_sub, smul_eq_mul] at this
        linarith
      | later _ _ _ s _ hs =>
        cases hs with
        | seg _ _ _ t h0 h1 =>
          have := congrArg Prod.fst hp
          simp only [Prod.fst_add, Prod.smul_fst, Prod.fst_sub, smul_eq_mul] at this
          rw [d1, d2, d3]
          linarith
        | later _ _ _ s _ hs =>
          exfalso
          cases hs with
          | single => have := congrArg Prod.fst hp; norm_num at this

/-- a sharp left turn: the point is left of the first segment, but right of the corner -/
example : ¬ LeftOfCorner (0, 0) (4, 0) (0, 1) (6, 1 / 10) ∧ 0 < cross ((4, 0) - (0, 0)) ((6, 1 / 10) - (0, 0)) := by
  unfold LeftOfCorner cross
  norm_num

end Verif.Geo
