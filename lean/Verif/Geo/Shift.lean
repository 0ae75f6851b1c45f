import Verif.Geo.ArcCoords
import Mathlib.Tactic.ByContra

/-!
C73: a point beside a point of a linestring. Model of lateralShiftPointAtIndex,
lanelet2_core/include/lanelet2_core/geometry/impl/LineString.h 254-266, with exact arithmetic.
-/
namespace Verif.Geo

/-! ### model -/

/-- fromArcCoords with its checks, impl/LineString.h 139-160 -/
noncomputable def fromArcCoordsChecked (l : List (ℝ × ℝ)) (start : ℝ × ℝ) (startIdx endIdx : Nat) (d : ℝ) : Except Fault (ℝ × ℝ) :=
  if l.length < startIdx then .error .invalidInput
  else if l.length < endIdx then .error .invalidInput
  else if startIdx = endIdx then .error .invalidInput
  else fromArcCoords l start startIdx endIdx d

/-- the index of the point in lateralShiftPointAtIndex, impl/LineString.h 263 -/
def shiftIdx (size : Nat) (idx : Int) : Nat := (if 0 ≤ idx then idx else (size : Int) + idx).toNat

/-- startIdx in lateralShiftPointAtIndex, impl/LineString.h 259 -/
def shiftStart (size : Nat) (idx : Int) : Nat := (if 0 ≤ idx then max 0 (idx - 1) else max 0 ((size : Int) + idx - 1)).toNat

/-- endIdx in lateralShiftPointAtIndex, impl/LineString.h 260-262 -/
def shiftEnd (size : Nat) (idx : Int) : Nat :=
  (if 0 ≤ idx then min (idx + 1) ((size : Int) - 1) else min ((size : Int) + idx + 1) ((size : Int) - 1)).toNat

/-- lateralShiftPointAtIndex, impl/LineString.h 254-266 -/
noncomputable def lateralShiftPointAtIndex (l : List (ℝ × ℝ)) (idx : Int) (d : ℝ) : Except Fault (ℝ × ℝ) :=
  if l.length < idx.natAbs + 1 then .error .invalidInput
  else match l[shiftIdx l.length idx]? with
    | none => .error .ub
    | some p => fromArcCoordsChecked l p (shiftStart l.length idx) (shiftEnd l.length idx) d

/-! ### specification -/

/-- `q` is beside `p`, seen in the direction from `a` to `b`: on the perpendicular through `p`, by the signed distance `d` to the left.
Specification. -/
structure Beside (a b p q : ℝ × ℝ) (d : ℝ) : Prop where
  perp : dot (b - a) (q - p) = 0
  side : cross (b - a) (q - p) = d * dist a b

/-! ### proofs -/

theorem beside_dist {a b p q : ℝ × ℝ} {d : ℝ} (hab : a ≠ b) (h : Beside a b p q d) : dist p q = |d| := by
  obtain ⟨h1, h2⟩ := h
  have hn : 0 < dist a b := lt_of_le_of_ne (dist_nonneg a b) fun hc => hab (dist_eq_zero.mp hc.symm)
  have e1 : dist a b * dist a b = (b.1 - a.1) * (b.1 - a.1) + (b.2 - a.2) * (b.2 - a.2) := by
    rw [dist2, Real.mul_self_sqrt (add_nonneg (mul_self_nonneg _) (mul_self_nonneg _))]; ring
  have e2 : dist p q * dist p q = (q.1 - p.1) * (q.1 - p.1) + (q.2 - p.2) * (q.2 - p.2) := by
    rw [dist2, Real.mul_self_sqrt (add_nonneg (mul_self_nonneg _) (mul_self_nonneg _))]; ring
  have e3 : (dist a b * dist a b) * (dist p q * dist p q) = (d * dist a b) * (d * dist a b) := by
    rw [← h2, e1, e2]
    rw [dot2] at h1
    unfold cross
    simp only [Prod.fst_sub, Prod.snd_sub] at h1 ⊢
    have : ((b.1 - a.1) * (q.1 - p.1) + (b.2 - a.2) * (q.2 - p.2)) * ((b.1 - a.1) * (q.1 - p.1) + (b.2 - a.2) * (q.2 - p.2)) = 0 := by
      rw [h1]; ring
    linear_combination this
  have e4 : dist p q * dist p q = d * d := by
    have hnn : dist a b * dist a b ≠ 0 := mul_ne_zero (ne_of_gt hn) (ne_of_gt hn)
    have : (dist a b * dist a b) * (dist p q * dist p q) = (dist a b * dist a b) * (d * d) := by rw [e3]; ring
    exact mul_left_cancel₀ hnn this
  rw [← abs_of_nonneg (dist_nonneg p q)]
  exact abs_eq_abs.mpr (mul_self_eq_mul_self_iff.mp e4)

/-- there is only one such point -/
theorem beside_unique {a b p q q' : ℝ × ℝ} {d : ℝ} (hab : a ≠ b) (h : Beside a b p q d) (h' : Beside a b p q' d) : q = q' := by
  have h1 := h.perp; have h2 := h.side; have h3 := h'.perp; have h4 := h'.side
  have hn : 0 < (b.1 - a.1) * (b.1 - a.1) + (b.2 - a.2) * (b.2 - a.2) := by
    have : 0 < dist a b := lt_of_le_of_ne (dist_nonneg a b) fun hc => hab (dist_eq_zero.mp hc.symm)
    rw [dist2, Real.sqrt_pos] at this
    linarith
  rw [← h4] at h2
  rw [← h3] at h1
  rw [dot2, dot2] at h1
  unfold cross at h2
  simp only [Prod.fst_sub, Prod.snd_sub] at h1 h2
  have hne := ne_of_gt hn
  refine Prod.ext ?_ ?_
  · refine mul_left_cancel₀ hne ?_
    linear_combination (b.1 - a.1) * h1 - (b.2 - a.2) * h2
  · refine mul_left_cancel₀ hne ?_
    linear_combination (b.2 - a.2) * h1 + (b.1 - a.1) * h2

theorem fromArcCoords_beside {l : List (ℝ × ℝ)} {a b : ℝ × ℝ} {i j : Nat} (hi : l[i]? = some a) (hj : l[j]? = some b) (p : ℝ × ℝ) (d : ℝ) :
    ∃ q, fromArcCoords l p i j d = .ok q ∧ (a ≠ b → Beside a b p q d) ∧ (a = b → q = p) := by
  unfold fromArcCoords
  rw [hi, hj]
  refine ⟨_, rfl, fun hab => ?_, fun hab => ?_⟩
  · have hn : 0 < dist a b := lt_of_le_of_ne (dist_nonneg a b) fun hc => hab (dist_eq_zero.mp hc.symm)
    have hv : norm ((-(b.2 - a.2), b.1 - a.1) : ℝ × ℝ) = dist a b := by
      rw [norm2, dist2]; congr 1; ring
    have hN : normalized ((-(b.2 - a.2), b.1 - a.1) : ℝ × ℝ) = (1 / dist a b) • ((-(b.2 - a.2), b.1 - a.1) : ℝ × ℝ) := by
      unfold normalized
      rw [hv, if_pos hn]
    have hsq : dist a b * dist a b = (b.1 - a.1) * (b.1 - a.1) + (b.2 - a.2) * (b.2 - a.2) := by
      rw [dist2, Real.mul_self_sqrt (add_nonneg (mul_self_nonneg _) (mul_self_nonneg _))]; ring
    constructor
    · rw [hN, dot2, add_sub_cancel_left]
      simp only [Prod.smul_fst, Prod.smul_snd, Prod.fst_sub, Prod.snd_sub, smul_eq_mul]
      ring
    · rw [hN, add_sub_cancel_left]
      unfold cross
      simp only [Prod.smul_fst, Prod.smul_snd, Prod.fst_sub, Prod.snd_sub, smul_eq_mul]
      have : (b.1 - a.1) * (d * (1 / dist a b * (b.1 - a.1))) - (b.2 - a.2) * (d * (1 / dist a b * -(b.2 - a.2))) =
          d * (1 / dist a b) * ((b.1 - a.1) * (b.1 - a.1) + (b.2 - a.2) * (b.2 - a.2)) := by ring
      rw [this, ← hsq]
      field_simp
  · rw [hab]
    have : normalized ((-(b.2 - b.2), b.1 - b.1) : ℝ × ℝ) = 0 := by
      unfold normalized
      rw [if_neg (by rw [norm2]; simp)]
      ext <;> simp
    rw [this]
    simp

/-- **C73.** The point with the given index, counted from the front or (negative) from the back, is moved beside the line through its
neighbours, at the ends the line through it and its neighbour: perpendicular to it, by the given distance, to the left if it is positive. If both
neighbours have the same position, the point is not moved. -/
theorem shift_spec {l : List (ℝ × ℝ)} {idx : Int} (hidx : idx.natAbs < l.length) (hl : 2 ≤ l.length) (d : ℝ) :
    ∃ (i : Nat) (a p b q : ℝ × ℝ), ((i : Int) = idx ∨ (i : Int) = idx + l.length) ∧ l[i]? = some p ∧
      l[i - 1]? = some a ∧ (l[i + 1]? = some b ∨ (i + 1 = l.length ∧ b = p)) ∧
      lateralShiftPointAtIndex l idx d = .ok q ∧ (a ≠ b → Beside a b p q d ∧ dist p q = |d|) ∧ (a = b → q = p) := by
  obtain ⟨i, hi, hlt, h1, h2, h3⟩ : ∃ i : Nat, ((i : Int) = idx ∨ (i : Int) = idx + l.length) ∧ i < l.length ∧ shiftIdx l.length idx = i ∧
      shiftStart l.length idx = i - 1 ∧ shiftEnd l.length idx = min (i + 1) (l.length - 1) := by
    unfold shiftIdx shiftStart shiftEnd
    by_cases h : 0 ≤ idx
    · exact ⟨idx.toNat, by omega, by omega, by rw [if_pos h], by rw [if_pos h]; omega, by rw [if_pos h]; omega⟩
    · exact ⟨(l.length + idx).toNat, by omega, by omega, by rw [if_neg h], by rw [if_neg h]; omega, by rw [if_neg h]; omega⟩
  have ha : l[i - 1]? = some (l[i - 1]'(by omega)) := List.getElem?_eq_getElem _
  have hb : l[min (i + 1) (l.length - 1)]? = some (l[min (i + 1) (l.length - 1)]'(by omega)) := List.getElem?_eq_getElem _
  obtain ⟨q, hq, h4, h5⟩ := fromArcCoords_beside ha hb l[i] d
  refine ⟨i, _, l[i], _, q, hi, List.getElem?_eq_getElem hlt, ha, ?_, ?_, fun h => ⟨h4 h, beside_dist h (h4 h)⟩, h5⟩
  · by_cases hi1 : i + 1 < l.length
    · left; rw [← hb]; congr 1; omega
    · right
      refine ⟨by omega, ?_⟩
      have : min (i + 1) (l.length - 1) = i := by omega
      simp only [this]
  · unfold lateralShiftPointAtIndex
    rw [if_neg (by omega), h1, List.getElem?_eq_getElem hlt]
    simp only [h2, h3]
    unfold fromArcCoordsChecked
    rw [if_neg (by omega), if_neg (by omega), if_neg (by omega), hq]

/-- **C73.** An index without point, and a linestring with fewer than two points, are rejected. -/
theorem shift_error {l : List (ℝ × ℝ)} {idx : Int} (h : l.length ≤ idx.natAbs ∨ l.length < 2) (d : ℝ) :
    lateralShiftPointAtIndex l idx d = .error .invalidInput := by
  unfold lateralShiftPointAtIndex
  by_cases h1 : l.length < idx.natAbs + 1
  · exact if_pos h1
  · rw [if_neg h1]
    have h0 : idx = 0 := by omega
    have h2 : l.length = 1 := by omega
    subst h0
    simp only [h2, shiftIdx, shiftStart, shiftEnd]
    obtain ⟨x, rfl⟩ := List.length_eq_one_iff.mp h2
    simp [fromArcCoordsChecked]

/-- a corner of a linestring with a short and a long segment -/
example : ∃ q, lateralShiftPointAtIndex [(0, 0), (4, 0), (4, 3)] 1 5 = .ok q ∧ Beside (0, 0) (4, 3) (4, 0) q 5 ∧ dist ((4, 0) : ℝ × ℝ) q = 5 := by
  obtain ⟨i, a, p, b, q, h1, h2, h3, h4, h5, h6, -⟩ := shift_spec (l := [(0, 0), (4, 0), (4, 3)]) (idx := 1) (by simp) (by simp) 5
  have : i = 1 := by
    rcases h1 with h | h
    · omega
    · have : i = 4 := by simp at h; omega
      subst this; simp at h2
  subst this
  simp at h2 h3 h4
  subst h2; subst h3
  have h4 : b = (4, 3) := h4.symm
  subst h4
  have := h6 (by intro hc; have := congrArg Prod.fst hc; norm_num at this)
  exact ⟨q, h5, this.1, by rw [this.2]; norm_num⟩

/-! ### disagreements -/

/-- **Disagreement with C73.** Negative indices count from the back, but the one of the first point is rejected for every linestring. -/
theorem shift_front_counterexample (l : List (ℝ × ℝ)) (d : ℝ) : lateralShiftPointAtIndex l (-(l.length : Int)) d = .error .invalidInput :=
  shift_error (.inl (by omega)) d

/-- **Disagreement with C73.** The direction is documented as the average of the directions orthogonal to the neighbouring segments, but it
is orthogonal to the line through the neighbours, so the longer segment counts more: at the right angle of (0, 0), (4, 0), (4, 3) the point is
moved by 5 to (1, 4), while the average of the two directions, (0, 1) and (-1, 0), is the diagonal. -/
theorem shift_average_counterexample :
    lateralShiftPointAtIndex [(0, 0), (4, 0), (4, 3)] 1 5 = .ok (1, 4) ∧
      cross (normalized (-(0 - 0), 4 - 0) + normalized (-(3 - 0), 4 - 4)) (((1, 4) : ℝ × ℝ) - (4, 0)) ≠ 0 := by
  constructor
  · obtain ⟨i, a, p, b, q, h1, h2, h3, h4, h5, h6, -⟩ := shift_spec (l := [(0, 0), (4, 0), (4, 3)]) (idx := 1) (by simp) (by simp) 5
    have : i = 1 := by
      rcases h1 with h | h
      · omega
      · have : i = 4 := by simp at h; omega
        subst this; simp at h2
    subst this
    simp at h2 h3 h4
    subst h2; subst h3
    have h4 : b = (4, 3) := h4.symm
    subst h4
    have hab : ((0, 0) : ℝ × ℝ) ≠ (4, 3) := by intro hc; have := congrArg Prod.fst hc; norm_num at this
    have e : q = (1, 4) := by
      refine beside_unique hab (h6 hab).1 ⟨by rw [dot2]; norm_num, ?_⟩
      rw [dist_nat ((0, 0) : ℝ × ℝ) (4, 3) 5 (by norm_num) (by norm_num)]
      norm_num [cross]
    rw [h5, e]
  · have e1 : normalized ((-(0 - 0), 4 - 0) : ℝ × ℝ) = (0, 1) := by
      have : norm ((-(0 - 0), 4 - 0) : ℝ × ℝ) = 4 := by
        rw [norm2]; norm_num
        rw [show (16 : ℝ) = 4 * 4 by norm_num, Real.sqrt_mul_self (by norm_num)]
      unfold normalized
      rw [this, if_pos (by norm_num)]
      ext <;> norm_num
    have e2 : normalized ((-(3 - 0), 4 - 4) : ℝ × ℝ) = (-1, 0) := by
      have : norm ((-(3 - 0), 4 - 4) : ℝ × ℝ) = 3 := by
        rw [norm2]; norm_num
        rw [show (9 : ℝ) = 3 * 3 by norm_num, Real.sqrt_mul_self (by norm_num)]
      unfold normalized
      rw [this, if_pos (by norm_num)]
      ext <;> norm_num
    rw [e1, e2]
    norm_num [cross]

/-- **Disagreement with C73.** Where a linestring turns back to its previous point, the point is not moved at all. -/
theorem shift_turn_counterexample (d : ℝ) : lateralShiftPointAtIndex [(0, 0), (1, 0), (0, 0)] 1 d = .ok (1, 0) := by
  obtain ⟨i, a, p, b, q, h1, h2, h3, h4, h5, -, h6⟩ := shift_spec (l := [(0, 0), (1, 0), (0, 0)]) (idx := 1) (by simp) (by simp) d
  have : i = 1 := by
    rcases h1 with h | h
    · omega
    · have : i = 4 := by simp at h; omega
      subst this; simp at h2
  subst this
  simp at h2 h3 h4
  rw [h5, h6 (by rw [← h3]; exact h4), ← h2]

end Verif.Geo
