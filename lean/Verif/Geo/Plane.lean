import Verif.Geo.Nearest
import Mathlib.Data.Real.Sqrt

/-!
The spaces of the code: two and three dimensions with real numbers, and the boxes of the R-tree. Examples and counterexamples for
C41 and C42.
-/
namespace Verif.Geo
open scoped List

/-- BasicPoint2d -/
noncomputable instance : Space ℝ (ℝ × ℝ) where
  dot u v := u.1 * v.1 + u.2 * v.2
  norm u := Real.sqrt (u.1 * u.1 + u.2 * u.2)
  dot_comm u v := by ring
  dot_add u v w := by simp only [Prod.fst_add, Prod.snd_add]; ring
  dot_smul a v w := by simp only [Prod.smul_fst, Prod.smul_snd, smul_eq_mul]; ring
  dot_pos v hv := by
    have : v.1 ≠ 0 ∨ v.2 ≠ 0 := by
      by_contra h
      rw [not_or, not_not, not_not] at h
      exact hv (Prod.ext h.1 h.2)
    rcases this with h | h
    · have := mul_self_pos.mpr h; nlinarith [mul_self_nonneg v.2]
    · have := mul_self_pos.mpr h; nlinarith [mul_self_nonneg v.1]
  norm_nonneg u := Real.sqrt_nonneg _
  norm_sq u := Real.mul_self_sqrt (add_nonneg (mul_self_nonneg _) (mul_self_nonneg _))

/-- BasicPoint3d -/
noncomputable instance : Space ℝ (ℝ × ℝ × ℝ) where
  dot u v := u.1 * v.1 + (u.2.1 * v.2.1 + u.2.2 * v.2.2)
  norm u := Real.sqrt (u.1 * u.1 + (u.2.1 * u.2.1 + u.2.2 * u.2.2))
  dot_comm u v := by ring
  dot_add u v w := by simp only [Prod.fst_add, Prod.snd_add]; ring
  dot_smul a v w := by simp only [Prod.smul_fst, Prod.smul_snd, smul_eq_mul]; ring
  dot_pos v hv := by
    have : v.1 ≠ 0 ∨ v.2.1 ≠ 0 ∨ v.2.2 ≠ 0 := by
      by_contra h
      rw [not_or, not_or, not_not, not_not, not_not] at h
      exact hv (Prod.ext h.1 (Prod.ext h.2.1 h.2.2))
    rcases this with h | h | h
    · have := mul_self_pos.mpr h; nlinarith [mul_self_nonneg v.2.1, mul_self_nonneg v.2.2]
    · have := mul_self_pos.mpr h; nlinarith [mul_self_nonneg v.1, mul_self_nonneg v.2.2]
    · have := mul_self_pos.mpr h; nlinarith [mul_self_nonneg v.1, mul_self_nonneg v.2.1]
  norm_nonneg u := Real.sqrt_nonneg _
  norm_sq u := Real.mul_self_sqrt (add_nonneg (mul_self_nonneg _) (add_nonneg (mul_self_nonneg _) (mul_self_nonneg _)))

theorem dot2 (u v : ℝ × ℝ) : dot u v = u.1 * v.1 + u.2 * v.2 := rfl
theorem norm2 (u : ℝ × ℝ) : norm u = Real.sqrt (u.1 * u.1 + u.2 * u.2) := rfl
theorem dist2 (u v : ℝ × ℝ) : dist u v = Real.sqrt ((u.1 - v.1) * (u.1 - v.1) + (u.2 - v.2) * (u.2 - v.2)) := rfl

/-! ### boxes -/

/-- the distance of two intervals `[min a b, max a b]`; Specification of boost's distance of boxes, used by LineStringGeometry.cpp 233-247. -/
noncomputable def gap (a b c d : ℝ) : ℝ := max 0 (max (min a b - max c d) (min c d - max a b))

/-- boost::geometry::distance of the envelopes of two segments; LineStringGeometry.cpp 233-247 -/
noncomputable def boxDist2 (q s : (ℝ × ℝ) × (ℝ × ℝ)) : ℝ :=
  Real.sqrt (gap q.1.1 q.2.1 s.1.1 s.2.1 * gap q.1.1 q.2.1 s.1.1 s.2.1 + gap q.1.2 q.2.2 s.1.2 s.2.2 * gap q.1.2 q.2.2 s.1.2 s.2.2)

/-- The R-trees of LineStringGeometry.cpp 215-300 in the plane; among segments at the same distance one order is fixed here. -/
noncomputable def index2 : Index ℝ (ℝ × ℝ) where
  search q l := l.insertionSort fun a b => boxDist2 q a ≤ boxDist2 q b
  boxDist := boxDist2

theorem between {a b t : ℝ} (h0 : 0 ≤ t) (h1 : t ≤ 1) : min a b ≤ a + t * (b - a) ∧ a + t * (b - a) ≤ max a b := by
  rcases le_total a b with h | h
  · rw [min_eq_left h, max_eq_right h]; constructor <;> nlinarith
  · rw [min_eq_right h, max_eq_left h]; constructor <;> nlinarith

theorem gap_le {a b c d x y : ℝ} (hx : min a b ≤ x ∧ x ≤ max a b) (hy : min c d ≤ y ∧ y ≤ max c d) : gap a b c d ≤ |x - y| := by
  unfold gap
  refine max_le (abs_nonneg _) (max_le ?_ ?_)
  · have := le_abs_self (x - y); linarith [hx.1, hy.2]
  · have := neg_le_abs (x - y); linarith [hx.2, hy.1]

theorem gap_nonneg (a b c d : ℝ) : 0 ≤ gap a b c d := le_max_left _ _

/-- the index with boxes meets the assumptions -/
theorem index2_ok : index2.Ok where
  perm q l := List.perm_insertionSort _ l
  sorted q l := by
    haveI : Std.Total fun a b : (ℝ × ℝ) × (ℝ × ℝ) => boxDist2 q a ≤ boxDist2 q b := ⟨fun a b => le_total _ _⟩
    haveI : IsTrans _ fun a b : (ℝ × ℝ) × (ℝ × ℝ) => boxDist2 q a ≤ boxDist2 q b := ⟨fun a b c => le_trans⟩
    exact List.pairwise_insertionSort _ l
  lower q s x y hx hy := by
    obtain ⟨t, h0, h1, rfl⟩ := hx
    obtain ⟨r, h2, h3, rfl⟩ := hy
    have g1 := gap_le (between (a := q.1.1) (b := q.2.1) h0 h1) (between (a := s.1.1) (b := s.2.1) h2 h3)
    have g2 := gap_le (between (a := q.1.2) (b := q.2.2) h0 h1) (between (a := s.1.2) (b := s.2.2) h2 h3)
    have m1 := mul_self_le_mul_self (gap_nonneg _ _ _ _) g1
    have m2 := mul_self_le_mul_self (gap_nonneg _ _ _ _) g2
    rw [abs_mul_abs_self] at m1 m2
    refine Real.sqrt_le_sqrt ?_
    exact add_le_add m1 m2

/-! ### examples -/

example : projectPoint ((0, 0) : ℝ × ℝ) (4, 0) (1, 3) = (1, 0) := by
  unfold projectPoint
  simp only [dot2, Prod.fst_sub, Prod.snd_sub]
  norm_num

/-- in three dimensions -/
example : projectPoint ((0, 0, 1) : ℝ × ℝ × ℝ) (4, 0, 1) (1, 3, 5) = (1, 0, 1) := by
  have h : ∀ u v : ℝ × ℝ × ℝ, dot u v = u.1 * v.1 + (u.2.1 * v.2.1 + u.2.2 * v.2.2) := fun _ _ => rfl
  unfold projectPoint
  simp only [h, Prod.fst_sub, Prod.snd_sub]
  norm_num

/-- SmallNum, LineStringGeometry.cpp 28 -/
noncomputable def smallNum : ℝ := 1 / 10 ^ 10

theorem smallNum_pos : 0 < smallNum := by unfold smallNum; positivity

/-- the projection on a linestring that touches itself, with the index of boxes -/
example : ∃ r, projectLine index2 [((0, 0) : ℝ × ℝ), (4, 0), (4, 4), (0, 0)] (2, -1) = .ok r ∧ dist r.p (2, -1) ≤ 1 := by
  obtain ⟨r, h1, -, -, -, h2⟩ := projectLine_nearest index2_ok (l := [((0, 0) : ℝ × ℝ), (4, 0), (4, 4), (0, 0)]) (by simp) (2, -1)
  refine ⟨r, h1, le_trans (h2 (2, 0) ⟨((0, 0), (4, 0)), by simp [segs], 1 / 2, by norm_num, by norm_num, ?_⟩) ?_⟩
  · ext <;> simp <;> norm_num
  · rw [dist2]; norm_num

/-- two lines that cross -/
example : ∃ r, projectedPair smallNum index2 false [((0, 0) : ℝ × ℝ), (4, 4)] [(0, 4), (4, 0), (8, 0)] = .ok r ∧
    dist r.p1 r.p2 ≤ 16 * smallNum := by
  have hf : Fine smallNum smallNum [((0, 0) : ℝ × ℝ), (4, 4)] [(0, 4), (4, 0), (8, 0)] := by
    have hp := smallNum_pos
    have h1 : smallNum ≤ 1 := by unfold smallNum; norm_num
    constructor
    · exact le_refl _
    · intro s hs
      simp only [segs, List.tail_cons, List.zip_cons_cons, List.zip_nil_right, List.mem_cons, List.not_mem_nil, or_false] at hs
      subst hs
      simp only [dot2, Prod.fst_sub, Prod.snd_sub]; nlinarith
    · intro s hs
      simp only [segs, List.tail_cons, List.zip_cons_cons, List.zip_nil_right, List.mem_cons, List.not_mem_nil, or_false] at hs
      rcases hs with rfl | rfl <;> simp only [dot2, Prod.fst_sub, Prod.snd_sub] <;> nlinarith
    · intro s hs s' hs'
      simp only [segs, List.tail_cons, List.zip_cons_cons, List.zip_nil_right, List.mem_cons, List.not_mem_nil, or_false] at hs hs'
      subst hs
      right
      rcases hs' with rfl | rfl <;> simp only [dot2, Prod.fst_sub, Prod.snd_sub] <;> constructor <;> nlinarith
  have hlen : ∀ s : (ℝ × ℝ) × (ℝ × ℝ), (s.1.1 - s.2.1) * (s.1.1 - s.2.1) + (s.1.2 - s.2.2) * (s.1.2 - s.2.2) ≤ 64 → dist s.1 s.2 ≤ 8 := by
    intro s h
    rw [dist2]
    exact Real.sqrt_le_iff.mpr ⟨by norm_num, by linarith⟩
  obtain ⟨r, h1, -, -, h2⟩ := projectedPair_nearest_partial (len := 8) smallNum_pos index2_ok (by simp) (by simp) hf
    (by
      intro s hs
      simp only [segs, List.tail_cons, List.zip_cons_cons, List.zip_nil_right, List.mem_cons, List.not_mem_nil, or_false] at hs
      subst hs
      apply hlen; norm_num)
    (by
      intro s hs
      simp only [segs, List.tail_cons, List.zip_cons_cons, List.zip_nil_right, List.mem_cons, List.not_mem_nil, or_false] at hs
      rcases hs with rfl | rfl <;> apply hlen <;> norm_num)
  refine ⟨r, h1, ?_⟩
  have h3 := h2 (2, 2) (2, 2) ⟨((0, 0), (4, 4)), by simp [segs], 1 / 2, by norm_num, by norm_num, by ext <;> simp <;> norm_num⟩
    ⟨((0, 4), (4, 0)), by simp [segs], 1 / 2, by norm_num, by norm_num, by ext <;> simp <;> norm_num⟩
  rw [dist_self] at h3
  linarith

/-! ### counterexamples -/

/-- two segments as linestrings: the second one is the first argument of the search -/
theorem projectedPair_two (small : ℝ) (ix : Index ℝ (ℝ × ℝ)) (closed : Bool) (a b c d : ℝ × ℝ) :
    projectedPair small ix closed [a, b] [c, d] = .ok (Pair.of small (c, d) (a, b)).swap := by
  have h1 : ∀ x y : ℝ × ℝ, distForAll (fun r c d => .ok (some (Pair.update small r (x, y) (c, d)),
      (Pair.update small r (x, y) (c, d)).distance)) none [a, b] = .ok (some (Pair.of small (x, y) (a, b))) := by
    intro x y
    simp only [distForAll, distLoop, bind, Except.bind, Pair.update, pure, Except.pure]
    by_cases h : (Pair.of small (x, y) (a, b)).distance = 0
    · exact if_pos h
    · exact if_neg h
  have h2 : pairBruteForce small [c, d] [a, b] = .ok (some (Pair.of small (c, d) (a, b))) := by
    unfold pairBruteForce
    rw [distForAll]
    · simp only [distLoop, h1, bind, Except.bind, derefPair, pure, Except.pure]
      by_cases h : (Pair.of small (c, d) (a, b)).distance = 0
      · exact if_pos h
      · exact if_neg h
    · simp
  have h3 : pairOrdered small ix closed [c, d] [a, b] = .ok (some (Pair.of small (c, d) (a, b))) := by
    unfold pairOrdered
    rw [if_neg (by simp), if_pos (by simp), h2]
  unfold projectedPair
  rw [if_neg (by simp), h3]
  rfl

/-- Disagreement with C42 for degenerate segments: the point (1, 0) (as a linestring with two equal points) is on the other
linestring, but the distance is 1. -/
theorem degenerate_segment_counterexample (ix : Index ℝ (ℝ × ℝ)) :
    ∃ r, projectedPair smallNum ix false [((1, 0) : ℝ × ℝ), (1, 0)] [(0, 0), (2, 0)] = .ok r ∧ r.distance = 1 ∧
      OnLine [((0, 0) : ℝ × ℝ), (2, 0)] (1, 0) := by
  refine ⟨_, projectedPair_two _ _ _ _ _ _ _, ?_, ⟨((0, 0), (2, 0)), by simp [segs], 1 / 2, by norm_num, by norm_num, by ext <;> simp⟩⟩
  have hp := smallNum_pos
  have e : segmentParams smallNum (((0, 0) : ℝ × ℝ) - (1, 0)) ((2, 0) - (0, 0)) ((1, 0) - (1, 0)) = ⟨0, 1, 0, 0⟩ := by
    simp only [segmentParams, dot2, Prod.fst_sub, Prod.snd_sub]
    norm_num
    unfold lineParams
    rw [if_pos (by simpa using hp)]
    simp [clampParams]
  simp only [Pair.swap, Pair.of, projectSegments, e]
  rw [dist2]
  simp [ratio, hp]

/-- Disagreement with C42 for short segments: two segments of 2 mm cross, the distance is 1 mm. -/
theorem short_segments_counterexample (ix : Index ℝ (ℝ × ℝ)) :
    ∃ r, projectedPair smallNum ix false [((0, -1 / 1000) : ℝ × ℝ), (0, 1 / 1000)] [(-1 / 1000, 0), (1 / 1000, 0)] = .ok r ∧
      r.distance = 1 / 1000 ∧ OnLine [((0, -1 / 1000) : ℝ × ℝ), (0, 1 / 1000)] (0, 0) ∧
      OnLine [((-1 / 1000, 0) : ℝ × ℝ), (1 / 1000, 0)] (0, 0) := by
  refine ⟨_, projectedPair_two _ _ _ _ _ _ _, ?_, ⟨_, by simp [segs]; rfl, 1 / 2, by norm_num, by norm_num, by ext <;> simp <;> norm_num⟩,
    ⟨_, by simp [segs]; rfl, 1 / 2, by norm_num, by norm_num, by ext <;> simp <;> norm_num⟩⟩
  have hp := smallNum_pos
  have e : segmentParams smallNum (((-1 / 1000, 0) : ℝ × ℝ) - (0, -1 / 1000)) ((1 / 1000, 0) - (-1 / 1000, 0))
      ((0, 1 / 1000) - (0, -1 / 1000)) = ⟨0, 1, 2 / 1000000, 4 / 1000000⟩ := by
    simp only [segmentParams, dot2, Prod.fst_sub, Prod.snd_sub]
    norm_num
    unfold lineParams
    rw [if_pos (by unfold smallNum; norm_num)]
    norm_num [clampParams]
  simp only [Pair.swap, Pair.of, projectSegments, e]
  rw [dist2]
  have r1 : ratio smallNum 0 1 = 0 := by simp [ratio, hp]
  have r2 : ratio smallNum (2 / 1000000) (4 / 1000000) = 1 / 2 := by
    unfold ratio smallNum
    rw [if_neg (by rw [abs_of_pos (by norm_num)]; norm_num)]
    norm_num
  rw [r1, r2]
  norm_num
  rw [show (1000000 : ℝ) = 1000 * 1000 by norm_num, Real.sqrt_mul_self (by norm_num)]
  norm_num

/-- Disagreement with C42 for linestrings of the same size: swapping the arguments does not swap the result (parallel segments with
opposite directions). -/
theorem swap_counterexample (ix : Index ℝ (ℝ × ℝ)) :
    ∃ r r', projectedPair smallNum ix false [((0, 0) : ℝ × ℝ), (1, 0)] [(1, 1), (0, 1)] = .ok r ∧
      projectedPair smallNum ix false [((1, 1) : ℝ × ℝ), (0, 1)] [(0, 0), (1, 0)] = .ok r' ∧
      (r.p1, r.p2) = ((1, 0), (1, 1)) ∧ (r'.p1, r'.p2) = ((0, 1), (0, 0)) := by
  have hp := smallNum_pos
  have r1 : ratio smallNum 0 1 = 0 := by simp [ratio, hp]
  have r2 : ratio smallNum 1 1 = 1 := by
    unfold ratio smallNum
    rw [if_neg (by norm_num)]
    norm_num
  refine ⟨_, _, projectedPair_two _ _ _ _ _ _ _, projectedPair_two _ _ _ _ _ _ _, ?_, ?_⟩
  · have e : segmentParams smallNum (((1, 1) : ℝ × ℝ) - (0, 0)) ((0, 1) - (1, 1)) ((1, 0) - (0, 0)) = ⟨0, 1, 1, 1⟩ := by
      simp only [segmentParams, dot2, Prod.fst_sub, Prod.snd_sub]
      norm_num
      unfold lineParams
      rw [if_pos (by unfold smallNum; norm_num)]
      norm_num [clampParams]
    simp only [Pair.swap, Pair.of, projectSegments, e, r1, r2]
    norm_num
  · have e : segmentParams smallNum (((0, 0) : ℝ × ℝ) - (1, 1)) ((1, 0) - (0, 0)) ((0, 1) - (1, 1)) = ⟨0, 1, 1, 1⟩ := by
      simp only [segmentParams, dot2, Prod.fst_sub, Prod.snd_sub]
      norm_num
      unfold lineParams
      rw [if_pos (by unfold smallNum; norm_num)]
      norm_num [clampParams]
    simp only [Pair.swap, Pair.of, projectSegments, e, r1, r2]
    norm_num

/-- Disagreement with the documentation of projectedBorderPoint2d: the search for polygons with fewer than 50 points does not consider the
segment between the last and the first point. Here the closest border points have distance 1, all points found are further apart. -/
theorem border_counterexample {ix : Index ℝ (ℝ × ℝ)} (hix : ix.Ok) :
    let a : List (ℝ × ℝ) := [(-3, 1), (-1, 2), (-3, 3)]
    let b : List (ℝ × ℝ) := [(0, 0), (4, 0), (4, 4), (0, 4)]
    ∃ r, projectedPair smallNum ix true a b = .ok r ∧ 1 < r.distance ∧
      OnSegment ((0, 4) : ℝ × ℝ) (0, 0) (0, 2) ∧ dist ((-1, 2) : ℝ × ℝ) (0, 2) = 1 := by
  intro a b
  have e : projectedPair smallNum ix true a b = projectedPair smallNum ix false a b := by
    simp only [a, b, projectedPair, pairOrdered, List.length_cons, List.length_nil]
    norm_num
  obtain ⟨r, h1, ⟨s1, hs1, t, ht0, ht1, hx⟩, ⟨s2, hs2, q, hq0, hq1, hy⟩, h4, -⟩ :=
    projectedPair_best smallNum_pos hix (l1 := a) (l2 := b) (by simp [a]) (by simp [b])
  refine ⟨r, by rw [e]; exact h1, ?_, ⟨1 / 2, by norm_num, by norm_num, by ext <;> simp; norm_num⟩, by rw [dist2]; norm_num⟩
  rw [h4, hx, hy, dist2]
  refine Real.lt_sqrt_of_sq_lt ?_
  simp only [a, b, segs, List.tail_cons, List.zip_cons_cons, List.zip_nil_right, List.mem_cons, List.not_mem_nil, or_false] at hs1 hs2
  rcases hs1 with rfl | rfl <;> rcases hs2 with rfl | rfl | rfl <;>
    simp only [Prod.fst_add, Prod.snd_add, Prod.smul_fst, Prod.smul_snd, Prod.fst_sub, Prod.snd_sub, smul_eq_mul] <;> nlinarith

end Verif.Geo
