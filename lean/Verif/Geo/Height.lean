import Verif.Geo.Plane

/-!
C74: crossings with a tolerance of the height. Model of intersects3d of linestrings,
lanelet2_core/include/lanelet2_core/geometry/impl/LineString.h 773-786, and of the height test of intersects3d and overlaps3d of lanelets,
lanelet2_core/include/lanelet2_core/geometry/impl/Lanelet.h 110-126, and of overlaps3d of polygons, impl/Polygon.h 71-79, with exact arithmetic.
The crossings in the plane are found by boost; they are a parameter.
-/
namespace Verif.Geo

/-! ### model -/

/-- distanceSmallerTolerance in intersects3d, impl/LineString.h 780-784: at a crossing `c` in the plane -/
noncomputable def smallerTolerance (ix : Index ℝ (ℝ × ℝ × ℝ)) (l1 l2 : List (ℝ × ℝ × ℝ)) (tolerance : ℝ) (c : ℝ × ℝ) : Except Fault Bool := do
  let p1 ← projectLine ix l1 (c.1, c.2, 0)
  let p2 ← projectLine ix l2 (c.1, c.2, 0)
  return decide (dist p1.p p2.p < tolerance)

/-- std::any_of with a predicate that can fail; impl/LineString.h 785 -/
def anyM {α : Type} (f : α → Except Fault Bool) : List α → Except Fault Bool
  | [] => .ok false
  | x :: l => do
    let b ← f x
    if b then return true else anyM f l

/-- intersects3d of linestrings, impl/LineString.h 773-786; `cuts` are the crossings of the linestrings in the plane
(boost::geometry::intersection, 778-779) -/
noncomputable def intersects3d (ix : Index ℝ (ℝ × ℝ × ℝ)) (cuts : List (ℝ × ℝ)) (l1 l2 : List (ℝ × ℝ × ℝ)) (tolerance : ℝ) : Except Fault Bool :=
  anyM (smallerTolerance ix l1 l2 tolerance) cuts

/-- intersects3d and overlaps3d of lanelets, Lanelet.h 110-126: `in2d` is the answer in the plane, `c1` and `c2` are the centerlines. overlaps3d
of polygons, Polygon.h 71-79, is the same with the borders (`closed`) instead of the centerlines. -/
noncomputable def overlaps3dOf (small : ℝ) (ix : Index ℝ (ℝ × ℝ × ℝ)) (closed : Bool) (in2d : Bool) (c1 c2 : List (ℝ × ℝ × ℝ)) (tolerance : ℝ) :
    Except Fault Bool :=
  if in2d then do
    let r ← projectedPair small ix closed c1 c2
    return decide (|r.p1.2.2 - r.p2.2.2| < tolerance)
  else .ok false

/-! ### specification -/

/-- the linestring is at the height `z` everywhere; Specification. -/
def Level (l : List (ℝ × ℝ × ℝ)) (z : ℝ) : Prop := ∀ p ∈ l, p.2.2 = z

/-- the linestring passes over the place `c` of the plane at the height `z`; Specification. -/
def Over (l : List (ℝ × ℝ × ℝ)) (c : ℝ × ℝ) (z : ℝ) : Prop := OnLine l (c.1, c.2, z)

/-! ### proofs -/

theorem dist3 (u v : ℝ × ℝ × ℝ) : dist u v = Real.sqrt ((u.1 - v.1) * (u.1 - v.1) + ((u.2.1 - v.2.1) * (u.2.1 - v.2.1) + (u.2.2 - v.2.2) * (u.2.2 - v.2.2))) := rfl

theorem seg_mem3 {l : List (ℝ × ℝ × ℝ)} {s : (ℝ × ℝ × ℝ) × (ℝ × ℝ × ℝ)} (h : s ∈ segs l) : s.1 ∈ l ∧ s.2 ∈ l := by
  match l, h with
  | [x], h => simp only [segs, List.mem_singleton] at h; subst h; simp
  | x :: y :: l, h =>
    have h : s ∈ (x :: y :: l).zip (y :: l) := h
    obtain ⟨h1, h2⟩ := List.of_mem_zip (a := s.1) (b := s.2) h
    exact ⟨h1, List.mem_cons_of_mem _ h2⟩

theorem level_onLine {l : List (ℝ × ℝ × ℝ)} {z : ℝ} (h : Level l z) {x : ℝ × ℝ × ℝ} (hx : OnLine l x) : x.2.2 = z := by
  obtain ⟨s, hs, t, -, -, rfl⟩ := hx
  have h1 := h _ (seg_mem3 hs).1
  have h2 := h _ (seg_mem3 hs).2
  simp only [Prod.snd_add, Prod.smul_snd, Prod.snd_sub, smul_eq_mul, h1, h2]
  ring

/-- on a level linestring the closest point to a place below it is the one above this place -/
theorem level_project {ix : Index ℝ (ℝ × ℝ × ℝ)} (hix : ix.Ok) {l : List (ℝ × ℝ × ℝ)} {z : ℝ} (h : Level l z) {c : ℝ × ℝ} (hc : Over l c z) :
    ∃ r, projectLine ix l (c.1, c.2, 0) = .ok r ∧ r.p = (c.1, c.2, z) := by
  have hl : l ≠ [] := by
    rintro rfl
    obtain ⟨s, hs, -⟩ := hc
    cases hs
  obtain ⟨r, h1, -, -, h4, h5⟩ := projectLine_nearest hix hl (c.1, c.2, 0)
  refine ⟨r, h1, ?_⟩
  have hz := level_onLine h h4
  have := h5 _ hc
  rw [dist3, dist3, Real.sqrt_le_sqrt_iff (add_nonneg (mul_self_nonneg _) (add_nonneg (mul_self_nonneg _) (mul_self_nonneg _)))] at this
  simp only [hz] at this
  have e1 : (r.p.1 - c.1) * (r.p.1 - c.1) ≤ 0 := by nlinarith [mul_self_nonneg (r.p.2.1 - c.2)]
  have e2 : (r.p.2.1 - c.2) * (r.p.2.1 - c.2) ≤ 0 := by nlinarith [mul_self_nonneg (r.p.1 - c.1)]
  have e1 := mul_self_eq_zero.mp (le_antisymm e1 (mul_self_nonneg _))
  have e2 := mul_self_eq_zero.mp (le_antisymm e2 (mul_self_nonneg _))
  exact Prod.ext (by simpa using sub_eq_zero.mp e1) (Prod.ext (by simpa using sub_eq_zero.mp e2) hz)

/-- **C74.** Level linestrings intersect iff they cross in the plane and their heights differ by less than the tolerance. -/
theorem intersects3d_level_partial {ix : Index ℝ (ℝ × ℝ × ℝ)} (hix : ix.Ok) {l1 l2 : List (ℝ × ℝ × ℝ)} {z1 z2 : ℝ} (h1 : Level l1 z1) (h2 : Level l2 z2)
    {cuts : List (ℝ × ℝ)} (hc : ∀ c ∈ cuts, Over l1 c z1 ∧ Over l2 c z2) (tolerance : ℝ) :
    intersects3d ix cuts l1 l2 tolerance = .ok (decide (cuts ≠ [] ∧ |z1 - z2| < tolerance)) := by
  have hstep : ∀ c ∈ cuts, smallerTolerance ix l1 l2 tolerance c = .ok (decide (|z1 - z2| < tolerance)) := by
    intro c hcm
    obtain ⟨r1, e1, p1⟩ := level_project hix h1 (hc c hcm).1
    obtain ⟨r2, e2, p2⟩ := level_project hix h2 (hc c hcm).2
    unfold smallerTolerance
    simp only [e1, e2, bind, Except.bind, pure, Except.pure, p1, p2]
    have : dist ((c.1, c.2, z1) : ℝ × ℝ × ℝ) (c.1, c.2, z2) = |z1 - z2| := by
      rw [dist3]
      simp only [sub_self, mul_zero, zero_add]
      exact Real.sqrt_mul_self_eq_abs _
    rw [this]
  unfold intersects3d
  clear hc
  induction cuts with
  | nil => rfl
  | cons c cuts ih =>
    rw [anyM, hstep c (by simp)]
    simp only [bind, Except.bind]
    by_cases h : |z1 - z2| < tolerance
    · simp [h, pure, Except.pure]
    · simp only [h, decide_false, and_false]
      have := ih fun c hc => hstep c (List.mem_cons_of_mem _ hc)
      rw [this]
      simp [h]

/-- **C74.** Without crossing in the plane there is no intersection. -/
theorem intersects3d_none (ix : Index ℝ (ℝ × ℝ × ℝ)) (l1 l2 : List (ℝ × ℝ × ℝ)) (tolerance : ℝ) : intersects3d ix [] l1 l2 tolerance = .ok false := rfl

/-- **C74.** Lanelets that overlap in the plane overlap in space iff the heights of a closest pair of points of their centerlines differ by less
than the tolerance. With level centerlines these are the heights of the lanelets. -/
theorem overlaps3d_level_partial {small : ℝ} (hs : 0 < small) {ix : Index ℝ (ℝ × ℝ × ℝ)} (hix : ix.Ok) {c1 c2 : List (ℝ × ℝ × ℝ)} {z1 z2 : ℝ}
    (h1 : Level c1 z1) (h2 : Level c2 z2) (hn1 : c1 ≠ []) (hn2 : c2 ≠ []) (in2d : Bool) (tolerance : ℝ) :
    overlaps3dOf small ix false in2d c1 c2 tolerance = .ok (in2d && decide (|z1 - z2| < tolerance)) := by
  cases in2d with
  | false => rfl
  | true =>
    obtain ⟨r, e, o1, o2, -⟩ := projectedPair_best hs hix hn1 hn2
    unfold overlaps3dOf
    simp only [if_true, e, bind, Except.bind, pure, Except.pure, level_onLine h1 o1, level_onLine h2 o2, Bool.true_and]

/-! ### examples -/

/-- a road; Example. -/
def road : List (ℝ × ℝ × ℝ) := [(-10, 0, 0), (10, 0, 0)]

/-- a bridge across the road; Example. -/
def bridge : List (ℝ × ℝ × ℝ) := [(0, -10, 5), (0, 10, 5)]

/-- the bridge does not intersect the road with a tolerance of 3, but with one of 6 -/
example {ix : Index ℝ (ℝ × ℝ × ℝ)} (hix : ix.Ok) :
    intersects3d ix [(0, 0)] road bridge 3 = .ok false ∧ intersects3d ix [(0, 0)] road bridge 6 = .ok true := by
  have h : ∀ c ∈ ([(0, 0)] : List (ℝ × ℝ)), Over road c 0 ∧ Over bridge c 5 := by
    intro c hc
    simp only [List.mem_singleton] at hc
    subst hc
    exact ⟨⟨((-10, 0, 0), (10, 0, 0)), by simp [road, segs], 1 / 2, by norm_num, by norm_num, by ext <;> norm_num⟩,
      ⟨((0, -10, 5), (0, 10, 5)), by simp [bridge, segs], 1 / 2, by norm_num, by norm_num, by ext <;> norm_num⟩⟩
  have h1 : Level road 0 := by intro p hp; simp [road] at hp; rcases hp with rfl | rfl <;> rfl
  have h2 : Level bridge 5 := by intro p hp; simp [bridge] at hp; rcases hp with rfl | rfl <;> rfl
  rw [intersects3d_level_partial hix h1 h2 h, intersects3d_level_partial hix h1 h2 h]
  norm_num [abs_of_neg]

/-! ### disagreements -/

theorem projectLine_two (ix : Index ℝ (ℝ × ℝ × ℝ)) (a b p : ℝ × ℝ × ℝ) : projectLine ix [a, b] p = .ok (Proj.of p (a, b)) := by
  have h : projBruteForce [a, b] p = .ok (some (Proj.of p (a, b))) := by
    unfold projBruteForce
    simp only [distForAll, distLoop, bind, Except.bind, Proj.update, pure, Except.pure]
    by_cases h : (Proj.of (F := ℝ) p (a, b)).distance = 0
    · exact if_pos h
    · exact if_neg h
  unfold projectLine
  rw [if_pos (by simp), h]
  rfl

theorem projectPoint_inside {a b p : ℝ × ℝ × ℝ} {c1 c2 : ℝ} (h1 : dot (p - a) (b - a) = c1) (h2 : dot (b - a) (b - a) = c2) (h3 : 0 < c1) (h4 : c1 < c2) :
    projectPoint a b p = (c1 / c2) • (b - a) + a := by
  unfold projectPoint
  simp only [h1, h2]
  rw [if_neg (not_le.mpr h3), if_neg (not_le.mpr h4)]

theorem dot3 (u v : ℝ × ℝ × ℝ) : dot u v = u.1 * v.1 + (u.2.1 * v.2.1 + u.2.2 * v.2.2) := rfl

/-- **Disagreement with C74.** The crossing is looked up from the height zero, so on a slope another point of the linestring is found. A ramp
from (-100, 0, 0) to (100, 0, 200) and a road from (0, -10, 100) to (0, 10, 100) meet in (0, 0, 100), but they do not intersect, not even with a
tolerance of 70. -/
theorem intersects3d_slope_counterexample (ix : Index ℝ (ℝ × ℝ × ℝ)) :
    intersects3d ix [(0, 0)] [(-100, 0, 0), (100, 0, 200)] [(0, -10, 100), (0, 10, 100)] 70 = .ok false ∧
      Over [(-100, 0, 0), (100, 0, 200)] (0, 0) 100 ∧ Over [(0, -10, 100), (0, 10, 100)] (0, 0) 100 := by
  refine ⟨?_, ⟨((-100, 0, 0), (100, 0, 200)), by simp [segs], 1 / 2, by norm_num, by norm_num, by ext <;> norm_num⟩,
    ⟨((0, -10, 100), (0, 10, 100)), by simp [segs], 1 / 2, by norm_num, by norm_num, by ext <;> norm_num⟩⟩
  have p1 : projectPoint ((-100, 0, 0) : ℝ × ℝ × ℝ) (100, 0, 200) (0, 0, 0) = (-50, 0, 50) := by
    rw [projectPoint_inside (c1 := 20000) (c2 := 80000) (by rw [dot3]; norm_num) (by rw [dot3]; norm_num) (by norm_num) (by norm_num)]
    ext <;> norm_num
  have p2 : projectPoint ((0, -10, 100) : ℝ × ℝ × ℝ) (0, 10, 100) (0, 0, 0) = (0, 0, 100) := by
    rw [projectPoint_inside (c1 := 200) (c2 := 400) (by rw [dot3]; norm_num) (by rw [dot3]; norm_num) (by norm_num) (by norm_num)]
    ext <;> norm_num
  unfold intersects3d anyM smallerTolerance
  simp only [projectLine_two, bind, Except.bind, pure, Except.pure, Proj.of, p1, p2]
  have : ¬ dist ((-50, 0, 50) : ℝ × ℝ × ℝ) (0, 0, 100) < 70 := by
    rw [dist3, not_lt]
    refine Real.le_sqrt_of_sq_le ?_
    norm_num
  simp [this, anyM]

/-- **Disagreement with C74.** In the other direction: two ramps cross in the plane at (0, 0), the first one at the height 8, the second one at
the height 4, and they intersect with a tolerance of 3. -/
theorem intersects3d_ramps_counterexample (ix : Index ℝ (ℝ × ℝ × ℝ)) :
    intersects3d ix [(0, 0)] [(-8, 0, 0), (8, 0, 16)] [(-8, -1, -4), (8, 1, 12)] 3 = .ok true ∧
      Over [(-8, 0, 0), (8, 0, 16)] (0, 0) 8 ∧ Over [(-8, -1, -4), (8, 1, 12)] (0, 0) 4 := by
  refine ⟨?_, ⟨((-8, 0, 0), (8, 0, 16)), by simp [segs], 1 / 2, by norm_num, by norm_num, by ext <;> norm_num⟩,
    ⟨((-8, -1, -4), (8, 1, 12)), by simp [segs], 1 / 2, by norm_num, by norm_num, by ext <;> norm_num⟩⟩
  have p1 : projectPoint ((-8, 0, 0) : ℝ × ℝ × ℝ) (8, 0, 16) (0, 0, 0) = (-4, 0, 4) := by
    rw [projectPoint_inside (c1 := 128) (c2 := 512) (by rw [dot3]; norm_num) (by rw [dot3]; norm_num) (by norm_num) (by norm_num)]
    ext <;> norm_num
  have p2 : projectPoint ((-8, -1, -4) : ℝ × ℝ × ℝ) (8, 1, 12) (0, 0, 0) = (-256 / 129, -32 / 129, 260 / 129) := by
    rw [projectPoint_inside (c1 := 194) (c2 := 516) (by rw [dot3]; norm_num) (by rw [dot3]; norm_num) (by norm_num) (by norm_num)]
    ext <;> norm_num
  unfold intersects3d anyM smallerTolerance
  simp only [projectLine_two, bind, Except.bind, pure, Except.pure, Proj.of, p1, p2]
  have : dist ((-4, 0, 4) : ℝ × ℝ × ℝ) (-256 / 129, -32 / 129, 260 / 129) < 3 := by
    rw [dist3, Real.sqrt_lt' (by norm_num)]
    norm_num
  simp [this]

theorem projectedPair_two3 (small : ℝ) (ix : Index ℝ (ℝ × ℝ × ℝ)) (closed : Bool) (a b c d : ℝ × ℝ × ℝ) :
    projectedPair small ix closed [a, b] [c, d] = .ok (Pair.of small (c, d) (a, b)).swap := by
  have h1 : ∀ x y : ℝ × ℝ × ℝ, distForAll (fun r c d => .ok (some (Pair.update small r (x, y) (c, d)),
      (Pair.update small r (x, y) (c, d)).distance)) none [a, b] = .ok (some (Pair.of small (x, y) (a, b))) := by
    intro x y
    simp only [distForAll, distLoop, bind, Except.bind, Pair.update, pure, Except.pure]
    by_cases h : (Pair.of small (x, y) (a, b)).distance = 0
    · exact if_pos h
    · exact if_neg h
  have h2 : pairBruteForce small [c, d] [a, b] = .ok (some (Pair.of small (c, d) (a, b))) := by
    unfold pairBruteForce
    rw [distForAll]
    · simp only [distLoop, h1, bind, Except.bind, derefPair, pure, Except.pure]
      by_cases h : (Pair.of small (c, d) (a, b)).distance = 0
      · exact if_pos h
      · exact if_neg h
    · simp
  have h3 : pairOrdered small ix closed [c, d] [a, b] = .ok (some (Pair.of small (c, d) (a, b))) := by
    unfold pairOrdered
    rw [if_neg (by simp), if_pos (by simp), h2]
  unfold projectedPair
  rw [if_neg (by simp), h3]
  rfl

/-- **Disagreement with C74.** The heights of lanelets are compared where their centerlines are closest to each other, not where the lanelets
overlap. The centerline of a road leads from (0, 0, 0) to (100, 0, 0), the one of a ramp from (0, 5, 0) to (100, -5, 10); they cross at (50, 0),
5 metres above each other, but they overlap with a tolerance of 3. -/
theorem overlaps3d_ramp_counterexample (ix : Index ℝ (ℝ × ℝ × ℝ)) :
    overlaps3dOf smallNum ix false true [(0, 0, 0), (100, 0, 0)] [(0, 5, 0), (100, -5, 10)] 3 = .ok true ∧
      Over [(0, 0, 0), (100, 0, 0)] (50, 0) 0 ∧ Over [(0, 5, 0), (100, -5, 10)] (50, 0) 5 := by
  refine ⟨?_, ⟨((0, 0, 0), (100, 0, 0)), by simp [segs], 1 / 2, by norm_num, by norm_num, by ext <;> norm_num⟩,
    ⟨((0, 5, 0), (100, -5, 10)), by simp [segs], 1 / 2, by norm_num, by norm_num, by ext <;> norm_num⟩⟩
  have e : segmentParams smallNum (((0, 5, 0) : ℝ × ℝ × ℝ) - (0, 0, 0)) ((100, -5, 10) - (0, 5, 0)) ((100, 0, 0) - (0, 0, 0)) =
      ⟨500000, 2000000, 500000, 2000000⟩ := by
    simp only [segmentParams, dot3, Prod.fst_sub, Prod.snd_sub]
    norm_num
    unfold lineParams
    rw [if_neg (by unfold smallNum; norm_num)]
    norm_num [clampParams]
  have r1 : ratio smallNum 500000 2000000 = 1 / 4 := by
    unfold ratio smallNum
    rw [if_neg (by rw [abs_of_pos (by norm_num)]; norm_num)]
    norm_num
  unfold overlaps3dOf
  simp only [if_true, projectedPair_two3, bind, Except.bind, pure, Except.pure, Pair.swap, Pair.of, projectSegments, e, r1]
  norm_num [abs_of_pos, abs_of_neg]

end Verif.Geo
