import Mathlib.Algebra.Order.Ring.Rat
import Mathlib.Data.List.Sort
import Mathlib.Data.Rat.Floor
import Mathlib.Tactic.FieldSimp
import Mathlib.Tactic.Linarith
import Mathlib.Tactic.Positivity
import Mathlib.Tactic.Ring
import Verif.Match.Model

/-!
C48: matching of objects to lanelets.
-/
set_option linter.unusedSectionVars false

namespace Verif.Match
open Verif.Lanelet (LH invertL)
open Verif.Nearest (Box Shape IsDist)
open scoped List

variable {F : Type} [Field F] [LinearOrder F] [IsStrictOrderedRing F]

/-- the distance that is used: from the position of objects without hull, otherwise from the hull -/
def Query.dist (q : Query F) : LH → F := if q.hullEmpty then q.pointDist else q.hullDist

/-- What is assumed about the layer `tree` and the geometry functions: boxes enclose the lanelets, distances are distances,
the r-tree reports all entries with an intersecting box, std::sort sorts. -/
structure QueryOk (q : Query F) (tree : List LH) : Prop where
  ok : ∃ (shape : LH → Shape F) (box : LH → Box F) (point hull : Shape F),
    (∀ e, (box e).Encloses (shape e)) ∧ (∀ b, q.search b ~ tree.filter fun e => b.intersects (box e)) ∧
    q.pointBox.Encloses point ∧ q.hullBox.Encloses hull ∧
    (∀ e, IsDist point (shape e) (q.pointDist e)) ∧ (∀ e, IsDist hull (shape e) (q.hullDist e))
  sort : ∀ l, q.sort l ~ l ∧ (q.sort l).Pairwise fun a b => a.1 ≤ b.1

/-- std::sort -/
def Sorts {M : Type} (key : M → F) (sort : List M → List M) : Prop :=
  ∀ l, sort l ~ l ∧ (sort l).Pairwise fun a b => key a ≤ key b

theorem findWithin_perm (q : Query F) (tree : List LH) (h : QueryOk q tree) (maxDist : F) :
    findWithin q maxDist ~ (tree.filter fun e => decide (q.dist e ≤ maxDist)).map fun e => (q.dist e, e) := by
  obtain ⟨shape, box, point, hull, h1, h2, h3, h4, h5, h6⟩ := h.ok
  unfold findWithin Query.dist
  cases q.hullEmpty with
  | true => exact (Nearest.findWithin_spec tree shape box h1 q.search h2 q.sort h.sort point q.pointBox h3 _ h5 maxDist).2
  | false => exact (Nearest.findWithin_spec tree shape box h1 q.search h2 q.sort h.sort hull q.hullBox h4 _ h6 maxDist).2

/-- C48: the matches are all lanelets within the distance, in both directions, ordered by distance. -/
theorem deterministic_spec (q : Query F) (tree : List LH) (h : QueryOk q tree) (sort : List (LMatch F) → List (LMatch F))
    (hs : Sorts (·.distance) sort) (maxDist : F) :
    let r := getDeterministicMatches sort q maxDist
    r.Pairwise (fun a b => a.distance ≤ b.distance) ∧
    r ~ (tree.filter fun e => decide (q.dist e ≤ maxDist)).flatMap fun e => [⟨e, q.dist e⟩, ⟨invertL e, q.dist e⟩] := by
  refine ⟨(hs _).2, (hs _).1.trans ?_⟩
  refine ((findWithin_perm q tree h maxDist).flatMap_right _).trans ?_
  rw [List.flatMap_map]

theorem deterministic_mem (q : Query F) (tree : List LH) (h : QueryOk q tree) (sort : List (LMatch F) → List (LMatch F))
    (hs : Sorts (·.distance) sort) (maxDist : F) (l : LH) (d : F) :
    (⟨l, d⟩ : LMatch F) ∈ getDeterministicMatches sort q maxDist ↔
      ∃ e ∈ tree, q.dist e ≤ maxDist ∧ d = q.dist e ∧ (l = e ∨ l = invertL e) := by
  rw [(deterministic_spec q tree h sort hs maxDist).2.mem_iff]
  simp only [List.mem_flatMap, List.mem_filter, decide_eq_true_eq, List.mem_cons, LMatch.mk.injEq, List.not_mem_nil, or_false]
  constructor
  · rintro ⟨e, ⟨h1, h2⟩, ⟨rfl, rfl⟩ | ⟨rfl, rfl⟩⟩
    · exact ⟨_, h1, h2, rfl, .inl rfl⟩
    · exact ⟨_, h1, h2, rfl, .inr rfl⟩
  · rintro ⟨e, h1, h2, rfl, rfl | rfl⟩
    · exact ⟨_, ⟨h1, h2⟩, .inl ⟨rfl, rfl⟩⟩
    · exact ⟨_, ⟨h1, h2⟩, .inr ⟨rfl, rfl⟩⟩

/-- C48: no match is reported twice (the layer holds every lanelet once). -/
theorem deterministic_nodup (q : Query F) (tree : List LH) (h : QueryOk q tree) (sort : List (LMatch F) → List (LMatch F))
    (hs : Sorts (·.distance) sort) (maxDist : F) (hn : (tree.map (·.data)).Nodup) :
    ((getDeterministicMatches sort q maxDist).map (·.lanelet)).Nodup := by
  have hp := ((deterministic_spec q tree h sort hs maxDist).2.map (·.lanelet))
  rw [hp.nodup_iff, List.map_flatMap]
  have hn' : ((tree.filter fun e => decide (q.dist e ≤ maxDist)).map (·.data)).Nodup :=
    hn.sublist (List.filter_sublist.map _)
  generalize tree.filter (fun e => decide (q.dist e ≤ maxDist)) = t at hn'
  induction t with
  | nil => simp
  | cons e t ih =>
    simp only [List.map_cons, List.nodup_cons, List.mem_map, not_exists, not_and] at hn'
    simp only [List.flatMap_cons, List.map_cons, List.map_nil, List.cons_append, List.nil_append, List.nodup_cons,
      List.mem_cons, List.mem_flatMap, not_or, not_exists, not_and, List.not_mem_nil, not_false_eq_true, and_true]
    refine ⟨⟨?_, ?_⟩, ?_, ih hn'.2⟩
    · intro he
      have := congrArg LH.inv he
      simp [invertL] at this
    · intro x hx
      exact ⟨fun hc => hn'.1 x hx (by rw [hc]), fun hc => hn'.1 x hx (by rw [hc]; rfl)⟩
    · intro x hx
      exact ⟨fun hc => hn'.1 x hx (by rw [← hc]; rfl), fun hc => hn'.1 x hx (by
        have := congrArg LH.data hc; simpa [invertL] using this.symm)⟩

theorem probabilistic_fold (maha : LH → Option F) (pairs : List (F × LH)) : ∀ acc : List (PMatch F),
    (∀ ms, pairs.foldlM (fun acc p => do
      let a ← maha p.2
      let b ← maha (invertL p.2)
      return acc ++ [(⟨p.2, p.1, a⟩ : PMatch F), ⟨invertL p.2, p.1, b⟩]) acc = some ms ↔
      (∀ p ∈ pairs, (maha p.2).isSome ∧ (maha (invertL p.2)).isSome) ∧
      ms = acc ++ pairs.flatMap fun p => [⟨p.2, p.1, (maha p.2).getD 0⟩, ⟨invertL p.2, p.1, (maha (invertL p.2)).getD 0⟩]) := by
  induction pairs with
  | nil => intro acc ms; simp only [List.foldlM_nil, Option.pure_def, Option.some.injEq, List.not_mem_nil, false_imp_iff,
      implies_true, true_and, List.flatMap_nil, List.append_nil]; exact eq_comm
  | cons p pairs ih =>
    intro acc ms
    rw [List.foldlM_cons]
    cases h1 : maha p.2 with
    | none => simp [h1]
    | some a =>
      cases h2 : maha (invertL p.2) with
      | none => simp [h1, h2]
      | some b =>
        simp only [Option.bind_eq_bind, Option.bind_some, Option.pure_def]
        have := ih (acc ++ [⟨p.2, p.1, a⟩, ⟨invertL p.2, p.1, b⟩]) ms
        simp only [Option.bind_eq_bind, Option.pure_def] at this
        rw [this]
        simp [h1, h2]

/-- C48: the probabilistic matches are the same lanelets and directions, each with the distance and the squared Mahalanobis
distance of its own direction, ordered by the latter. A MatchingError is raised iff the distance of some close lanelet cannot
be computed. -/
theorem probabilistic_spec (q : Query F) (tree : List LH) (h : QueryOk q tree) (sort : List (PMatch F) → List (PMatch F))
    (hs : Sorts (·.mahalanobisDistSq) sort) (maha : LH → Option F) (maxDist : F) :
    (getProbabilisticMatches sort maha q maxDist = none ↔
      ∃ e ∈ tree, q.dist e ≤ maxDist ∧ (maha e = none ∨ maha (invertL e) = none)) ∧
    ∀ r, getProbabilisticMatches sort maha q maxDist = some r →
      r.Pairwise (fun a b => a.mahalanobisDistSq ≤ b.mahalanobisDistSq) ∧
      r.map (fun m => (⟨m.lanelet, m.distance⟩ : LMatch F)) ~ (tree.filter fun e => decide (q.dist e ≤ maxDist)).flatMap
        (fun e => [⟨e, q.dist e⟩, ⟨invertL e, q.dist e⟩]) ∧
      ∀ m ∈ r, maha m.lanelet = some m.mahalanobisDistSq := by
  have hp := findWithin_perm q tree h maxDist
  have hmem : ∀ p, p ∈ findWithin q maxDist ↔ ∃ e ∈ tree, q.dist e ≤ maxDist ∧ p = (q.dist e, e) := by
    intro p
    rw [hp.mem_iff]
    simp only [List.mem_map, List.mem_filter, decide_eq_true_eq]
    constructor
    · rintro ⟨e, ⟨h1, h2⟩, rfl⟩; exact ⟨e, h1, h2, rfl⟩
    · rintro ⟨e, h1, h2, rfl⟩; exact ⟨e, ⟨h1, h2⟩, rfl⟩
  unfold getProbabilisticMatches probabilistic
  constructor
  · simp only [Option.bind_eq_bind, Option.bind_eq_none_iff, Option.pure_def, reduceCtorEq, imp_false]
    have hf := probabilistic_fold maha (findWithin q maxDist) []
    simp only [Option.bind_eq_bind, Option.pure_def] at hf
    constructor
    · intro hall
      have : ¬ ∀ p ∈ findWithin q maxDist, (maha p.2).isSome ∧ (maha (invertL p.2)).isSome := by
        intro hc
        exact hall _ ((hf _).mpr ⟨hc, rfl⟩)
      obtain ⟨p, hc⟩ := not_forall.mp this
      obtain ⟨hpm, hc⟩ := Classical.not_imp.mp hc
      obtain ⟨e, h1, h2, rfl⟩ := (hmem p).mp hpm
      refine ⟨e, h1, h2, ?_⟩
      cases h3 : maha e with
      | none => exact .inl rfl
      | some a =>
        cases h4 : maha (invertL e) with
        | none => exact .inr rfl
        | some b => exfalso; apply hc; simp [h3, h4]
    · rintro ⟨e, h1, h2, h3⟩ ms hms
      have := ((hf ms).mp hms).1 _ ((hmem _).mpr ⟨e, h1, h2, rfl⟩)
      rcases h3 with h3 | h3 <;> simp [h3] at this
  · intro r hr
    simp only [Option.bind_eq_bind, Option.bind_eq_some_iff, Option.pure_def, Option.some.injEq] at hr
    obtain ⟨ms, hms, rfl⟩ := hr
    have hf := (probabilistic_fold maha (findWithin q maxDist) [] ms).mp (by
      simpa only [Option.bind_eq_bind, Option.pure_def] using hms)
    obtain ⟨hall, rfl⟩ := hf
    refine ⟨(hs _).2, ?_, ?_⟩
    · refine ((hs _).1.map _).trans ?_
      rw [List.nil_append, List.map_flatMap]
      refine (hp.flatMap_right _).trans ?_
      rw [List.flatMap_map]
      rfl
    · intro m hm
      rw [(hs _).1.mem_iff, List.nil_append, List.mem_flatMap] at hm
      obtain ⟨p, hp, hm⟩ := hm
      obtain ⟨h1, h2⟩ := hall p hp
      obtain ⟨a, ha⟩ := Option.isSome_iff_exists.mp h1
      obtain ⟨b, hb⟩ := Option.isSome_iff_exists.mp h2
      simp only [List.mem_cons, List.not_mem_nil, or_false] at hm
      rcases hm with rfl | rfl
      · simp [ha]
      · simp [hb]

/-- C48: isCloseTo and isWithin -/
theorem isCloseTo_iff (q : Query F) (tree : List LH) (h : QueryOk q tree) (maxDist : F) :
    (isCloseTo q maxDist = true ↔ ∃ e ∈ tree, q.dist e ≤ maxDist) ∧
    (isWithin q = true ↔ ∃ e ∈ tree, q.dist e = 0) := by
  have key : ∀ maxDist, isCloseTo q maxDist = true ↔ ∃ e ∈ tree, q.dist e ≤ maxDist := by
    intro maxDist
    have hp := findWithin_perm q tree h maxDist
    unfold isCloseTo
    simp only [Bool.not_eq_true', List.isEmpty_eq_false_iff]
    constructor
    · intro hne
      obtain ⟨p, hp'⟩ := List.exists_mem_of_ne_nil _ hne
      rw [hp.mem_iff] at hp'
      simp only [List.mem_map, List.mem_filter, decide_eq_true_eq] at hp'
      obtain ⟨e, ⟨h1, h2⟩, -⟩ := hp'
      exact ⟨e, h1, h2⟩
    · rintro ⟨e, h1, h2⟩
      apply List.ne_nil_of_mem (a := (q.dist e, e))
      rw [hp.mem_iff]
      simp only [List.mem_map, List.mem_filter, decide_eq_true_eq]
      exact ⟨e, ⟨h1, h2⟩, rfl⟩
  refine ⟨key maxDist, ?_⟩
  unfold isWithin
  rw [key 0]
  obtain ⟨shape, box, point, hull, -, -, -, -, h5, h6⟩ := h.ok
  have h0 : ∀ e, 0 ≤ q.dist e := by
    intro e
    unfold Query.dist
    split
    · exact (h5 e).1
    · exact (h6 e).1
  constructor
  · rintro ⟨e, h1, h2⟩; exact ⟨e, h1, le_antisymm h2 (h0 e)⟩
  · rintro ⟨e, h1, h2⟩; exact ⟨e, h1, h2.le⟩

/-- C48: the filter removes exactly the matches that may not be passed in their direction and keeps the order: the result is
the subsequence of the permitted matches. -/
theorem removeNonRuleCompliant_spec {M : Type} (lanelet : M → LH) (canPass : LH → Bool) (ms : List M) :
    removeNonRuleCompliantMatches lanelet canPass ms <+ ms ∧
    (∀ m, m ∈ removeNonRuleCompliantMatches lanelet canPass ms ↔ m ∈ ms ∧ canPass (lanelet m) = true) ∧
    ∀ kept : List M, kept <+ ms → (∀ m ∈ kept, canPass (lanelet m) = true) →
      kept <+ removeNonRuleCompliantMatches lanelet canPass ms := by
  unfold removeNonRuleCompliantMatches
  refine ⟨List.filter_sublist, by simp, ?_⟩
  intro kept h1 h2
  have : kept.filter (fun m => !(!canPass (lanelet m))) = kept := by
    rw [List.filter_eq_self]
    intro m hm
    simpa using h2 m hm
  rw [← this]
  exact h1.filter _

/-! ### angles and Mahalanobis distance -/

section
variable [FloorRing F]

/-- the assertion holds: positiveFloatModulo is in the half-open interval (0, y] and differs from x by a multiple of y -/
theorem positiveFloatModulo_spec (x y : F) (hy : 0 < y) :
    ∃ r, positiveFloatModulo x y = some r ∧ 0 < r ∧ r ≤ y ∧ ∃ n : Int, x = r + n * y := by
  have hq : x = x / y * y := by field_simp
  have hlt : |fmod x y| < y ∧ ∃ n : Int, fmod x y = x - n * y := by
    unfold fmod
    by_cases h : 0 ≤ x / y
    · rw [if_pos h]
      have h1 := Int.floor_le (x / y)
      have h2 := Int.lt_floor_add_one (x / y)
      refine ⟨?_, ⌊x / y⌋, rfl⟩
      have e : x - ⌊x / y⌋ * y = (x / y - ⌊x / y⌋) * y := by rw [sub_mul, ← hq]
      rw [e, abs_of_nonneg (mul_nonneg (by linarith) hy.le)]
      calc (x / y - ⌊x / y⌋) * y < 1 * y := mul_lt_mul_of_pos_right (by linarith) hy
        _ = y := one_mul y
    · rw [if_neg h]
      have h1 := Int.le_ceil (x / y)
      have h2 := Int.ceil_lt_add_one (x / y)
      refine ⟨?_, ⌈x / y⌉, rfl⟩
      have e : x - ⌈x / y⌉ * y = (x / y - ⌈x / y⌉) * y := by rw [sub_mul, ← hq]
      rw [e, abs_of_nonpos (mul_nonpos_of_nonpos_of_nonneg (by linarith) hy.le), ← neg_mul]
      calc -(x / y - ⌈x / y⌉) * y < 1 * y := mul_lt_mul_of_pos_right (by linarith) hy
        _ = y := one_mul y
  obtain ⟨hlt, n, hn⟩ := hlt
  obtain ⟨h1, h2⟩ := abs_lt.mp hlt
  unfold positiveFloatModulo
  simp only
  by_cases h : 0 < fmod x y
  · rw [if_pos h]
    exact ⟨_, rfl, h, h2.le, n, by linarith⟩
  · rw [if_neg h, abs_of_pos hy, if_pos (by linarith)]
    refine ⟨_, rfl, by linarith, by linarith [not_lt.mp h], n - 1, ?_⟩
    push_cast
    linarith

/-- C48: angles are normalised to (-π, π] -/
theorem normalizeAngle_spec (pi x : F) (hpi : 0 < pi) :
    ∃ r, normalizeAngle pi x = some r ∧ -pi < r ∧ r ≤ pi ∧ ∃ n : Int, x = r + n * (2 * pi) := by
  obtain ⟨r, h1, h2, h3, n, h4⟩ := positiveFloatModulo_spec (x + pi) (2 * pi) (by linarith)
  exact ⟨r - pi, by simp [normalizeAngle, h1], by linarith, by linarith, n, by linarith⟩

/-- C48: for every covariance matrix that is symmetric and positive definite (and not degenerate in the sense of the code) the
squared Mahalanobis distance is computed without error and not negative. With a positive kappa it is 0 exactly if the object is
on the centerline and has its direction. -/
theorem mahalanobis_spec (pi : F) (hpi : 0 < pi) (m : Cov F) (hsym : m.b = m.c) (ha : 0 < m.a) (hdet : 1 / 10 ^ 8 ≤ m.det)
    (hbig : 1 / 10 ^ 12 < m.a ∨ 1 / 10 ^ 12 < m.d) (kappa yawCenter yaw x y : F) :
    ∃ v, mahalanobisDistSq pi m kappa yawCenter yaw x y = some v ∧ 0 ≤ v ∧
      (0 < kappa → (v = 0 ↔ x = 0 ∧ y = 0 ∧ ∃ n : Int, yawCenter = yaw + n * (2 * pi))) := by
  obtain ⟨r1, e1, _, _, n1, q1⟩ := normalizeAngle_spec pi yawCenter hpi
  obtain ⟨r2, e2, _, _, n2, q2⟩ := normalizeAngle_spec pi yaw hpi
  obtain ⟨r, e3, b1, b2, n3, q3⟩ := normalizeAngle_spec pi (r1 - r2) hpi
  have hD : 0 < m.det := lt_of_lt_of_le (by positivity) hdet
  have hd : 0 < m.d := by
    have h2 : m.det = m.a * m.d - m.b * m.b := by rw [Cov.det, ← hsym]
    have h3 := mul_self_nonneg m.b
    have : 0 < m.a * m.d := by linarith
    exact (mul_pos_iff_of_pos_left ha).mp this
  have hz : ¬ (|m.a| ≤ 1 / 10 ^ 12 ∧ |m.b| ≤ 1 / 10 ^ 12 ∧ |m.c| ≤ 1 / 10 ^ 12 ∧ |m.d| ≤ 1 / 10 ^ 12) := by
    rintro ⟨h1, -, -, h4⟩
    rw [abs_of_pos ha] at h1
    rw [abs_of_pos hd] at h4
    rcases hbig with h | h
    · linarith
    · linarith
  have hz2 : ¬ |m.det| < 1 / 10 ^ 8 := by rw [abs_of_pos hD]; exact not_lt.mpr hdet
  have hquad : m.quad x y * (m.a * m.det) = (m.a * y - m.b * x) * (m.a * y - m.b * x) + m.det * (x * x) := by
    have hne : m.det ≠ 0 := hD.ne'
    have : m.quad x y * m.det = x * (m.d * x - m.b * y) + y * (m.a * y - m.c * x) := by
      unfold Cov.quad; field_simp
    calc m.quad x y * (m.a * m.det) = m.a * (m.quad x y * m.det) := by ring
      _ = m.a * (x * (m.d * x - m.b * y) + y * (m.a * y - m.c * x)) := by rw [this]
      _ = _ := by unfold Cov.det; rw [← hsym]; ring
  have hpos : 0 < m.a * m.det := mul_pos ha hD
  have hq0 : 0 ≤ m.quad x y := by
    have h1 : 0 ≤ m.quad x y * (m.a * m.det) := by
      rw [hquad]
      exact add_nonneg (mul_self_nonneg _) (mul_nonneg hD.le (mul_self_nonneg _))
    exact (mul_nonneg_iff_of_pos_right hpos).mp h1
  have hk0 : 0 ≤ r * r * (kappa * kappa) := mul_nonneg (mul_self_nonneg _) (mul_self_nonneg _)
  refine ⟨r * r * (kappa * kappa) + m.quad x y, ?_, add_nonneg hk0 hq0, ?_⟩
  · unfold mahalanobisDistSq
    simp only [if_neg hz, if_neg hz2, e1, e2, angleDifference, Option.bind_eq_bind, Option.bind_some, e3]
    rfl
  · intro hk
    constructor
    · intro hv
      have hr : r * r * (kappa * kappa) = 0 := by linarith
      have hq : m.quad x y = 0 := by linarith
      rw [hq, zero_mul] at hquad
      have t1 := mul_self_nonneg (m.a * y - m.b * x)
      have t2 : 0 ≤ m.det * (x * x) := mul_nonneg hD.le (mul_self_nonneg _)
      have hx : x = 0 := by
        have : m.det * (x * x) = 0 := by linarith
        rcases mul_eq_zero.mp this with h | h
        · exact absurd h hD.ne'
        · exact mul_self_eq_zero.mp h
      have hy : y = 0 := by
        have : (m.a * y - m.b * x) * (m.a * y - m.b * x) = 0 := by linarith
        have := mul_self_eq_zero.mp this
        rw [hx, mul_zero, sub_zero] at this
        rcases mul_eq_zero.mp this with h | h
        · exact absurd h ha.ne'
        · exact h
      refine ⟨hx, hy, ?_⟩
      have hr0 : r = 0 := by
        rcases mul_eq_zero.mp hr with h | h
        · exact mul_self_eq_zero.mp h
        · exact absurd (mul_self_eq_zero.mp h) hk.ne'
      refine ⟨n3 + n1 - n2, ?_⟩
      push_cast
      rw [hr0] at q3
      linarith
    · rintro ⟨rfl, rfl, n, hn⟩
      have hr0 : r = 0 := by
        -- r is a multiple of 2π in (-π, π]
        have hmul : r = ((n - n1 + n2 - n3 : Int) : F) * (2 * pi) := by push_cast; linarith
        generalize n - n1 + n2 - n3 = k at hmul
        rw [hmul] at b1 b2 ⊢
        have hk1 : (-1 : F) < k := by
          by_contra hc
          have := mul_le_mul_of_nonneg_right (not_lt.mp hc) (show (0 : F) ≤ 2 * pi by linarith)
          linarith
        have hk2 : (k : F) < 1 := by
          by_contra hc
          have := mul_le_mul_of_nonneg_right (not_lt.mp hc) (show (0 : F) ≤ 2 * pi by linarith)
          linarith
        have hk1' : (-1 : Int) < k := by exact_mod_cast hk1
        have hk2' : k < 1 := by exact_mod_cast hk2
        have : k = 0 := by omega
        rw [this]; simp
      rw [hr0]
      simp [Cov.quad]

end

/-- the errors: a covariance matrix that is zero or (nearly) singular -/
theorem mahalanobis_error [FloorRing F] (pi : F) (hpi : 0 < pi) (m : Cov F) (kappa yawCenter yaw x y : F) :
    mahalanobisDistSq pi m kappa yawCenter yaw x y = none ↔
      (|m.a| ≤ 1 / 10 ^ 12 ∧ |m.b| ≤ 1 / 10 ^ 12 ∧ |m.c| ≤ 1 / 10 ^ 12 ∧ |m.d| ≤ 1 / 10 ^ 12) ∨ |m.det| < 1 / 10 ^ 8 := by
  obtain ⟨r1, e1, _⟩ := normalizeAngle_spec pi yawCenter hpi
  obtain ⟨r2, e2, _⟩ := normalizeAngle_spec pi yaw hpi
  obtain ⟨r, e3, _⟩ := normalizeAngle_spec pi (r1 - r2) hpi
  unfold mahalanobisDistSq
  by_cases h1 : |m.a| ≤ 1 / 10 ^ 12 ∧ |m.b| ≤ 1 / 10 ^ 12 ∧ |m.c| ≤ 1 / 10 ^ 12 ∧ |m.d| ≤ 1 / 10 ^ 12
  · simp only [if_pos h1]; simp only [h1, and_self, true_or, iff_true]; rfl
  · by_cases h2 : |m.det| < 1 / 10 ^ 8
    · simp only [if_neg h1, if_pos h2]; simp only [h2, or_true, iff_true]; rfl
    · simp only [if_neg h1, if_neg h2, e1, e2, angleDifference, Option.bind_eq_bind, Option.bind_some, e3]
      simp only [h1, h2, or_self, iff_false]
      exact Option.some_ne_none _

/-! ### concrete cases -/

/-- lanelets as points 0, 3, 7 on a line; the object, without hull, at 2 -/
def exQuery : Query Rat :=
  { search := fun b => ([⟨0, false⟩, ⟨3, false⟩, ⟨7, false⟩] : List LH).filter fun e =>
      b.intersects ⟨e.data, 0, e.data, 0⟩
    sort := fun l => l.insertionSort fun a b => a.1 ≤ b.1
    hullEmpty := true
    pointBox := ⟨2, 0, 2, 0⟩
    pointDist := fun l => |(l.data : Rat) - 2|
    hullBox := ⟨2, 0, 2, 0⟩
    hullDist := fun l => |(l.data : Rat) - 2| }

theorem exQuery_ok : QueryOk exQuery [⟨0, false⟩, ⟨3, false⟩, ⟨7, false⟩] := by
  refine ⟨⟨fun l => fun p => p = ((l.data : Rat), 0), fun l => ⟨l.data, 0, l.data, 0⟩, fun p => p = (2, 0), fun p => p = (2, 0),
    ?_, ?_, ?_, ?_, ?_, ?_⟩, ?_⟩
  · rintro e p rfl; simp [Box.Contains]
  · intro b; exact List.Perm.refl _
  · rintro p rfl; simp [exQuery, Box.Contains]
  · rintro p rfl; simp [exQuery, Box.Contains]
  · intro e
    refine ⟨abs_nonneg _, (2, 0), ((e.data : Rat), 0), rfl, rfl, ?_⟩
    simp only [exQuery, Nearest.distSq, abs_mul_abs_self]
    linarith
  · intro e
    refine ⟨abs_nonneg _, (2, 0), ((e.data : Rat), 0), rfl, rfl, ?_⟩
    simp only [exQuery, Nearest.distSq, abs_mul_abs_self]
    linarith
  · intro l
    have t : ∀ a b c : Rat × LH, a.1 ≤ b.1 → b.1 ≤ c.1 → a.1 ≤ c.1 := fun _ _ _ => le_trans
    haveI : IsTrans (Rat × LH) fun a b => a.1 ≤ b.1 := ⟨t⟩
    haveI : Std.Total (fun a b : Rat × LH => a.1 ≤ b.1) := ⟨fun a b => le_total a.1 b.1⟩
    exact ⟨List.perm_insertionSort _ l, List.pairwise_insertionSort _ l⟩

example : getDeterministicMatches (fun l => l.insertionSort fun a b => a.distance ≤ b.distance) exQuery 2 =
      [⟨⟨3, false⟩, 1⟩, ⟨⟨3, true⟩, 1⟩, ⟨⟨0, false⟩, 2⟩, ⟨⟨0, true⟩, 2⟩] ∧
    removeNonRuleCompliantMatches (·.lanelet) (fun l => !l.inv)
      (getDeterministicMatches (fun l => l.insertionSort fun a b => a.distance ≤ b.distance) exQuery 2) =
      [⟨⟨3, false⟩, 1⟩, ⟨⟨0, false⟩, 2⟩] ∧ isWithin exQuery = false := by decide +kernel

example : ∃ v, mahalanobisDistSq (3 : Rat) ⟨2, 1, 1, 2⟩ 1 10 4 0 0 = some v ∧ v = 0 := by
  obtain ⟨v, h1, -, h3⟩ := mahalanobis_spec (3 : Rat) (by norm_num) ⟨2, 1, 1, 2⟩ rfl (by norm_num) (by norm_num [Cov.det])
    (by norm_num) 1 10 4 0 0
  exact ⟨v, h1, (h3 (by norm_num)).mpr ⟨rfl, rfl, 1, by norm_num⟩⟩

end Verif.Match
