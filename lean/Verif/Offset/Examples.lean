import Verif.Offset.Props
import Mathlib.Analysis.SpecialFunctions.Trigonometric.Arctan

/-!
C60: cases that meet the hypotheses, and disagreements.
-/
namespace Verif.Geo.Offset

/-! ### evaluation -/

theorem dir_eq {a b u : P2} {n : ℝ} (hn : 0 < n) (hu : dot u u = 1) (h : b = a + n • u) : dir a b = u ∧ a ≠ b := by
  have hd : dist a b = n := by
    rw [dist_comm, h]
    unfold dist
    rw [add_sub_cancel_left, norm_smul, abs_of_pos hn]
    have : norm u = 1 := by
      have := norm_sq u
      rw [hu] at this
      nlinarith [norm_nonneg u]
    rw [this, mul_one]
  constructor
  · unfold dir
    rw [hd, h, add_sub_cancel_left, smul_smul]
    rw [one_div, inv_mul_cancel₀ hn.ne', one_smul]
  · rintro rfl
    rw [dist_self] at hd
    linarith

/-- three successive points with the directions between them -/
structure Corner (l : List P2) (j : Nat) (a b c u1 u2 : P2) : Prop where
  ha : l[j]? = some a
  hb : l[j + 1]? = some b
  hc : l[j + 2]? = some c
  d1 : dir a b = u1 ∧ a ≠ b
  d2 : dir b c = u2 ∧ b ≠ c

theorem concave_iff {l : List P2} {d : ℝ} {j : Nat} {a b c u1 u2 : P2} (h : Corner l j a b c u1 u2) :
    Concave l d j ↔ (0 < d → 0 < cross u1 u2) ∧ (d ≤ 0 → cross u1 u2 ≤ 0) := by
  obtain ⟨k, hk, hx, -⟩ := cross_dir h.d1.2 h.d2.2
  rw [h.d1.1, h.d2.1] at hx
  have e1 : 0 < cross (b - a) (c - b) ↔ 0 < cross u1 u2 := by
    rw [hx]; exact ⟨fun h => mul_pos hk h, fun h => pos_of_mul_pos_right h hk.le⟩
  have e2 : cross (b - a) (c - b) ≤ 0 ↔ cross u1 u2 ≤ 0 := by rw [← not_lt, e1, not_lt]
  constructor
  · rintro ⟨a', b', c', ha', hb', hc', h'⟩
    rw [h.ha] at ha'; rw [h.hb] at hb'; rw [h.hc] at hc'
    obtain rfl := Option.some.inj ha'; obtain rfl := Option.some.inj hb'; obtain rfl := Option.some.inj hc'
    rw [← e1, ← e2]; exact h'
  · intro h'
    rw [← e1, ← e2] at h'
    exact ⟨a, b, c, h.ha, h.hb, h.hc, h'⟩

theorem dot_iff {l : List P2} {j : Nat} {a b c u1 u2 : P2} (h : Corner l j a b c u1 u2) : dot (b - a) (c - b) < 0 ↔ dot u1 u2 < 0 := by
  obtain ⟨k, hk, -, hx⟩ := cross_dir h.d1.2 h.d2.2
  rw [h.d1.1, h.d2.1] at hx
  rw [hx]
  constructor
  · intro h; nlinarith
  · intro h; nlinarith

theorem lt_of_corner {l : List P2} {j : Nat} {c : P2} (h : l[j + 2]? = some c) : j + 2 < l.length := (List.getElem?_eq_some_iff.mp h).1

theorem run_mild {l : List P2} {d : ℝ} {j cur : Nat} {a b c u1 u2 : P2} {acc : List P2} (h : Corner l j a b c u1 u2) (p : P2)
    (hx : (0 < d → cross u1 u2 ≤ 0) ∧ (d ≤ 0 → 0 < cross u1 u2)) (hd : 0 ≤ dot u1 u2)
    (hp : p = b + d • perp u1 + (-d * cross u1 u2 / (1 + dot u1 u2)) • u1) :
    convexRun l d (j + 1) cur acc = convexRun l d (j + 2) (j + 1) (acc ++ [p]) := by
  have hcc : ¬ Concave l d j := by
    rw [concave_iff h]
    rintro ⟨h1, h2⟩
    rcases le_or_gt d 0 with hd | hd
    · exact absurd (hx.2 hd) (not_lt.mpr (h2 hd))
    · exact absurd (h1 hd) (not_lt.mpr (hx.1 hd))
  obtain ⟨s, -, hs, -, -, e⟩ := shift_mild h.ha h.hb h.hc h.d1.2 h.d2.2 hcc (not_lt.mp fun hlt => absurd ((dot_iff h).mp hlt) (not_lt.mpr hd))
  have := lt_of_corner h.hc
  rw [run_step (by omega) hs, if_pos rfl, e, hp]
  unfold leftN
  rw [h.d1.1, h.d2.1]

theorem run_sharp {l : List P2} {d : ℝ} {j cur : Nat} {a b c u1 u2 : P2} {acc : List P2} (h : Corner l j a b c u1 u2) (p q : P2) (t : ℝ)
    (hx : (0 < d → cross u1 u2 ≤ 0) ∧ (d ≤ 0 → 0 < cross u1 u2)) (hd : dot u1 u2 < 0) (ht : Real.tan (Real.arccos (dot u1 u2) / 4) = t)
    (hp : p = b + d • perp u1 + (d * t) • u1) (hq : q = b + d • perp u2 - (d * t) • u2) :
    convexRun l d (j + 1) cur acc = convexRun l d (j + 2) (j + 1) (acc ++ [p, q]) := by
  have hcc : ¬ Concave l d j := by
    rw [concave_iff h]
    rintro ⟨h1, h2⟩
    rcases le_or_gt d 0 with hd | hd
    · exact absurd (hx.2 hd) (not_lt.mpr (h2 hd))
    · exact absurd (h1 hd) (not_lt.mpr (hx.1 hd))
  obtain ⟨s, -, hs, -, -, -, e⟩ := shift_sharp h.ha h.hb h.hc h.d1.2 h.d2.2 hcc ((dot_iff h).mpr hd)
  have := lt_of_corner h.hc
  rw [h.d1.1, h.d2.1, ht] at e
  rw [run_step (by omega) hs, if_pos rfl, e, hp, hq]
  unfold leftN
  rw [h.d1.1, h.d2.1]

theorem run_concave {l : List P2} {d : ℝ} {j cur : Nat} {a b c u1 u2 : P2} {acc : List P2} (h : Corner l j a b c u1 u2) (p : P2)
    (hx : (0 < d → 0 < cross u1 u2) ∧ (d ≤ 0 → cross u1 u2 ≤ 0)) (hp : p = b + d • perp u1) :
    convexRun l d (j + 1) cur acc = pure (acc ++ [p], j + 1) := by
  have := lt_of_corner h.hc
  rw [run_step (by omega) (shift_concave h.ha h.hb h.hc h.d1.2 ((concave_iff h).mpr hx)), if_neg (by simp), hp]
  unfold leftN
  rw [h.d1.1]

theorem run_last {l : List P2} {d : ℝ} {j cur : Nat} {a b u : P2} {acc : List P2} (ha : l[j]? = some a) (hb : l[j + 1]? = some b)
    (hlen : j + 2 = l.length) (hu : dir a b = u ∧ a ≠ b) (p : P2) (hp : p = b + d • perp u) :
    convexRun l d (j + 1) cur acc = pure (acc ++ [p], j + 1) := by
  rw [run_step (by omega) (shift_last ha hb hlen hu.2), if_pos rfl, convexRun, if_neg (by omega), hp]
  unfold leftN
  rw [hu.1]

theorem loop_step {l : List P2} {d : ℝ} {cur e : Nat} {a b u p : P2} {offs : List (List P2)} {s : List P2} (ha : l[cur]? = some a)
    (hb : l[cur + 1]? = some b) (hu : dir a b = u ∧ a ≠ b) (hp : p = a + d • perp u) (hr : convexRun l d (cur + 1) cur [p] = pure (s, e)) :
    convexLoop l d cur offs = convexLoop l d e (offs ++ [s]) := by
  have hlen : cur + 1 < l.length := (List.getElem?_eq_some_iff.mp hb).1
  rw [convexLoop, if_pos hlen]
  have : (makeVincinity l cur >>= fun pv => shiftPerpendicular l cur d false pv >>= fun p =>
      convexRun l d (cur + 1) cur [p] >>= fun r => convexLoop l d r.2 (offs ++ [r.1])) =
      ((makeVincinity l cur >>= fun pv => shiftPerpendicular l cur d false pv) >>= fun p =>
      convexRun l d (cur + 1) cur [p] >>= fun r => convexLoop l d r.2 (offs ++ [r.1])) := by rw [bind_assoc]
  rw [this, start_step ha hb hu.2, pure_bind]
  have e : a + d • leftN a b = p := by rw [hp]; unfold leftN; rw [hu.1]
  rw [e, hr, pure_bind]

theorem loop_end {l : List P2} {d : ℝ} {cur : Nat} {offs : List (List P2)} (h : cur + 1 = l.length) : convexLoop l d cur offs = pure offs := by
  rw [convexLoop, if_neg (by omega)]

/-! ### one piece -/

theorem check_nonpos {env : Env} {l r : List P2} {d : ℝ} (h2 : 2 ≤ l.length) (hd : d ≤ 0) : checkForInversion env l r d = pure () := by
  unfold checkForInversion
  rw [if_neg (by omega)]
  induction r with
  | nil => rfl
  | cons v r ih =>
    have e0 : ∀ f : P2 → M Unit, (v :: r).forM f = (f v >>= fun _ => r.forM f) := fun _ => rfl
    rw [e0]
    simp only
    rw [if_neg, pure_bind, ih]
    have := dist_nonneg (projectPoint (env.nearest (pairs l) v).1 (env.nearest (pairs l) v).2 v) v
    have h7 : (0 : ℝ) < 1 / 10 ^ 7 := by positivity
    linarith

macro "vec" : tactic => `(tactic| (refine Prod.ext ?_ ?_ <;>
  simp only [perp, cross, dot2, Prod.fst_add, Prod.snd_add, Prod.fst_sub, Prod.snd_sub, Prod.smul_fst, Prod.smul_snd, smul_eq_mul] <;> norm_num))

/-- Disagreement with C60: at a left turn of more than 90° an offset to the right cuts the corner: the result comes closer to the line than a
quarter of the distance, and no error is reported. -/
theorem sharp_right_counterexample (env : Env) : ∃ (l : List P2) (r : List P2) (k : Nat) (q q' x y : P2),
    NoRepetition l ∧ offset env l (-1) = pure r ∧ r[k]? = some q ∧ r[k + 1]? = some q' ∧ OnSegment q q' x ∧ OnLine l y ∧ dist x y < 1 / 4 := by
  have c0 : Corner [((-7 : ℝ), (0 : ℝ)), (0, 0), (-7, 24)] 0 (-7, 0) (0, 0) (-7, 24) (1, 0) (-7 / 25, 24 / 25) :=
    ⟨rfl, rfl, rfl, dir_eq (n := 7) (by norm_num) (by rw [dot2]; norm_num) (by vec), dir_eq (n := 25) (by norm_num) (by rw [dot2]; norm_num) (by vec)⟩
  have htan : Real.tan (Real.arccos (dot ((1, 0) : P2) (-7 / 25, 24 / 25)) / 4) = 1 / 2 := by
    have hc2 : Real.cos (2 * Real.arctan (1 / 2)) = 3 / 5 := by
      rw [Real.cos_two_mul, Real.cos_sq_arctan]; norm_num
    have hc4 : Real.cos (4 * Real.arctan (1 / 2)) = -7 / 25 := by
      rw [show 4 * Real.arctan (1 / 2) = 2 * (2 * Real.arctan (1 / 2)) by ring, Real.cos_two_mul, hc2]; norm_num
    have h0 : 0 < Real.arctan (1 / 2) := Real.arctan_pos.mpr (by norm_num)
    have h1 : Real.arctan (1 / 2) < Real.pi / 4 := by
      rw [← Real.arctan_one]; exact Real.arctan_strictMono (by norm_num)
    have e : Real.arccos (dot ((1, 0) : P2) (-7 / 25, 24 / 25)) = 4 * Real.arctan (1 / 2) := by
      rw [show dot ((1, 0) : P2) (-7 / 25, 24 / 25) = Real.cos (4 * Real.arctan (1 / 2)) by rw [hc4, dot2]; norm_num]
      exact Real.arccos_cos (by linarith) (by linarith)
    rw [e, mul_div_cancel_left₀ _ (by norm_num), Real.tan_arctan]
  have hext : extractConvex [((-7 : ℝ), (0 : ℝ)), (0, 0), (-7, 24)] (-1) =
      pure [[(-7, -1), (-1 / 2, -1), (41 / 50, 19 / 25), (-151 / 25, 607 / 25)]] := by
    unfold extractConvex
    rw [loop_step (e := 2) (p := (-7, -1)) (s := [(-7, -1), (-1 / 2, -1), (41 / 50, 19 / 25), (-151 / 25, 607 / 25)]) c0.ha c0.hb c0.d1 (by vec),
      loop_end rfl]
    · rfl
    · rw [run_sharp c0 (-1 / 2, -1) (41 / 50, 19 / 25) (1 / 2) (by constructor <;> (intro; simp only [cross]; norm_num at *))
        (by rw [dot2]; norm_num) htan (by vec) (by vec), run_last c0.hb c0.hc rfl c0.d2 (-151 / 25, 607 / 25) (by vec)]
      rfl
  refine ⟨[(-7, 0), (0, 0), (-7, 24)], [(-7, -1), (-1 / 2, -1), (41 / 50, 19 / 25), (-151 / 25, 607 / 25)], 1, (-1 / 2, -1),
    (41 / 50, 19 / 25), (4 / 25, -3 / 25), (0, 0), ?_, ?_, rfl, rfl, ⟨1 / 2, by norm_num, by norm_num, by vec⟩,
    ⟨((-7, 0), (0, 0)), by simp [segs], onSegment_right _ _⟩, ?_⟩
  · intro i a b ha hb
    match i, ha, hb with
    | 0, ha, hb => obtain rfl := Option.some.inj ha; obtain rfl := Option.some.inj hb; exact c0.d1.2
    | 1, ha, hb => obtain rfl := Option.some.inj ha; obtain rfl := Option.some.inj hb; exact c0.d2.2
    | 2, ha, hb => simp at hb
    | i + 3, ha, hb => simp at hb
  · rw [offset_eq (r := [(-7, -1), (-1 / 2, -1), (41 / 50, 19 / 25), (-151 / 25, 607 / 25)]), check_nonpos (by simp) (by norm_num)]
    · rfl
    · unfold offsetNoThrow
      rw [hext]; rfl
  · rw [dist_nat _ _ (1 / 5) (by norm_num) (by norm_num)]
    norm_num

/-- Disagreement with C60: the result intersects itself although the line does not. -/
theorem self_intersection_counterexample {env : Env} (hok : env.Ok) : ∃ (l : List P2) (r : List P2) (q q' p p' x : P2),
    NoRepetition l ∧ (∀ (i j : Nat) a b c e y, i + 1 < j → l[i]? = some a → l[i + 1]? = some b → l[j]? = some c → l[j + 1]? = some e →
      OnSegment a b y → ¬ OnSegment c e y) ∧
    offset env l 10 = pure r ∧ r[0]? = some q ∧ r[1]? = some q' ∧ r[5]? = some p ∧ r[6]? = some p' ∧ OnSegment q q' x ∧ OnSegment p p' x := by
  let l : List P2 := [(0, 0), (52, 0), (52, -50), (-50, -50), (-50, 40), (50, 40), (50, 6)]
  have c0 : Corner l 0 (0, 0) (52, 0) (52, -50) (1, 0) (0, -1) :=
    ⟨rfl, rfl, rfl, dir_eq (n := 52) (by norm_num) (by rw [dot2]; norm_num) (by vec), dir_eq (n := 50) (by norm_num) (by rw [dot2]; norm_num) (by vec)⟩
  have c1 : Corner l 1 (52, 0) (52, -50) (-50, -50) (0, -1) (-1, 0) :=
    ⟨rfl, rfl, rfl, c0.d2, dir_eq (n := 102) (by norm_num) (by rw [dot2]; norm_num) (by vec)⟩
  have c2 : Corner l 2 (52, -50) (-50, -50) (-50, 40) (-1, 0) (0, 1) :=
    ⟨rfl, rfl, rfl, c1.d2, dir_eq (n := 90) (by norm_num) (by rw [dot2]; norm_num) (by vec)⟩
  have c3 : Corner l 3 (-50, -50) (-50, 40) (50, 40) (0, 1) (1, 0) :=
    ⟨rfl, rfl, rfl, c2.d2, dir_eq (n := 100) (by norm_num) (by rw [dot2]; norm_num) (by vec)⟩
  have c4 : Corner l 4 (-50, 40) (50, 40) (50, 6) (1, 0) (0, -1) :=
    ⟨rfl, rfl, rfl, c3.d2, dir_eq (n := 34) (by norm_num) (by rw [dot2]; norm_num) (by vec)⟩
  have hext : offsetNoThrow env l 10 = pure [(0, 10), (62, 10), (62, -60), (-60, -60), (-60, 50), (60, 50), (60, 6)] := by
    unfold offsetNoThrow extractConvex
    rw [loop_step (e := 6) (p := (0, 10)) (s := [(0, 10), (62, 10), (62, -60), (-60, -60), (-60, 50), (60, 50), (60, 6)]) c0.ha c0.hb c0.d1 (by vec),
      loop_end rfl]
    · rfl
    · rw [run_mild c0 (62, 10) (by constructor <;> (intro; simp only [cross]; norm_num at *)) (by rw [dot2]; norm_num) (by vec),
        run_mild c1 (62, -60) (by constructor <;> (intro; simp only [cross]; norm_num at *)) (by rw [dot2]; norm_num) (by vec),
        run_mild c2 (-60, -60) (by constructor <;> (intro; simp only [cross]; norm_num at *)) (by rw [dot2]; norm_num) (by vec),
        run_mild c3 (-60, 50) (by constructor <;> (intro; simp only [cross]; norm_num at *)) (by rw [dot2]; norm_num) (by vec),
        run_mild c4 (60, 50) (by constructor <;> (intro; simp only [cross]; norm_num at *)) (by rw [dot2]; norm_num) (by vec),
        run_last c4.hb c4.hc rfl c4.d2 (60, 6) (by vec)]
      rfl
  refine ⟨l, [(0, 10), (62, 10), (62, -60), (-60, -60), (-60, 50), (60, 50), (60, 6)], (0, 10), (62, 10), (60, 50), (60, 6), (60, 10), ?_, ?_, ?_,
    rfl, rfl, rfl, rfl, ⟨30 / 31, by norm_num, by norm_num, by vec⟩, ⟨10 / 11, by norm_num, by norm_num, by vec⟩⟩
  · intro i a b ha hb
    match i, ha, hb with
    | 0, ha, hb => obtain rfl := Option.some.inj ha; obtain rfl := Option.some.inj hb; exact c0.d1.2
    | 1, ha, hb => obtain rfl := Option.some.inj ha; obtain rfl := Option.some.inj hb; exact c1.d1.2
    | 2, ha, hb => obtain rfl := Option.some.inj ha; obtain rfl := Option.some.inj hb; exact c2.d1.2
    | 3, ha, hb => obtain rfl := Option.some.inj ha; obtain rfl := Option.some.inj hb; exact c3.d1.2
    | 4, ha, hb => obtain rfl := Option.some.inj ha; obtain rfl := Option.some.inj hb; exact c4.d1.2
    | 5, ha, hb => obtain rfl := Option.some.inj ha; obtain rfl := Option.some.inj hb; exact c4.d2.2
    | i + 6, ha, hb => simp [l] at hb
  · rintro i j a b c e y hij ha hb hc he ⟨t, t0, t1, rfl⟩ ⟨s, s0, s1, hy⟩
    have hj : j + 1 < 7 := (List.getElem?_eq_some_iff.mp he).1
    have h1 := congrArg Prod.fst hy
    have h2 := congrArg Prod.snd hy
    simp only [Prod.fst_add, Prod.snd_add, Prod.fst_sub, Prod.snd_sub, Prod.smul_fst, Prod.smul_snd, smul_eq_mul] at h1 h2
    have hj' : j = 2 ∨ j = 3 ∨ j = 4 ∨ j = 5 := by omega
    have hi' : i = 0 ∨ i = 1 ∨ i = 2 ∨ i = 3 := by omega
    rcases hj' with rfl | rfl | rfl | rfl <;> rcases hi' with rfl | rfl | rfl | rfl <;> first | omega | (
      obtain rfl := Option.some.inj ha; obtain rfl := Option.some.inj hb; obtain rfl := Option.some.inj hc; obtain rfl := Option.some.inj he
      linarith)
  · rw [offset_eq hext]
    rcases check_spec hok (l := l) (by simp [l]) [(0, 10), (62, 10), (62, -60), (-60, -60), (-60, 50), (60, 50), (60, 6)] 10 with ⟨-, e⟩ | ⟨⟨v, hv, y, ⟨g, hg, t, t0, t1, rfl⟩, hlt⟩, -⟩
    · rw [e]; rfl
    · exfalso
      have h7 : (0 : ℝ) < 1 / 10 ^ 7 := by positivity
      have hlt : dist v (g.1 + t • (g.2 - g.1)) < 10 := by linarith
      rw [dist2, Real.sqrt_lt' (by norm_num)] at hlt
      simp only [l, segs, List.tail_cons, List.zip_cons_cons, List.zip_nil_right, List.mem_cons, List.not_mem_nil, or_false] at hg hv
      rcases hg with rfl | rfl | rfl | rfl | rfl | rfl <;> rcases hv with rfl | rfl | rfl | rfl | rfl | rfl | rfl <;>
        simp only [Prod.fst_add, Prod.snd_add, Prod.fst_sub, Prod.snd_sub, Prod.smul_fst, Prod.smul_snd, smul_eq_mul] at hlt <;> nlinarith

/-! ### two pieces -/

/-- the next point is the only intersection -/
theorem next_unique {env : Env} (hok : env.Ok) {tree : List (Seg × Nat)} {n : Nat} {seg : Seg} {lastS : ℝ} (o : Seg × Nat) (x : P2) (ho : o ∈ tree)
    (hn : n < o.2) (hd : o.1.1 ≠ seg.2 ∧ o.1.2 ≠ seg.1 ∧ o.1.1 ≠ seg.1) (h1 : OnSegment seg.1 seg.2 x) (h2 : OnSegment o.1.1 o.1.2 x)
    (hs : lastS < dist x seg.1) (hu : ∀ o' ∈ tree, n < o'.2 → ∀ y, OnSegment seg.1 seg.2 y → OnSegment o'.1.1 o'.1.2 y → o' = o ∧ y = x) :
    ∃ is, getSelfIntersectionsAt env tree n seg = pure is ∧ findNextPoint is seg lastS n = ⟨x, o.2, dist x o.1.1⟩ := by
  classical
  have hmap : getSelfIntersectionsAt env tree n seg = pure (((env.query tree seg).filter fun o => decide (o.1.1 ≠ seg.2 ∧ o.1.2 ≠ seg.1 ∧
      o.1.1 ≠ seg.1 ∧ n < o.2)).map fun _ => ⟨dist x seg.1, o.2, dist x o.1.1, x⟩) := by
    unfold getSelfIntersectionsAt
    refine mapM_ok ?_
    intro o' ho'
    obtain ⟨g1, g2⟩ := List.mem_filter.mp ho'
    obtain ⟨hot, y, hy1, hy2⟩ := (hok.query tree seg o').mp g1
    have hne := hok.found seg o'.1 y hy1 hy2
    cases h : env.intersection seg o'.1 with
    | nil => exact absurd h hne
    | cons z r =>
      obtain ⟨c1, c2⟩ := hok.common seg o'.1 z (by rw [h]; simp)
      obtain ⟨rfl, rfl⟩ := hu o' hot (of_decide_eq_true g2).2.2.2 z c1 c2
      rfl
  refine ⟨_, hmap, ?_⟩
  have hmem : o ∈ (env.query tree seg).filter fun o => decide (o.1.1 ≠ seg.2 ∧ o.1.2 ≠ seg.1 ∧ o.1.1 ≠ seg.1 ∧ n < o.2) := by
    rw [List.mem_filter]
    exact ⟨(hok.query tree seg o).mpr ⟨ho, x, h1, h2⟩, decide_eq_true ⟨hd.1, hd.2.1, hd.2.2, hn⟩⟩
  have key : ∀ (l : List (Seg × Nat)), l ≠ [] → getLowestSAbove (l.map fun _ => (⟨dist x seg.1, o.2, dist x o.1.1, x⟩ : Inter)) lastS =
      some ⟨dist x seg.1, o.2, dist x o.1.1, x⟩ := by
    intro l hl
    unfold getLowestSAbove
    cases l with
    | nil => exact absurd rfl hl
    | cons a r =>
      rw [List.map_cons, List.foldl_cons, if_pos ⟨hs, trivial⟩]
      induction r with
      | nil => rfl
      | cons b r ih =>
        rw [List.map_cons, List.foldl_cons, if_neg (by simp)]
        exact ih (by simp)
  unfold findNextPoint
  rw [key _ (List.ne_nil_of_mem hmem)]

theorem next_none {env : Env} (hok : env.Ok) {tree : List (Seg × Nat)} {n : Nat} {seg : Seg} {lastS : ℝ}
    (hu : ∀ o' ∈ tree, n < o'.2 → ∀ y, OnSegment seg.1 seg.2 y → ¬ OnSegment o'.1.1 o'.1.2 y) :
    ∃ is, getSelfIntersectionsAt env tree n seg = pure is ∧ findNextPoint is seg lastS n = ⟨seg.2, n + 1, 0⟩ := by
  obtain ⟨is, h1, h2⟩ := inters_ok hok tree n seg
  refine ⟨is, h1, ?_⟩
  have : is = [] := by
    by_contra hne
    obtain ⟨i, hi⟩ := List.exists_mem_of_ne_nil is hne
    obtain ⟨h3, h4, o, ho, e, h5⟩ := h2 i hi
    exact hu o ho (by rw [e]; exact h3) _ h4 h5
  rw [this]
  rfl

/-- two pieces of one segment each -/
theorem join_two {env : Env} {a b c e x : P2} {k : ℝ} {is is' : List Inter}
    (h1 : getSelfIntersectionsAt env [((a, b), 0), ((c, e), 1)] 0 (a, b) = pure is) (h2 : findNextPoint is (a, b) 0 0 = ⟨x, 1, k⟩)
    (h3 : getSelfIntersectionsAt env [((a, b), 0), ((c, e), 1)] 1 (c, e) = pure is') (h4 : findNextPoint is' (c, e) k 1 = ⟨e, 2, 0⟩) :
    joinSubStrings env [[a, b], [c, e]] = pure [a, x, e, e] := by
  have ht : makeTree [[a, b], [c, e]] = ([((a, b), 0), ((c, e), 1)], [(0, 0), (1, 0)]) := rfl
  unfold joinSubStrings
  have f1 : front [a, b] = pure a := rfl
  have f2 : back [[a, b], [c, e]] = pure [c, e] := rfl
  have f3 : back [c, e] = pure e := rfl
  have g0 : get [[a, b], [c, e]] 0 = pure [a, b] := rfl
  have g1 : get [[a, b], [c, e]] 1 = pure [c, e] := rfl
  simp only
  rw [f1, pure_bind, joinLoop, if_pos (by simp)]
  simp only
  rw [g0, pure_bind, joinInner, if_pos (by simp)]
  have q1 : get [a, b] 0 = pure a := rfl
  have q2 : get [a, b] (0 + 1) = pure b := rfl
  have q3 : get [c, e] 0 = pure c := rfl
  have q4 : get [c, e] (0 + 1) = pure e := rfl
  have q5 : get [((0 : Nat), (0 : Nat)), (1, 0)] 1 = pure (1, 0) := rfl
  simp only [q1, q2, pure_bind, ht, h1, h2]
  rw [if_neg (by simp), q5, pure_bind, if_pos (by simp), pure_bind, joinLoop, if_pos (by simp)]
  simp only
  rw [g1, pure_bind, joinInner, if_pos (by simp)]
  simp only [q3, q4, pure_bind, ht, h3, h4]
  rw [if_pos (by simp), pure_bind, joinLoop, if_neg (by simp), pure_bind, f2, pure_bind, f3, pure_bind]
  rfl

/-- Disagreement with C60: where pieces are joined, the last point is repeated, so that the result has a segment without length. -/
theorem repeated_end_counterexample {env : Env} (hok : env.Ok) : ∃ l : List P2, NoRepetition l ∧
    offset env l (1 / 2) = pure [(1 / 2, 0), (1 / 2, 1 / 2), (0, 1 / 2), (0, 1 / 2)] := by
  let l : List P2 := [(1, 0), (1, 1), (0, 1)]
  have c0 : Corner l 0 (1, 0) (1, 1) (0, 1) (0, 1) (-1, 0) :=
    ⟨rfl, rfl, rfl, dir_eq (n := 1) (by norm_num) (by rw [dot2]; norm_num) (by vec), dir_eq (n := 1) (by norm_num) (by rw [dot2]; norm_num) (by vec)⟩
  have hext : extractConvex l (1 / 2) = pure [[(1 / 2, 0), (1 / 2, 1)], [(1, 1 / 2), (0, 1 / 2)]] := by
    unfold extractConvex
    rw [loop_step (e := 1) (p := (1 / 2, 0)) (s := [(1 / 2, 0), (1 / 2, 1)]) c0.ha c0.hb c0.d1 (by vec) (by
        rw [run_concave c0 (1 / 2, 1) (by constructor <;> (intro; simp only [cross]; norm_num at *)) (by vec)]; rfl),
      loop_step (e := 2) (p := (1, 1 / 2)) (s := [(1, 1 / 2), (0, 1 / 2)]) c0.hb c0.hc c0.d2 (by vec) (by
        rw [run_last c0.hb c0.hc rfl c0.d2 (0, 1 / 2) (by vec)]; rfl), loop_end rfl]
    rfl
  obtain ⟨is, h1, h2⟩ := next_unique hok (tree := [((((1 / 2, 0) : P2), ((1 / 2, 1) : P2)), 0), (((1, 1 / 2), (0, 1 / 2)), 1)]) (n := 0)
    (seg := ((1 / 2, 0), (1 / 2, 1))) (lastS := 0) (((1, 1 / 2), (0, 1 / 2)), 1) (1 / 2, 1 / 2) (by simp) (by simp) (by norm_num)
    ⟨1 / 2, by norm_num, by norm_num, by vec⟩ ⟨1 / 2, by norm_num, by norm_num, by vec⟩
    (by rw [dist_nat _ _ (1 / 2) (by norm_num) (by norm_num)]; norm_num) (by
      rintro o' ho' hn y ⟨t, -, -, rfl⟩ ⟨s, -, -, e⟩
      simp only [List.mem_cons, List.not_mem_nil, or_false] at ho'
      rcases ho' with rfl | rfl
      · simp at hn
      · refine ⟨rfl, ?_⟩
        have e2 := congrArg Prod.snd e
        simp only [Prod.fst_add, Prod.snd_add, Prod.fst_sub, Prod.snd_sub, Prod.smul_fst, Prod.smul_snd, smul_eq_mul] at e2
        have : t = 1 / 2 := by linarith
        rw [this]; vec)
  obtain ⟨is', h3, h4⟩ := next_none hok (tree := [((((1 / 2, 0) : P2), ((1 / 2, 1) : P2)), 0), (((1, 1 / 2), (0, 1 / 2)), 1)]) (n := 1)
    (seg := ((1, 1 / 2), (0, 1 / 2))) (lastS := dist ((1 / 2, 1 / 2) : P2) (1, 1 / 2)) (by
      intro o' ho' hn
      simp only [List.mem_cons, List.not_mem_nil, or_false] at ho'
      rcases ho' with rfl | rfl <;> simp at hn)
  have hno : offsetNoThrow env l (1 / 2) = pure [(1 / 2, 0), (1 / 2, 1 / 2), (0, 1 / 2), (0, 1 / 2)] := by
    unfold offsetNoThrow
    rw [hext, pure_bind]
    exact join_two h1 h2 h3 h4
  refine ⟨l, ?_, ?_⟩
  · intro i a b ha hb
    match i, ha, hb with
    | 0, ha, hb => obtain rfl := Option.some.inj ha; obtain rfl := Option.some.inj hb; exact c0.d1.2
    | 1, ha, hb => obtain rfl := Option.some.inj ha; obtain rfl := Option.some.inj hb; exact c0.d2.2
    | i + 2, ha, hb => simp [l] at hb
  · rw [offset_eq hno]
    rcases check_spec hok (l := l) (by simp [l]) [(1 / 2, 0), (1 / 2, 1 / 2), (0, 1 / 2), (0, 1 / 2)] (1 / 2) with ⟨-, e⟩ | ⟨⟨v, hv, y, ⟨g, hg, t, t0, t1, rfl⟩, hlt⟩, -⟩
    · rw [e]; rfl
    · exfalso
      have h7 : (0 : ℝ) < 1 / 10 ^ 7 := by positivity
      have hlt : dist v (g.1 + t • (g.2 - g.1)) < 1 / 2 := by linarith
      rw [dist2, Real.sqrt_lt' (by norm_num)] at hlt
      simp only [l, segs, List.tail_cons, List.zip_cons_cons, List.zip_nil_right, List.mem_cons, List.not_mem_nil, or_false] at hg hv
      rcases hg with rfl | rfl <;> rcases hv with rfl | rfl | rfl | rfl <;>
        simp only [Prod.fst_add, Prod.snd_add, Prod.fst_sub, Prod.snd_sub, Prod.smul_fst, Prod.smul_snd, smul_eq_mul] at hlt <;> nlinarith

/-- Disagreement with C60: an offset to the right that inverts the line is returned without an error. -/
theorem inverted_right_counterexample {env : Env} (hok : env.Ok) : ∃ (l r : List P2) (v y : P2), NoRepetition l ∧
    offset env l (-2) = pure r ∧ v ∈ r ∧ OnLine l y ∧ dist v y < 3 / 2 := by
  let l : List P2 := [(0, 0), (1, 0), (1, -1)]
  have c0 : Corner l 0 (0, 0) (1, 0) (1, -1) (1, 0) (0, -1) :=
    ⟨rfl, rfl, rfl, dir_eq (n := 1) (by norm_num) (by rw [dot2]; norm_num) (by vec), dir_eq (n := 1) (by norm_num) (by rw [dot2]; norm_num) (by vec)⟩
  have hext : extractConvex l (-2) = pure [[(0, -2), (1, -2)], [(-1, 0), (-1, -1)]] := by
    unfold extractConvex
    rw [loop_step (e := 1) (p := (0, -2)) (s := [(0, -2), (1, -2)]) c0.ha c0.hb c0.d1 (by vec) (by
        rw [run_concave c0 (1, -2) (by constructor <;> (intro; simp only [cross]; norm_num at *)) (by vec)]; rfl),
      loop_step (e := 2) (p := (-1, 0)) (s := [(-1, 0), (-1, -1)]) c0.hb c0.hc c0.d2 (by vec) (by
        rw [run_last c0.hb c0.hc rfl c0.d2 (-1, -1) (by vec)]; rfl), loop_end rfl]
    rfl
  obtain ⟨is, h1, h2⟩ := next_none hok (tree := [((((0, -2) : P2), ((1, -2) : P2)), 0), (((-1, 0), (-1, -1)), 1)]) (n := 0)
    (seg := ((0, -2), (1, -2))) (lastS := 0) (by
      rintro o' ho' hn y ⟨t, t0, -, rfl⟩ ⟨s, -, -, e⟩
      simp only [List.mem_cons, List.not_mem_nil, or_false] at ho'
      rcases ho' with rfl | rfl
      · simp at hn
      · have e2 := congrArg Prod.fst e
        simp only [Prod.fst_add, Prod.snd_add, Prod.fst_sub, Prod.snd_sub, Prod.smul_fst, Prod.smul_snd, smul_eq_mul] at e2
        linarith)
  obtain ⟨is', h3, h4⟩ := next_none hok (tree := [((((0, -2) : P2), ((1, -2) : P2)), 0), (((-1, 0), (-1, -1)), 1)]) (n := 1)
    (seg := ((-1, 0), (-1, -1))) (lastS := 0) (by
      intro o' ho' hn
      simp only [List.mem_cons, List.not_mem_nil, or_false] at ho'
      rcases ho' with rfl | rfl <;> simp at hn)
  have hno : offsetNoThrow env l (-2) = pure [(0, -2), (1, -2), (-1, -1), (-1, -1)] := by
    unfold offsetNoThrow
    rw [hext, pure_bind]
    exact join_two h1 h2 h3 h4
  refine ⟨l, [(0, -2), (1, -2), (-1, -1), (-1, -1)], (-1, -1), (0, 0), ?_, ?_, by simp, ⟨((0, 0), (1, 0)), by simp [segs, l], onSegment_left _ _⟩, ?_⟩
  · intro i a b ha hb
    match i, ha, hb with
    | 0, ha, hb => obtain rfl := Option.some.inj ha; obtain rfl := Option.some.inj hb; exact c0.d1.2
    | 1, ha, hb => obtain rfl := Option.some.inj ha; obtain rfl := Option.some.inj hb; exact c0.d2.2
    | i + 2, ha, hb => simp [l] at hb
  · rw [offset_eq hno, check_nonpos (by simp [l]) (by norm_num)]; rfl
  · rw [dist2, Real.sqrt_lt' (by norm_num)]; norm_num

/-! ### the assumptions about boost can be met -/

theorem env_exists : ∃ env : Env, env.Ok := by
  classical
  have hmin : ∀ (l : List Seg) (p : P2), ∃ s, l ≠ [] → s ∈ l ∧ ∀ t ∈ l, dist (projectPoint s.1 s.2 p) p ≤ dist (projectPoint t.1 t.2 p) p := by
    intro l p
    induction l with
    | nil => exact ⟨((0, 0), (0, 0)), fun h => absurd rfl h⟩
    | cons a r ih =>
      by_cases hr : r = []
      · refine ⟨a, fun _ => ⟨by simp, ?_⟩⟩
        intro t ht
        rw [hr] at ht
        rw [List.mem_singleton.mp ht]
      · obtain ⟨s, hs⟩ := ih
        obtain ⟨h1, h2⟩ := hs hr
        rcases le_total (dist (projectPoint a.1 a.2 p) p) (dist (projectPoint s.1 s.2 p) p) with h | h
        · refine ⟨a, fun _ => ⟨by simp, ?_⟩⟩
          intro t ht
          rcases List.mem_cons.mp ht with rfl | ht
          · exact le_refl _
          · exact le_trans h (h2 t ht)
        · refine ⟨s, fun _ => ⟨List.mem_cons_of_mem _ h1, ?_⟩⟩
          intro t ht
          rcases List.mem_cons.mp ht with rfl | ht
          · exact h
          · exact h2 t ht
  refine ⟨⟨fun s t => if h : ∃ x, OnSegment s.1 s.2 x ∧ OnSegment t.1 t.2 x then [h.choose] else [],
    fun tree s => tree.filter fun o => decide (∃ x, OnSegment s.1 s.2 x ∧ OnSegment o.1.1 o.1.2 x), fun l p => (hmin l p).choose⟩, ?_, ?_, ?_, ?_⟩
  · intro s t x hx
    simp only at hx
    split at hx
    · rename_i h
      rw [List.mem_singleton.mp hx]
      exact h.choose_spec
    · simp at hx
  · intro s t x h1 h2
    simp only
    rw [dif_pos ⟨x, h1, h2⟩]
    simp
  · intro tree s o
    simp [List.mem_filter]
  · intro l p h
    exact (hmin l p).choose_spec h

/-! ### repeated points, and an example -/

/-- a corner at which the code sees one direction and a vector of length zero -/
theorem shift_repeated {l : List P2} {j : Nat} {a b c : P2} (ha : l[j]? = some a) (hb : l[j + 1]? = some b) (hc : l[j + 2]? = some c)
    (h : (b - a = 0 ∧ c - b = (1, 0)) ∨ (b - a = (1, 0) ∧ c - b = 0)) : shiftAt l 1 (j + 1) = pure ([b + (0, 2)], true) := by
  classical
  have hlen := lt_of_corner hc
  have hn1 : norm ((1, 0) : P2) = 1 := by rw [norm2]; norm_num
  have hz : normalized (0 : P2) = 0 := by unfold normalized; rw [if_neg]; rw [norm_eq_zero.mpr rfl]; simp
  have h1 : normalized ((1, 0) : P2) = (1, 0) := by unfold normalized; rw [hn1, if_pos (by norm_num)]; simp
  have hx : cross (b - a) (c - b) = 0 := by
    rcases h with ⟨e1, e2⟩ | ⟨e1, e2⟩ <;> rw [e1, e2] <;> simp [cross]
  have hdot : dot (c - b) (b - a) = 0 := by
    rcases h with ⟨e1, e2⟩ | ⟨e1, e2⟩ <;> rw [e1, e2] <;> simp [dot2]
  have hw : normalized (c - b) + normalized (b - a) = (1, 0) := by
    rcases h with ⟨e1, e2⟩ | ⟨e1, e2⟩ <;> rw [e1, e2, hz, h1] <;> simp
  have hleft : pointIsLeftOf a b c = false := by
    unfold pointIsLeftOf
    rw [cross_corner, hx]
    simp
  have hg : getConvexity l (j + 1) ⟨b - a, c - b⟩ (decide ((0 : ℝ) < 1)) = pure .convex := by
    unfold getConvexity isConvex
    rw [if_pos (by omega), Nat.add_sub_cancel, get_eq ha, get_eq hb, get_eq hc]
    simp only [pure_bind, hleft]
    rw [if_neg (by simp), if_neg (by rw [hdot]; simp)]
  unfold shiftAt shiftPoint
  rw [vinc_inner ha hb hc]
  simp only [pure_bind]
  rw [hg]
  simp only [pure_bind]
  unfold shiftLateral
  rw [get_eq hb]
  simp only [pure_bind]
  rw [if_neg (by omega), if_neg (by omega), hw, hn1, if_pos (by norm_num)]
  have hp : normalized (perp ((1, 0) : P2)) = (0, 1) := by
    rw [normalized_perp, h1]; simp [perp]
  rw [hp]
  simp only [pure_bind]
  congr 2
  simp only [List.cons.injEq, and_true, add_right_inj]
  vec

/-- Disagreement with C60: next to a repeated point the offset is twice as large. -/
theorem repeated_point_counterexample (env : Env) :
    offsetNoThrow env [(0, 0), (1, 0), (1, 0), (2, 0)] 1 = pure [(0, 1), (1, 2), (1, 2), (2, 1)] := by
  let l : List P2 := [(0, 0), (1, 0), (1, 0), (2, 0)]
  have d0 : dir ((0, 0) : P2) (1, 0) = (1, 0) ∧ ((0, 0) : P2) ≠ (1, 0) := dir_eq (n := 1) (by norm_num) (by rw [dot2]; norm_num) (by vec)
  have d2 : dir ((1, 0) : P2) (2, 0) = (1, 0) ∧ ((1, 0) : P2) ≠ (2, 0) := dir_eq (n := 1) (by norm_num) (by rw [dot2]; norm_num) (by vec)
  have s1 := shift_repeated (l := l) (j := 0) (a := (0, 0)) (b := (1, 0)) (c := (1, 0)) rfl rfl rfl (Or.inr ⟨by vec, by simp⟩)
  have s2 := shift_repeated (l := l) (j := 1) (a := (1, 0)) (b := (1, 0)) (c := (2, 0)) rfl rfl rfl (Or.inl ⟨by simp, by vec⟩)
  have e : ((1, 0) : P2) + (0, 2) = (1, 2) := by vec
  rw [e] at s1 s2
  show offsetNoThrow env l 1 = _
  unfold offsetNoThrow extractConvex
  rw [loop_step (l := l) (a := (0, 0)) (b := (1, 0)) (e := 3) (p := (0, 1)) (s := [(0, 1), (1, 2), (1, 2), (2, 1)]) rfl rfl d0 (by vec), loop_end rfl]
  · rfl
  · rw [run_step (by simp [l]) s1, if_pos rfl, run_step (by simp [l]) s2, if_pos rfl,
      run_last (l := l) (j := 2) (a := (1, 0)) (b := (2, 0)) rfl rfl rfl d2 (2, 1) (by vec)]
    rfl

/-- a line with a mild and a sharp corner to the right: the result of the theorem for lines without corners towards the side of the offset -/
example : ∃ (env : Env) (r : List P2) (labels : List Label), env.Ok ∧ offsetNoThrow env [(0, 0), (5, 0), (9, -3), (0, -3)] 1 = pure r ∧
    Traced [(0, 0), (5, 0), (9, -3), (0, -3)] 1 r labels ∧ labels.filterMap Label.segIdx = [0, 1, 2] := by
  obtain ⟨env, hok⟩ := env_exists
  have c0 : Corner [((0 : ℝ), (0 : ℝ)), (5, 0), (9, -3), (0, -3)] 0 (0, 0) (5, 0) (9, -3) (1, 0) (4 / 5, -3 / 5) :=
    ⟨rfl, rfl, rfl, dir_eq (n := 5) (by norm_num) (by rw [dot2]; norm_num) (by vec), dir_eq (n := 5) (by norm_num) (by rw [dot2]; norm_num) (by vec)⟩
  have c1 : Corner [((0 : ℝ), (0 : ℝ)), (5, 0), (9, -3), (0, -3)] 1 (5, 0) (9, -3) (0, -3) (4 / 5, -3 / 5) (-1, 0) :=
    ⟨rfl, rfl, rfl, c0.d2, dir_eq (n := 9) (by norm_num) (by rw [dot2]; norm_num) (by vec)⟩
  obtain ⟨r, labels, h1, h2, h3, -⟩ := offset_convex (env := env) (l := [(0, 0), (5, 0), (9, -3), (0, -3)]) (by simp) (by
      intro i a b ha hb
      match i, ha, hb with
      | 0, ha, hb => obtain rfl := Option.some.inj ha; obtain rfl := Option.some.inj hb; exact c0.d1.2
      | 1, ha, hb => obtain rfl := Option.some.inj ha; obtain rfl := Option.some.inj hb; exact c1.d1.2
      | 2, ha, hb => obtain rfl := Option.some.inj ha; obtain rfl := Option.some.inj hb; exact c1.d2.2
      | i + 3, ha, hb => simp at hb) (d := 1) (by
      intro k hk
      have := concave_lt hk
      simp only [List.length_cons, List.length_nil] at this
      obtain rfl | rfl : k = 0 ∨ k = 1 := by omega
      · have := ((concave_iff c0).mp hk).1 (by norm_num); simp only [cross] at this; norm_num at this
      · have := ((concave_iff c1).mp hk).1 (by norm_num); simp only [cross] at this; norm_num at this) (Or.inl (by norm_num))
  exact ⟨env, r, labels, hok, h1, h2, h3⟩

end Verif.Geo.Offset
