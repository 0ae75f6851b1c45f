import Verif.Geo.ArcCoords

/-!
C44: the sign of the distance at a corner for linestrings with fewer than 50 points. These are searched in the order of their segments
(LineStringGeometry.cpp 122-132), so that the segment before the corner is found first.
-/
namespace Verif.Geo

/-- one step of the search for the closest segment -/
noncomputable def projStep (p : ℝ × ℝ) (r : Option (Proj ℝ (ℝ × ℝ))) (a b : ℝ × ℝ) : Except Fault (Option (Proj ℝ (ℝ × ℝ)) × ℝ) :=
  .ok (some (Proj.update p r (a, b)), (Proj.update p r (a, b)).distance)

/-- segments that are not closer do not change the result -/
theorem distLoop_keep (p : ℝ × ℝ) : ∀ (l : List (ℝ × ℝ)) (x : ℝ × ℝ) (o : Proj ℝ (ℝ × ℝ)),
    (∀ s ∈ (x :: l).zip l, o.distance ≤ (Proj.of (F := ℝ) p s).distance) → distLoop (projStep p) (some o) x l = .ok (some o) := by
  intro l
  induction l with
  | nil => intro x o _; rfl
  | cons y l ih =>
    intro x o h
    have hu : Proj.update p (some o) (x, y) = o := by
      unfold Proj.update
      exact if_neg (not_lt.mpr (h (x, y) (by simp)))
    have hs : projStep p (some o) x y = .ok (some o, o.distance) := by unfold projStep; rw [hu]
    rw [distLoop, hs]
    simp only [bind, Except.bind]
    split
    · rfl
    · exact ih y o fun s hs => h s (by
        cases l with
        | nil => simp at hs
        | cons z l => simp only [List.zip_cons_cons, List.mem_cons] at hs ⊢; tauto)

/-- the first of the closest segments is the result -/
theorem distLoop_first (p a b : ℝ × ℝ) (post : List (ℝ × ℝ))
    (hpost : ∀ s ∈ (b :: post).zip post, (Proj.of (F := ℝ) p (a, b)).distance ≤ (Proj.of (F := ℝ) p s).distance) :
    ∀ (pre : List (ℝ × ℝ)) (x : ℝ × ℝ) (rest : List (ℝ × ℝ)) (r : Option (Proj ℝ (ℝ × ℝ))), pre ++ a :: b :: post = x :: rest →
      (∀ o, r = some o → (Proj.of (F := ℝ) p (a, b)).distance < o.distance) →
      (∀ s ∈ (pre ++ [a]).zip (pre ++ [a]).tail, (Proj.of (F := ℝ) p (a, b)).distance < (Proj.of (F := ℝ) p s).distance) →
      distLoop (projStep p) r x rest = .ok (some (Proj.of p (a, b))) := by
  intro pre
  induction pre with
  | nil =>
    intro x rest r e hr _
    obtain ⟨rfl, rfl⟩ := List.cons.inj e
    have hu : Proj.update p r (a, b) = Proj.of p (a, b) := by
      cases r with
      | none => rfl
      | some o => unfold Proj.update; exact if_pos (hr o rfl)
    have hs : projStep p r a b = .ok (some (Proj.of p (a, b)), (Proj.of (F := ℝ) p (a, b)).distance) := by unfold projStep; rw [hu]
    rw [distLoop, hs]
    simp only [bind, Except.bind]
    split
    · rfl
    · exact distLoop_keep p post b _ hpost
  | cons z pre ih =>
    intro x rest r e hr hpre
    obtain ⟨rfl, rfl⟩ := List.cons.inj e
    -- the next point
    obtain ⟨y, t, hy⟩ : ∃ y t, pre ++ a :: b :: post = y :: t := by cases pre <;> exact ⟨_, _, rfl⟩
    obtain ⟨t', hy'⟩ : ∃ t', pre ++ [a] = y :: t' := by
      cases pre with
      | nil => exact ⟨[], by rw [(List.cons.inj hy).1]; rfl⟩
      | cons w pre => exact ⟨pre ++ [a], by rw [(List.cons.inj hy).1]; rfl⟩
    change distLoop (projStep p) r z (pre ++ a :: b :: post) = _
    rw [hy]
    have hzy := hpre (z, y) (by simp [hy'])
    have hd : (Proj.of (F := ℝ) p (a, b)).distance < (Proj.update p r (z, y)).distance := by
      cases r with
      | none => exact hzy
      | some o =>
        unfold Proj.update
        simp only
        split
        · exact hzy
        · exact hr o rfl
    have hs : projStep p r z y = .ok (some (Proj.update p r (z, y)), (Proj.update p r (z, y)).distance) := rfl
    rw [distLoop, hs]
    simp only [bind, Except.bind]
    rw [if_neg (ne_of_gt (lt_of_le_of_lt (proj_of_nonneg p (a, b)) hd))]
    refine ih y t _ hy (fun o ho => ?_) fun s hs => hpre s ?_
    · rw [← Option.some.inj ho]; exact hd
    · simp only [List.cons_append, List.tail_cons, hy', List.zip_cons_cons] at hs ⊢
      exact List.mem_cons_of_mem _ hs

theorem zip_mem_right {pre post : List (ℝ × ℝ)} {s : (ℝ × ℝ) × (ℝ × ℝ)} : s ∈ post.zip post.tail → s ∈ (pre ++ post).zip (pre ++ post).tail := by
  induction pre with
  | nil => exact id
  | cons x pre ih =>
    intro h
    have := ih h
    cases hp : pre ++ post with
    | nil => rw [hp] at this; simp at this
    | cons y t =>
      rw [hp] at this
      simp only [List.cons_append, hp, List.tail_cons, List.zip_cons_cons] at this ⊢
      exact List.mem_cons_of_mem _ this

theorem zip_mem_left {pre post : List (ℝ × ℝ)} {s : (ℝ × ℝ) × (ℝ × ℝ)} (h : s ∈ pre.zip pre.tail) : s ∈ (pre ++ post).zip (pre ++ post).tail := by
  obtain ⟨q, t, e⟩ := zip_split h
  rw [e, List.append_assoc]
  exact zip_mem_right (by simp)

theorem projectLine_first {ix : Index ℝ (ℝ × ℝ)} {pre post : List (ℝ × ℝ)} {p a b : ℝ × ℝ} (hlen : (pre ++ a :: b :: post).length < 50)
    (hpre : ∀ s ∈ (pre ++ [a]).zip (pre ++ [a]).tail, (Proj.of (F := ℝ) p (a, b)).distance < (Proj.of (F := ℝ) p s).distance)
    (hpost : ∀ s ∈ (b :: post).zip post, (Proj.of (F := ℝ) p (a, b)).distance ≤ (Proj.of (F := ℝ) p s).distance) :
    projectLine ix (pre ++ a :: b :: post) p = .ok (Proj.of p (a, b)) := by
  obtain ⟨x, y, t, e⟩ : ∃ x y t, pre ++ a :: b :: post = x :: y :: t := by
    rcases pre with _ | ⟨x, _ | ⟨y, pre⟩⟩
    · exact ⟨_, _, _, rfl⟩
    · exact ⟨_, _, _, rfl⟩
    · exact ⟨_, _, _, rfl⟩
  have := distLoop_first p a b post hpost pre x (y :: t) none e (by simp) hpre
  unfold projectLine
  rw [if_pos hlen, e]
  unfold projBruteForce
  show (do let r ← distLoop (projStep p) none x (y :: t); _) = _
  rw [this]
  rfl

/-- C44: the sign of the distance at a corner. If the corner `b` of a linestring with fewer than 50 points is its only closest point, and the
part before the corner does not touch it, the distance is the one to the corner, and it is positive iff the point is left of the corner. -/
theorem signedDistance_corner {ix : Index ℝ (ℝ × ℝ)} (hix : ix.Ok) {pre post : List (ℝ × ℝ)} {p a b c : ℝ × ℝ}
    (hlen : (pre ++ a :: b :: c :: post).length < 50) (hb : ∀ x, Closest (pre ++ a :: b :: c :: post) p x → x = b)
    (hpre : ¬ OnLine (pre ++ [a]) b) :
    ∃ d, signedDistanceImpl ix (pre ++ a :: b :: c :: post) p = .ok (d, (a, b), b) ∧ |d| = dist b p ∧ (0 < d ↔ LeftOfCorner a b c p) := by
  obtain ⟨r, -, -, -, hr1, hr2⟩ := projectLine_nearest (S := inferInstance) hix (l := pre ++ a :: b :: c :: post) (by simp) p
  have hcl : Closest (pre ++ a :: b :: c :: post) p b := hb r.p ⟨hr1, hr2⟩ ▸ (⟨hr1, hr2⟩ : Closest _ p r.p)
  have hz : segs (pre ++ a :: b :: c :: post) = (pre ++ a :: b :: c :: post).zip (pre ++ a :: b :: c :: post).tail := by
    rcases pre with _ | ⟨x, _ | ⟨y, pre⟩⟩ <;> rfl
  have hin : ∀ s ∈ (pre ++ a :: b :: c :: post).zip (pre ++ a :: b :: c :: post).tail, OnLine (pre ++ a :: b :: c :: post) (projectPoint s.1 s.2 p) :=
    fun s hs => ⟨s, by rw [hz]; exact hs, (projectPoint_nearest s.1 s.2 p).1⟩
  have hab : (a, b) ∈ (pre ++ a :: b :: c :: post).zip (pre ++ a :: b :: c :: post).tail := zip_mem_right (by simp)
  have hpb : projectPoint a b p = b := hb _ ⟨hin _ hab, fun y hy =>
    le_trans ((projectPoint_nearest a b p).2 b (onSegment_right a b)) (hcl.2 y hy)⟩
  have hd : (Proj.of (F := ℝ) p (a, b)).distance = dist b p := by
    show dist (projectPoint a b p) p = _
    rw [hpb]
  have h1 : projectLine ix (pre ++ a :: b :: c :: post) p = .ok (Proj.of p (a, b)) := by
    refine projectLine_first hlen (fun s hs => ?_) fun s hs => ?_
    · rw [hd]
      by_contra hlt
      have hs' : s ∈ (pre ++ a :: b :: c :: post).zip (pre ++ a :: b :: c :: post).tail := by
        have : pre ++ a :: b :: c :: post = (pre ++ [a]) ++ b :: c :: post := by simp
        rw [this]
        exact zip_mem_left hs
      have hq : projectPoint s.1 s.2 p = b := hb _ ⟨hin s hs', fun y hy => le_trans (not_lt.mp hlt) (hcl.2 y hy)⟩
      refine hpre ⟨s, ?_, by rw [← hq]; exact (projectPoint_nearest s.1 s.2 p).1⟩
      rcases pre with _ | ⟨x, _ | ⟨y, pre⟩⟩
      · simp at hs
      · exact hs
      · exact hs
    · rw [hd]
      refine hcl.2 _ (hin s ?_)
      have : pre ++ a :: b :: c :: post = (pre ++ [a]) ++ b :: c :: post := by simp
      rw [this]
      exact zip_mem_right hs
  have hbn : b ∉ pre ++ [a] := by
    intro hc
    refine hpre ?_
    rcases List.mem_append.mp hc with h | h
    · obtain ⟨u, v, e⟩ := List.append_of_mem h
      obtain ⟨w, t, e2⟩ : ∃ w t, v ++ [a] = w :: t := by cases v <;> exact ⟨_, _, rfl⟩
      refine ⟨(b, w), ?_, onSegment_left b w⟩
      have e3 : pre ++ [a] = u ++ (b :: w :: t) := by rw [e, List.append_assoc, List.cons_append, e2]
      have e4 : segs (pre ++ [a]) = (pre ++ [a]).zip (pre ++ [a]).tail := by
        rw [e3]
        rcases u with _ | ⟨x, _ | ⟨y, u⟩⟩ <;> rfl
      rw [e4, e3]
      exact zip_mem_right (by simp)
    · have : b = a := by simpa using h
      subst this
      rcases List.eq_nil_or_concat pre with rfl | ⟨pre, w, rfl⟩
      · exact ⟨(b, b), by simp [segs], onSegment_left b b⟩
      · refine ⟨(w, b), ?_, onSegment_right w b⟩
        have e4 : segs (pre.concat w ++ [b]) = (pre ++ [w, b]).zip (pre ++ [w, b]).tail := by
          rw [List.concat_eq_append, List.append_assoc]
          rcases pre with _ | ⟨x, _ | ⟨y, u⟩⟩ <;> rfl
        rw [e4]
        exact zip_mem_right (by simp)
  have h2 : ∃ d, signedDistanceImpl ix (pre ++ a :: b :: c :: post) p = .ok (d, (a, b), b) := by
    obtain ⟨v, hv⟩ := isLeftOf_ok (l := pre ++ a :: b :: c :: post) (p := p) (s := (a, b)) (proj := b) (by simp)
    refine ⟨if v then dist b p else -dist b p, ?_⟩
    unfold signedDistanceImpl
    rw [h1]
    simp only [bind, Except.bind, Proj.of, hpb, hv]
    rfl
  obtain ⟨d, h2⟩ := h2
  refine ⟨d, h2, ?_, signedDistance_corner_partial hbn h2⟩
  obtain ⟨-, v, -, rfl⟩ := signedDistance_inv h2
  have := dist_nonneg b p
  cases v <;> simp [abs_of_nonneg this]

/-- the theorem at a sharp corner: the point is right of it, although it is left of the segment behind the corner -/
example : ∃ d, signedDistanceImpl index2 [(0, 0), (10, 0), (0, 5)] (10, -1) = .ok (d, ((0, 0), (10, 0)), (10, 0)) ∧ |d| = 1 ∧ d < 0 ∧
    0 < cross ((0, 5) - (10, 0)) ((10, -1) - (10, 0)) := by
  have hd1 : dist ((10, 0) : ℝ × ℝ) (10, -1) = 1 := dist_nat _ _ 1 (by norm_num) (by norm_num)
  obtain ⟨d, h1, h2, h3⟩ := signedDistance_corner index2_ok (pre := []) (post := []) (p := (10, -1)) (a := (0, 0)) (b := (10, 0))
    (c := (0, 5)) (by simp) (by
      rintro x ⟨⟨s, hs, t, h0, h1, rfl⟩, h⟩
      have := h (10, 0) ⟨((0, 0), (10, 0)), by simp [segs], 1, by norm_num, by norm_num, by ext <;> norm_num⟩
      rw [hd1, dist2, Real.sqrt_le_one] at this
      simp only [segs, List.nil_append, List.tail_cons, List.zip_cons_cons, List.zip_nil_right, List.mem_cons, List.not_mem_nil, or_false] at hs
      rcases hs with rfl | rfl <;>
        simp only [Prod.fst_add, Prod.snd_add, Prod.smul_fst, Prod.smul_snd, Prod.fst_sub, Prod.snd_sub, smul_eq_mul] at this
      · have : (t - 1) * (t - 1) ≤ 0 := by nlinarith
        have := mul_self_eq_zero.mp (le_antisymm this (mul_self_nonneg _))
        have : t = 1 := by linarith
        rw [this]; ext <;> norm_num
      · have : t * t ≤ 0 := by nlinarith [mul_self_nonneg t]
        have := mul_self_eq_zero.mp (le_antisymm this (mul_self_nonneg _))
        rw [this]; ext <;> norm_num)
    (by
      rintro ⟨s, hs, t, -, -, ht⟩
      simp only [segs, List.nil_append, List.mem_cons, List.not_mem_nil, or_false] at hs
      subst hs
      have := congrArg Prod.fst ht
      simp at this)
  have hn : ¬ 0 < d := by
    rw [h3]
    unfold LeftOfCorner cross
    norm_num
  rw [hd1] at h2
  refine ⟨d, h1, h2, ?_, by unfold cross; norm_num⟩
  rcases lt_trichotomy d 0 with h | h | h
  · exact h
  · rw [h] at h2; norm_num at h2
  · exact absurd h hn

/-! ### longer linestrings -/

/-- an index that returns segments with the same distance of their boxes in another order -/
noncomputable def indexRev : Index ℝ (ℝ × ℝ) where
  search q l := index2.search q l.reverse
  boxDist := boxDist2

theorem indexRev_ok : indexRev.Ok where
  perm q l := (index2_ok.perm q l.reverse).trans (List.reverse_perm l)
  sorted q l := index2_ok.sorted q l.reverse
  lower := index2_ok.lower

theorem search_first {q s : (ℝ × ℝ) × (ℝ × ℝ)} {l : List ((ℝ × ℝ) × (ℝ × ℝ))} (h : ∀ x ∈ l, boxDist2 q s ≤ boxDist2 q x) :
    index2.search q (s :: l) = s :: index2.search q l := by
  show List.orderedInsert _ s (l.insertionSort _) = s :: l.insertionSort _
  cases he : l.insertionSort fun a b => boxDist2 q a ≤ boxDist2 q b with
  | nil => rfl
  | cons y t =>
    have : y ∈ l := (List.perm_insertionSort (fun a b => boxDist2 q a ≤ boxDist2 q b) l).mem_iff.mp (by rw [he]; simp)
    exact if_pos (h y this)

theorem projTreeLoop_keep (ix : Index ℝ (ℝ × ℝ)) (p : ℝ × ℝ) (o : Proj ℝ (ℝ × ℝ)) : ∀ l : List ((ℝ × ℝ) × (ℝ × ℝ)),
    (∀ s ∈ l, o.distance ≤ (Proj.of (F := ℝ) p s).distance) → projTreeLoop ix p (some o) l = some o := by
  intro l
  induction l with
  | nil => intro _; rfl
  | cons s l ih =>
    intro h
    have hu : Proj.update p (some o) s = o := by
      unfold Proj.update
      exact if_neg (not_lt.mpr (h s (by simp)))
    rw [projTreeLoop, hu]
    split
    · rfl
    · split
      · rfl
      · exact ih fun x hx => h x (List.mem_cons_of_mem _ hx)

theorem wrong_sign {pre : List (ℝ × ℝ)} (hy : ∀ x ∈ pre, x.2 = 0) (hlen : 47 ≤ pre.length) :
    signedDistanceImpl indexRev (pre ++ [(47, 0), (48, 0), (0, 5)]) (48, -1) = .ok (1, ((48, 0), (0, 5)), (48, 0)) := by
  have hd1 : dist ((48, 0) : ℝ × ℝ) (48, -1) = 1 := dist_nat _ _ 1 (by norm_num) (by norm_num)
  -- the closest point of the last segment
  have hpp : projectPoint (48, 0) (0, 5) ((48, -1) : ℝ × ℝ) = (48, 0) := by
    unfold projectPoint
    simp only [dot2, Prod.fst_sub, Prod.snd_sub]
    rw [if_pos (by norm_num)]
  have hof : Proj.of (F := ℝ) (48, -1) (((48, 0), (0, 5)) : (ℝ × ℝ) × (ℝ × ℝ)) = ⟨((48, 0), (0, 5)), (48, 0), 1⟩ := by
    unfold Proj.of
    simp only [hpp, hd1]
  have hbox : boxDist2 ((48, -1), (48, -1)) ((48, 0), (0, 5)) = 1 := by
    unfold boxDist2 gap
    norm_num
  have hbox' : ∀ s ∈ (pre ++ [(47, 0), (48, 0)]).zip (pre ++ [(47, 0), (48, 0)]).tail, 1 ≤ boxDist2 ((48, -1), (48, -1)) s := by
    intro s hs
    have hm : ∀ x ∈ pre ++ [(47, 0), (48, 0)], x.2 = 0 := by
      intro x hx
      rcases List.mem_append.mp hx with h | h
      · exact hy x h
      · simp only [List.mem_cons, List.not_mem_nil, or_false] at h
        rcases h with rfl | rfl <;> rfl
    have h1 := hm _ (List.of_mem_zip hs).1
    have h2 := hm _ (List.mem_of_mem_tail (List.of_mem_zip hs).2)
    unfold boxDist2
    refine Real.le_sqrt_of_sq_le ?_
    have hg : gap (-1) (-1) s.1.2 s.2.2 = 1 := by rw [h1, h2]; unfold gap; norm_num
    simp only [hg]
    nlinarith [mul_self_nonneg (gap (48 : ℝ) 48 s.1.1 s.2.1)]
  have hmin : ∀ s ∈ (pre ++ [(47, 0), (48, 0)]).zip (pre ++ [(47, 0), (48, 0)]).tail, 1 ≤ (Proj.of (F := ℝ) (48, -1) s).distance := by
    intro s hs
    refine le_trans (hbox' s hs) ?_
    have := index2_ok.lower ((48, -1), (48, -1)) s (48, -1) _ (onSegment_left _ _) (projectPoint_nearest s.1 s.2 (48, -1)).1
    rw [dist_comm] at this
    exact this
  have hsegs : treeSegs false (pre ++ [(47, 0), (48, 0), (0, 5)]) =
      (pre ++ [(47, 0), (48, 0)]).zip (pre ++ [(47, 0), (48, 0)]).tail ++ [((48, 0), (0, 5))] := by
    unfold treeSegs
    simp only [Bool.false_eq_true, if_false, List.append_nil]
    clear hmin hbox' hlen hy
    induction pre with
    | nil => rfl
    | cons x pre ih =>
      cases pre with
      | nil => rfl
      | cons y pre =>
        simp only [List.cons_append, List.tail_cons, List.zip_cons_cons] at ih ⊢
        rw [ih]
  have hproj : projectLine indexRev (pre ++ [(47, 0), (48, 0), (0, 5)]) (48, -1) = .ok ⟨((48, 0), (0, 5)), (48, 0), 1⟩ := by
    unfold projectLine
    rw [if_neg (by simp only [List.length_append, List.length_cons, List.length_nil]; omega), hsegs]
    generalize (pre ++ [(47, 0), (48, 0)]).zip (pre ++ [(47, 0), (48, 0)]).tail = sl at hbox' hmin
    have e : indexRev.search ((48, -1), (48, -1)) (sl ++ [((48, 0), (0, 5))]) =
        ((48, 0), (0, 5)) :: index2.search ((48, -1), (48, -1)) sl.reverse := by
      show index2.search _ (sl ++ [((48, 0), (0, 5))]).reverse = _
      rw [List.reverse_append, List.reverse_singleton, List.singleton_append]
      refine search_first fun x hx => ?_
      rw [hbox]
      exact hbox' x (List.mem_reverse.mp hx)
    rw [e, projTreeLoop]
    have hu : Proj.update (F := ℝ) (48, -1) none (((48, 0), (0, 5)) : (ℝ × ℝ) × (ℝ × ℝ)) = ⟨((48, 0), (0, 5)), (48, 0), 1⟩ := hof
    rw [hu, if_neg (by norm_num), projTreeLoop_keep]
    · rfl
    · intro s hs
      have := (index2_ok.perm _ _).mem_iff.mp hs
      exact hmin s (List.mem_reverse.mp this)
  have hl : isLeftOf (pre ++ [(47, 0), (48, 0), (0, 5)]) (48, -1) ((48, 0), (0, 5)) (48, 0) = .ok true := by
    unfold isLeftOf
    rw [if_neg (by simp)]
    unfold pointIsLeftOf cross
    norm_num
  unfold signedDistanceImpl
  rw [hproj]
  simp only [bind, Except.bind, hpp, hl, hd1, if_true]
  rfl

/-- C44: the sign at a sharp corner of a longer linestring is wrong, if the R-tree returns the segment behind the corner first. Both boxes are
equally far away, so it may do so. The linestring goes along the x axis in steps of 1 up to (48, 0), then back to (0, 5). The point (48, -1) is
right of the corner, but its distance is 1 and not -1. -/
theorem long_corner_counterexample : ∃ ix : Index ℝ (ℝ × ℝ), ix.Ok ∧
    signedDistanceImpl ix ((List.range 47).map (fun i => ((i : ℝ), 0)) ++ [(47, 0), (48, 0), (0, 5)]) (48, -1) =
      .ok (1, ((48, 0), (0, 5)), (48, 0)) ∧
    ¬ LeftOfCorner (47, 0) (48, 0) (0, 5) (48, -1) := by
  refine ⟨indexRev, indexRev_ok, wrong_sign ?_ ?_, ?_⟩
  · intro x hx
    obtain ⟨i, -, rfl⟩ := List.mem_map.mp hx
    rfl
  · simp
  · unfold LeftOfCorner cross
    norm_num

end Verif.Geo
