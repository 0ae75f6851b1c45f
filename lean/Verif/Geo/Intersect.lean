import Verif.Geo.ArcCoords

/-!
C63: intersections of centerlines. Model of intersectCenterlines2d, lanelet2_core/include/lanelet2_core/geometry/impl/Lanelet.h 92-110.
boost::geometry::intersection is a parameter.
-/
namespace Verif.Geo

/-! ### model -/

/-- std::transform with toArcCoordinates(line, elem).length, impl/Lanelet.h 100-101, 104-105 -/
noncomputable def arcLengths (ix : Index ℝ (ℝ × ℝ)) (line : List (ℝ × ℝ)) : List (ℝ × ℝ) → Except Fault (List ℝ)
  | [] => .ok []
  | p :: ps => do
    let c ← toArcCoordinates ix line p
    let r ← arcLengths ix line ps
    return c.length :: r

/-- the points, and the vectors behind the two pointers (`none`: null pointer); geometry/impl/Lanelet.h 92-108 (intersectCenterlines2d) -/
structure Intersections where
  points : List (ℝ × ℝ)
  distanceThis : Option (List ℝ)
  distanceOther : Option (List ℝ)

/-- appending to the vector behind a pointer; geometry/impl/Lanelet.h 92-108 -/
noncomputable def appendTo (ix : Index ℝ (ℝ × ℝ)) (line : List (ℝ × ℝ)) (pts : List (ℝ × ℝ)) : Option (List ℝ) → Except Fault (Option (List ℝ))
  | none => .ok none
  | some ds => do
    let r ← arcLengths ix line pts
    return some (ds ++ r)

/-- intersectCenterlines2d, impl/Lanelet.h 92-110. The third line uses `centerline`, as the code does. -/
noncomputable def intersectCenterlines2d (ix : Index ℝ (ℝ × ℝ)) (intersection : List (ℝ × ℝ) → List (ℝ × ℝ) → List (ℝ × ℝ))
    (centerline otherCenterline : List (ℝ × ℝ)) (distanceThis distanceOther : Option (List ℝ)) : Except Fault Intersections := do
  let pts := intersection centerline otherCenterline
  let this ← appendTo ix centerline pts distanceThis
  let other ← appendTo ix centerline pts distanceOther
  return ⟨pts, this, other⟩

/-! ### specification -/

/-- the numbers say how far the points are along the line; Specification. -/
def Along (line : List (ℝ × ℝ)) : List (ℝ × ℝ) → List ℝ → Prop
  | [], [] => True
  | p :: ps, s :: ss => At line s p ∧ Along line ps ss
  | _, _ => False

/-! ### proofs -/

theorem arcLengths_along {ix : Index ℝ (ℝ × ℝ)} (hix : ix.Ok) {line : List (ℝ × ℝ)} (hn : line.dropLast.Nodup) : ∀ (pts : List (ℝ × ℝ)),
    (∀ p ∈ pts, OnLine line p) → ∃ r, arcLengths ix line pts = .ok r ∧ Along line pts r := by
  intro pts
  induction pts with
  | nil => intro _; exact ⟨[], rfl, trivial⟩
  | cons p pts ih =>
    intro h
    obtain ⟨r, hr, ha⟩ := ih fun q hq => h q (by simp [hq])
    have hp := h p (by simp)
    have hl : line ≠ [] := by
      rintro rfl
      obtain ⟨s, hs, -⟩ := hp
      simp [segs] at hs
    obtain ⟨x, c, h1, h2, -, h4⟩ := toArcCoordinates_partial hix hl p
    have hx : x = p := by
      have := h2.2 p hp
      rw [dist_self] at this
      exact dist_eq_zero.mp (le_antisymm this (dist_nonneg _ _))
    refine ⟨c.length :: r, ?_, ?_, ha⟩
    · unfold arcLengths
      rw [h1, hr]; rfl
    · rw [← hx]; exact h4 hn

/-- C63: the points are those of the intersection, and the vector for this lanelet gets their positions along its centerline, if the centerline does
not come back to an earlier point except for its end. Vectors are extended, null pointers are ignored. The second vector gets the same numbers. -/
theorem intersect_partial {ix : Index ℝ (ℝ × ℝ)} (hix : ix.Ok) {intersection : List (ℝ × ℝ) → List (ℝ × ℝ) → List (ℝ × ℝ)} {c o : List (ℝ × ℝ)}
    (hn : c.dropLast.Nodup) (hi : ∀ p ∈ intersection c o, OnLine c p) (d1 d2 : Option (List ℝ)) :
    ∃ r ds, intersectCenterlines2d ix intersection c o d1 d2 = .ok r ∧ r.points = intersection c o ∧ Along c (intersection c o) ds ∧
      r.distanceThis = d1.map (· ++ ds) ∧ r.distanceOther = d2.map (· ++ ds) := by
  obtain ⟨ds, h1, h2⟩ := arcLengths_along hix hn _ hi
  have key : ∀ d, appendTo ix c (intersection c o) d = .ok (d.map (· ++ ds)) := by
    intro d
    cases d with
    | none => rfl
    | some d => unfold appendTo; rw [h1]; rfl
  refine ⟨⟨_, _, _⟩, ds, ?_, rfl, h2, rfl, rfl⟩
  unfold intersectCenterlines2d
  simp only [key]
  rfl

/-- Disagreement with C63: the distances along the other centerline are those along this one. The lines cross after 4 metres of the first and 2
metres of the second, but both vectors say 4 metres. -/
theorem distanceOther_counterexample {ix : Index ℝ (ℝ × ℝ)} (hix : ix.Ok) : ∃ r,
    intersectCenterlines2d ix (fun _ _ => [(4, 0)]) [(0, 0), (10, 0)] [(4, -2), (4, 2)] (some []) (some []) = .ok r ∧
      r.distanceThis = some [4] ∧ r.distanceOther = some [4] ∧ At [((4, -2) : ℝ × ℝ), (4, 2)] (2 : ℝ) (4, 0) ∧
      ∀ s, At [((4, -2) : ℝ × ℝ), (4, 2)] s (4, 0) → s = 2 := by
  have d1 : dist ((0, 0) : ℝ × ℝ) (10, 0) = 10 := dist_nat _ _ _ (by norm_num) (by norm_num)
  have d2 : dist ((4, -2) : ℝ × ℝ) (4, 2) = 4 := dist_nat _ _ _ (by norm_num) (by norm_num)
  have hon : OnLine [((0, 0) : ℝ × ℝ), (10, 0)] (4, 0) :=
    ⟨((0, 0), (10, 0)), by simp [segs], 2 / 5, by norm_num, by norm_num, by ext <;> norm_num⟩
  obtain ⟨r, ds, h1, -, h3, h4, h5⟩ := intersect_partial hix (intersection := fun _ _ => [((4, 0) : ℝ × ℝ)]) (c := [(0, 0), (10, 0)])
    (o := [(4, -2), (4, 2)]) (by simp) (by intro p hp; rw [List.mem_singleton.mp hp]; exact hon) (some []) (some [])
  have hds : ds = [4] := by
    match ds, h3 with
    | [s], h3 =>
      have h := h3.1
      generalize hp : ((4, 0) : ℝ × ℝ) = p at h
      cases h with
      | seg _ _ _ t h0 h1 =>
        have := congrArg Prod.fst hp
        simp only [Prod.fst_add, Prod.smul_fst, Prod.fst_sub, smul_eq_mul] at this
        rw [d1]
        have : t * 10 = 4 := by linarith
        rw [this]
      | later _ _ _ s _ hs =>
        cases hs with
        | single =>
          have := congrArg Prod.fst hp
          norm_num at this
  refine ⟨r, h1, by rw [h4, hds]; rfl, by rw [h5, hds]; rfl, ?_, ?_⟩
  · have h := At.seg ((4, -2) : ℝ × ℝ) (4, 2) [] (1 / 2) (by norm_num) (by norm_num)
    rw [d2] at h
    have e1 : (1 / 2 * 4 : ℝ) = 2 := by norm_num
    have e2 : ((4, -2) : ℝ × ℝ) + (1 / 2 : ℝ) • (((4, 2) : ℝ × ℝ) - (4, -2)) = (4, 0) := by ext <;> norm_num
    rw [e1, e2] at h
    exact h
  · intro s h
    generalize hp : ((4, 0) : ℝ × ℝ) = p at h
    cases h with
    | seg _ _ _ t h0 h1 =>
      have := congrArg Prod.snd hp
      simp only [Prod.snd_add, Prod.smul_snd, Prod.snd_sub, smul_eq_mul] at this
      rw [d2]
      linarith
    | later _ _ _ s _ hs =>
      cases hs with
      | single =>
        have := congrArg Prod.snd hp
        norm_num at this

end Verif.Geo
