import Verif.Valid.Model
import Verif.Geo.Curvature

/-!
Model of validators/CurvatureTooBig.cpp and what it reports (C47).
-/
namespace Verif.Valid
open Geo

/-- a lanelet as the validator sees it: its id and the points of its bounds; validators/CurvatureTooBig.cpp 17-19 -/
structure Lane where
  id : Int
  left : List (Point ℝ)
  right : List (Point ℝ)

/-- utils::to2D; primitives/Point.h 92 -/
def to2D (p : Point ℝ) : ℝ × ℝ := (p.pos.1, p.pos.2.1)

/-- the comparison of CurvatureTooBig.cpp 28: infinity is larger -/
def tooBig : Option ℝ → Prop
  | none => True
  | some k => 0.5 < |k|

/-- the text of the issue, CurvatureTooBig.cpp 29-31 -/
def curvatureIssue (id : Int) (p : Point ℝ) : Issue :=
  ⟨.warning, some (.lanelet, id), "Curvature at point " ++ toString p.id ++ " is bigger than 0.5. This can confuse algorithms using this map."⟩

open Classical in
/-- checkCurvature, CurvatureTooBig.cpp 24-35: the loop over the inner points, for lines with at least three points -/
noncomputable def checkCurvature (line : List (Point ℝ)) (id : Int) : List Issue :=
  if 3 ≤ line.length then
    (List.range' 1 (line.length - 2)).filterMap fun i =>
      match line[i - 1]?, line[i]?, line[i + 1]? with
      | some a, some b, some c => if tooBig (curvature2d (to2D a) (to2D b) (to2D c)) then some (curvatureIssue id b) else none
      | _, _, _ => none
  else []

/-- CurvatureTooBigChecker::operator(), CurvatureTooBig.cpp 15-22 -/
noncomputable def curvatureTooBig (lanelets : List Lane) : List Issue :=
  lanelets.flatMap fun l => checkCurvature l.left l.id ++ checkCurvature l.right l.id

/-! ### specification -/

/-- The line has a sharp turn at its point `b`: with its neighbours, it is on a circle with a radius below 2 m. Points that (nearly)
coincide count as a sharp turn. -/
def SharpAt (line : List (Point ℝ)) (b : Point ℝ) : Prop :=
  ∃ (i : Nat) (a c : Point ℝ), line[i]? = some a ∧ line[i + 1]? = some b ∧ line[i + 2]? = some c ∧
    (Degenerate (to2D a) (to2D b) (to2D c) ∨ ∃ m r, r < 2 ∧ OnCircle m r (to2D a) (to2D b) (to2D c))

/-! ### theorems -/

theorem tooBig_iff (p1 p2 p3 : ℝ × ℝ) : tooBig (curvature2d p1 p2 p3) ↔ Degenerate p1 p2 p3 ∨ ∃ m r, r < 2 ∧ OnCircle m r p1 p2 p3 := by
  unfold curvature2d
  cases h : signedCurvature2d p1 p2 p3 with
  | none => simp [tooBig, (curvature_infinite_iff _ _ _).mp h]
  | some k =>
    have hn : ¬ Degenerate p1 p2 p3 := by rw [← curvature_infinite_iff, h]; simp
    simp only [Option.map_some, tooBig, abs_abs]
    rw [← curvature_big_iff h]
    simp only [hn, false_or]
    norm_num

theorem mem_checkCurvature (line : List (Point ℝ)) (id : Int) (i : Issue) :
    i ∈ checkCurvature line id ↔ ∃ b, SharpAt line b ∧ i = curvatureIssue id b := by
  unfold checkCurvature SharpAt
  constructor
  · intro h
    split at h
    · rename_i hl
      obtain ⟨k, hk, h⟩ := List.mem_filterMap.mp h
      obtain ⟨h1, h2⟩ := List.mem_range'_1.mp hk
      obtain ⟨j, rfl⟩ : ∃ j, k = j + 1 := ⟨k - 1, by omega⟩
      rw [Nat.add_sub_cancel] at h
      split at h
      · rename_i a b c ha hb hc
        split at h
        · rename_i ht
          exact ⟨b, ⟨j, a, c, ha, hb, hc, (tooBig_iff _ _ _).mp ht⟩, (Option.some.inj h).symm⟩
        · cases h
      · cases h
    · cases h
  · rintro ⟨b, ⟨j, a, c, ha, hb, hc, ht⟩, rfl⟩
    have hl : j + 2 < line.length := (List.getElem?_eq_some_iff.mp hc).1
    rw [if_pos (by omega)]
    refine List.mem_filterMap.mpr ⟨j + 1, List.mem_range'_1.mpr ⟨by omega, by omega⟩, ?_⟩
    rw [Nat.add_sub_cancel, ha, hb, hc]
    simp only
    rw [if_pos ((tooBig_iff _ _ _).mpr ht)]

/-- **C47**: the check reports exactly the inner points of the bounds of lanelets at which the bound turns with a radius below 2 m. -/
theorem curvatureTooBig_iff (ls : List Lane) (i : Issue) :
    i ∈ curvatureTooBig ls ↔ ∃ l ∈ ls, ∃ b, (SharpAt l.left b ∨ SharpAt l.right b) ∧ i = curvatureIssue l.id b := by
  unfold curvatureTooBig
  simp only [List.mem_flatMap, List.mem_append, mem_checkCurvature]
  constructor
  · rintro ⟨l, hl, ⟨b, hb, rfl⟩ | ⟨b, hb, rfl⟩⟩
    · exact ⟨l, hl, b, Or.inl hb, rfl⟩
    · exact ⟨l, hl, b, Or.inr hb, rfl⟩
  · rintro ⟨l, hl, b, hb | hb, rfl⟩
    · exact ⟨l, hl, Or.inl ⟨b, hb, rfl⟩⟩
    · exact ⟨l, hl, Or.inr ⟨b, hb, rfl⟩⟩

theorem circle_on_line {p1 p2 p3 m : ℝ × ℝ} {r : ℝ} (hc : OnCircle m r p1 p2 p3) (h : cross3 p1 p2 p3 = 0) : sideProduct p1 p2 p3 = 0 := by
  have e := circle_identity hc
  rw [h, mul_zero, mul_zero] at e
  exact mul_self_eq_zero.mp e

/-- no point of a straight bound is reported as long as its points are at least a micrometre apart -/
theorem straight_not_reported {l : List (Point ℝ)} (hs : ∀ (i : Nat) a b c, l[i]? = some a → l[i + 1]? = some b → l[i + 2]? = some c →
      Straight (to2D a) (to2D b) (to2D c) ∧ 1 / 10 ^ 6 ≤ Geo.dist (to2D a) (to2D b) ∧ 1 / 10 ^ 6 ≤ Geo.dist (to2D a) (to2D c) ∧
        1 / 10 ^ 6 ≤ Geo.dist (to2D b) (to2D c)) (id : Int) : checkCurvature l id = [] := by
  refine List.eq_nil_iff_forall_not_mem.mpr fun i hi => ?_
  obtain ⟨b, ⟨j, a, c, ha, hb, hc, ht⟩, -⟩ := (mem_checkCurvature l id i).mp hi
  obtain ⟨h1, h2, h3, h4⟩ := hs j a b c ha hb hc
  obtain ⟨k, hk⟩ := curvature_finite h2 h3 h4
  have hn : ¬ Degenerate (to2D a) (to2D b) (to2D c) := by rw [← curvature_infinite_iff, hk]; simp
  rcases ht with ht | ⟨m, r, -, hm⟩
  · exact hn ht
  · have := circle_on_line hm ((straight_iff (ne_of_product hn).1).mp h1)
    obtain ⟨hp, -⟩ := curvature_some hk
    rw [this] at hp
    norm_num at hp

/-! ### examples -/

/-- Example: a point. -/
private def cp (d : Nat) (x y : ℝ) : Point ℝ := ⟨d, 100 + d, (x, y, 0), []⟩

theorem dist_axis (x y : ℝ) : Geo.dist (x, (0 : ℝ)) (y, 0) = |x - y| := by
  rw [dist2]; simp only [sub_self, mul_zero, add_zero]; exact Real.sqrt_mul_self_eq_abs _

/-- a bound that turns on the spot (radius 1) is reported, with the point; the straight bound is not -/
example : curvatureTooBig [⟨7, [cp 1 (-1) 0, cp 2 0 1, cp 3 1 0], [cp 4 0 0, cp 5 5 0, cp 6 10 0]⟩] = [curvatureIssue 7 (cp 2 0 1)] := by
  have h1 : checkCurvature [cp 4 0 0, cp 5 5 0, cp 6 10 0] 7 = [] := by
    refine straight_not_reported (fun i a b c ha hb hc => ?_) 7
    match i with
    | 0 =>
      obtain rfl := Option.some.inj ha
      obtain rfl := Option.some.inj hb
      obtain rfl := Option.some.inj hc
      refine ⟨⟨2, by norm_num [to2D, cp]⟩, ?_, ?_, ?_⟩ <;> simp only [to2D, cp, dist_axis] <;> norm_num
    | i + 1 => simp at hc
  have h2 : tooBig (curvature2d (to2D (cp 1 (-1) 0)) (to2D (cp 2 0 1)) (to2D (cp 3 1 0))) := by
    rw [tooBig_iff]
    refine Or.inr ⟨(0, 0), 1, by norm_num, ?_, ?_, ?_⟩ <;> simp only [to2D, cp, dist2] <;> norm_num
  have h3 : checkCurvature [cp 1 (-1) 0, cp 2 0 1, cp 3 1 0] 7 = [curvatureIssue 7 (cp 2 0 1)] := by simp [checkCurvature, h2]
  simp only [curvatureTooBig, List.flatMap_cons, List.flatMap_nil, h1, h3, List.append_nil]

end Verif.Valid
