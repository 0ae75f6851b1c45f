import Verif.Offset.Model
import Mathlib.Tactic.LinearCombination

/-!
Shifting of points and extractConvex: lemmas and specification.
-/
namespace Verif.Geo.Offset

/-! ### specification -/

/-- the direction from `a` to `b` -/
noncomputable def dir (a b : P2) : P2 := (1 / dist a b) • (b - a)

/-- the direction to the left of the way from `a` to `b` -/
noncomputable def leftN (a b : P2) : P2 := perp (dir a b)

/-- The edge from `q` to `q'` is the `i`-th segment of the line, moved by `d` to the left; it can be longer at both ends. -/
def Parallel (l : List P2) (d : ℝ) (i : Nat) (q q' : P2) : Prop :=
  ∃ a b, l[i]? = some a ∧ l[i + 1]? = some b ∧ ∃ s s' : ℝ, 0 ≤ s ∧ 0 ≤ s' ∧
    q = a + d • leftN a b - s • dir a b ∧ q' = b + d • leftN a b + s' • dir a b

/-- The edge from `q` to `q'` goes round the corner after the `i`-th segment, at which the line turns by more than 90°, at a distance
between `|d|` and `√2 |d|`. -/
def Chamfer (l : List P2) (d : ℝ) (i : Nat) (q q' : P2) : Prop :=
  ∃ a b c, l[i]? = some a ∧ l[i + 1]? = some b ∧ l[i + 2]? = some c ∧ dot (b - a) (c - b) < 0 ∧
    ∀ x, OnSegment q q' x → |d| ≤ dist x b ∧ dist x b ≤ Real.sqrt 2 * |d|

/-- Specification: where a point of the offset comes from. -/
inductive Label where
  | seg (i : Nat) | corner (i : Nat)

/-- Specification: the segment that a label names. -/
def Label.segIdx : Label → Option Nat
  | .seg i => some i
  | .corner _ => none

/-- Specification: the segment between two points of the offset belongs to the label. -/
def Explains (l : List P2) (d : ℝ) : Label → P2 → P2 → Prop
  | .seg i => Parallel l d i
  | .corner i => Chamfer l d i

/-- every edge of the line `s` is what its label says -/
def Traced (l : List P2) (d : ℝ) (s : List P2) (labels : List Label) : Prop :=
  s.length = labels.length + 1 ∧
  ∀ (k : Nat) lab q q', labels[k]? = some lab → s[k]? = some q → s[k + 1]? = some q' → Explains l d lab q q'

/-- successive points differ -/
def NoRepetition (l : List P2) : Prop := ∀ (i : Nat) a b, l[i]? = some a → l[i + 1]? = some b → a ≠ b

/-- the corner after the `i`-th segment bends towards the side of the offset (or, for an offset to the right, is straight) -/
def Concave (l : List P2) (d : ℝ) (i : Nat) : Prop :=
  ∃ a b c, l[i]? = some a ∧ l[i + 1]? = some b ∧ l[i + 2]? = some c ∧
    (0 < d → 0 < cross (b - a) (c - b)) ∧ (d ≤ 0 → cross (b - a) (c - b) ≤ 0)

/-- no turn to the left by more than 90° -/
def NoSharpLeft (l : List P2) : Prop := ∀ (i : Nat) a b c, l[i]? = some a → l[i + 1]? = some b → l[i + 2]? = some c →
  0 < cross (b - a) (c - b) → 0 ≤ dot (b - a) (c - b)

/-- `x` is at most `√2 |d|` away from the line -/
def NearLine (l : List P2) (d : ℝ) (x : P2) : Prop := ∃ y, OnLine l y ∧ dist x y ≤ Real.sqrt 2 * |d|

/-! ### vectors -/

theorem get_eq {α : Type} {l : List α} {i : Nat} {x : α} (h : l[i]? = some x) : get l i = pure x := by unfold get; rw [h]

theorem ext2 {u v : P2} (h1 : u.1 = v.1) (h2 : u.2 = v.2) : u = v := Prod.ext h1 h2

theorem perp_add (u v : P2) : perp (u + v) = perp u + perp v := by
  refine ext2 ?_ ?_ <;> simp [perp]; ring

theorem perp_smul (t : ℝ) (u : P2) : perp (t • u) = t • perp u := by
  refine ext2 ?_ ?_ <;> simp [perp]

theorem norm_perp (u : P2) : norm (perp u) = norm u := by
  rw [norm2, norm2]; congr 1; simp only [perp]; ring

theorem normalized_perp (u : P2) : normalized (perp u) = perp (normalized u) := by
  unfold normalized
  rw [norm_perp]
  split
  · rw [perp_smul]
  · rfl

theorem norm_pos {v : P2} (h : v ≠ 0) : 0 < norm v := lt_of_le_of_ne (norm_nonneg v) fun e => h (norm_eq_zero.mp e.symm)

theorem normalized_sub {a b : P2} (h : a ≠ b) : normalized (b - a) = dir a b := by
  unfold normalized dir
  have e : dist a b = norm (b - a) := by rw [dist_comm]; rfl
  rw [if_pos (norm_pos (sub_ne_zero.mpr h.symm)), e]

theorem unit_dir {a b : P2} (h : a ≠ b) : dot (dir a b) (dir a b) = 1 := by
  have e : dist a b = norm (b - a) := by rw [dist_comm]; rfl
  have hp := norm_pos (sub_ne_zero.mpr h.symm)
  unfold dir
  rw [e, dot_smul_left, dot_smul_right, ← norm_sq]
  field_simp

theorem cross_smul (s t : ℝ) (u v : P2) : cross (s • u) (t • v) = s * t * cross u v := by
  unfold cross; simp only [Prod.smul_fst, Prod.smul_snd, smul_eq_mul]; ring

/-- turning one unit vector into another -/
theorem perp_turn {u1 u2 : P2} (h1 : dot u1 u1 = 1) : perp u2 = dot u1 u2 • perp u1 - cross u1 u2 • u1 := by
  rw [dot2] at h1
  rw [dot2]
  unfold cross
  refine ext2 ?_ ?_ <;> simp only [perp, Prod.fst_sub, Prod.snd_sub, Prod.smul_fst, Prod.smul_snd, smul_eq_mul]
  · linear_combination (u2.2) * h1
  · linear_combination (-u2.1) * h1

theorem turn {u1 u2 : P2} (h1 : dot u1 u1 = 1) : u2 = dot u1 u2 • u1 + cross u1 u2 • perp u1 := by
  rw [dot2] at h1
  rw [dot2]
  unfold cross
  refine ext2 ?_ ?_ <;> simp only [perp, Prod.fst_add, Prod.snd_add, Prod.smul_fst, Prod.smul_snd, smul_eq_mul]
  · linear_combination (-u2.1) * h1
  · linear_combination (-u2.2) * h1

theorem dot_perp (u : P2) : dot u (perp u) = 0 := by rw [dot2]; simp only [perp]; ring
theorem dot_perp_perp (u v : P2) : dot (perp u) (perp v) = dot u v := by rw [dot2, dot2]; simp only [perp]; ring

theorem cross_anti (u v : P2) : cross v u = -cross u v := by unfold cross; ring

/-- the square of the length in the basis of a unit vector and its left normal -/
theorem norm_basis {u : P2} (h : dot u u = 1) (s t : ℝ) : dot (s • u + t • perp u) (s • u + t • perp u) = s * s + t * t := by
  simp only [dot_add_left, dot_add_right, dot_smul_left, dot_smul_right, dot_perp_perp, dot_comm (perp u) u, dot_perp, h]; ring

theorem norm_le_of_sq {v : P2} {r : ℝ} (h : dot v v ≤ r * r) (hr : 0 ≤ r) : norm v ≤ r := by
  rw [← norm_sq] at h
  exact (mul_self_le_mul_self_iff (norm_nonneg v) hr).mpr h

theorem sqrt2_mul_sq (d : ℝ) : (Real.sqrt 2 * |d|) * (Real.sqrt 2 * |d|) = 2 * (d * d) := by
  have := Real.mul_self_sqrt (show (0 : ℝ) ≤ 2 by norm_num)
  have h2 := abs_mul_abs_self d
  calc _ = (Real.sqrt 2 * Real.sqrt 2) * (|d| * |d|) := by ring
    _ = _ := by rw [this, h2]

theorem near_of {p v : P2} {d : ℝ} (h : dot v v ≤ 2 * (d * d)) : dist (p + v) p ≤ Real.sqrt 2 * |d| := by
  unfold dist
  rw [add_sub_cancel_left]
  refine norm_le_of_sq ?_ (mul_nonneg (Real.sqrt_nonneg _) (abs_nonneg _))
  rw [sqrt2_mul_sq]; exact h

/-! ### a mild convex corner -/

theorem lateral {u1 u2 : P2} (h1 : dot u1 u1 = 1) (h2 : dot u2 u2 = 1) (hc : 0 ≤ dot u1 u2) (d : ℝ) :
    (if 1 / 10 ^ 5 < norm (u2 + u1) / 2 then d / (norm (u2 + u1) / 2) else 0) • normalized (perp (u2 + u1)) =
      d • perp u1 + (-d * cross u1 u2 / (1 + dot u1 u2)) • u1 ∧
    d • perp u1 + (-d * cross u1 u2 / (1 + dot u1 u2)) • u1 = d • perp u2 - (-d * cross u1 u2 / (1 + dot u1 u2)) • u2 ∧
    dot (d • perp u1 + (-d * cross u1 u2 / (1 + dot u1 u2)) • u1) (d • perp u1 + (-d * cross u1 u2 / (1 + dot u1 u2)) • u1) ≤ 2 * (d * d) := by
  have hN : norm (u2 + u1) * norm (u2 + u1) = 2 * (1 + dot u1 u2) := by
    rw [norm_sq]
    simp only [dot_add_left, dot_add_right, h1, h2, dot_comm u2 u1]; ring
  have hn0 := norm_nonneg (u2 + u1)
  have hn1 : 1 < norm (u2 + u1) := by nlinarith
  have hc1 : (1 + dot u1 u2) ≠ 0 := by linarith
  have hp : normalized (perp (u2 + u1)) = (1 / norm (u2 + u1)) • perp (u2 + u1) := by
    unfold normalized
    rw [norm_perp, if_pos (by linarith)]
  have hs : d / (norm (u2 + u1) / 2) * (1 / norm (u2 + u1)) = d / (1 + dot u1 u2) := by
    have : norm (u2 + u1) ≠ 0 := by linarith
    have e : norm (u2 + u1) ^ 2 = 2 * (1 + dot u1 u2) := by rw [pow_two, hN]
    field_simp
    rw [e]; ring
  have key : (d / (1 + dot u1 u2)) • perp (u2 + u1) = d • perp u1 + (-d * cross u1 u2 / (1 + dot u1 u2)) • u1 := by
    rw [perp_add, perp_turn h1]
    have : (d / (1 + dot u1 u2)) • (dot u1 u2 • perp u1 - cross u1 u2 • u1 + perp u1) =
        (d / (1 + dot u1 u2) * (1 + dot u1 u2)) • perp u1 + (-d * cross u1 u2 / (1 + dot u1 u2)) • u1 := by
      module
    rw [this, div_mul_cancel₀ _ hc1]
  have key2 : (d / (1 + dot u1 u2)) • perp (u2 + u1) = d • perp u2 - (-d * cross u1 u2 / (1 + dot u1 u2)) • u2 := by
    have e : perp (u2 + u1) = dot u1 u2 • perp u2 + cross u1 u2 • u2 + perp u2 := by
      rw [perp_add, perp_turn (u1 := u2) (u2 := u1) h2, dot_comm u2 u1, cross_anti u1 u2]; module
    rw [e]
    have : (d / (1 + dot u1 u2)) • (dot u1 u2 • perp u2 + cross u1 u2 • u2 + perp u2) =
        (d / (1 + dot u1 u2) * (1 + dot u1 u2)) • perp u2 - (-d * cross u1 u2 / (1 + dot u1 u2)) • u2 := by
      module
    rw [this, div_mul_cancel₀ _ hc1]
  refine ⟨?_, key.symm.trans key2, ?_⟩
  · rw [if_pos (by norm_num; linarith), hp, smul_smul, hs, key]
  · rw [← key, dot_smul_left, dot_smul_right, ← norm_sq, norm_perp, hN]
    have : d / (1 + dot u1 u2) * (d / (1 + dot u1 u2) * (2 * (1 + dot u1 u2))) = 2 * (d * d) / (1 + dot u1 u2) := by
      field_simp
    rw [this]
    exact div_le_self (by nlinarith [mul_self_nonneg d]) (by linarith)

/-! ### a sharp convex corner -/

theorem tan_range {c : ℝ} : 0 ≤ Real.tan (Real.arccos c / 4) ∧ Real.tan (Real.arccos c / 4) ≤ 1 := by
  have h0 := Real.arccos_nonneg c
  have h1 := Real.arccos_le_pi c
  have hp := Real.pi_pos
  constructor
  · exact Real.tan_nonneg_of_nonneg_of_le_pi_div_two (by linarith) (by linarith)
  · rw [← Real.tan_pi_div_four]
    rcases eq_or_lt_of_le h1 with h | h
    · rw [h]
    · exact (Real.tan_lt_tan_of_nonneg_of_lt_pi_div_two (by linarith) (by linarith) (by linarith)).le

theorem sharp_near {u1 : P2} (h1 : dot u1 u1 = 1) {d t : ℝ} (this : t * t ≤ 1) :
    dot (d • perp u1 + (d * t) • u1) (d • perp u1 + (d * t) • u1) ≤ 2 * (d * d) := by
  rw [add_comm, norm_basis h1]
  nlinarith [mul_self_nonneg d]

theorem sharp_tangent {u1 u2 : P2} (h1 : dot u1 u1 = 1) (h2 : dot u2 u2 = 1) (hx : cross u1 u2 ≤ 0) {d : ℝ} :
    ∃ w, dot w w = 1 ∧ dot (d • perp u1 + (d * Real.tan (Real.arccos (dot u1 u2) / 4)) • u1) w = d ∧
      dot (d • perp u2 - (d * Real.tan (Real.arccos (dot u1 u2) / 4)) • u2) w = d := by
  obtain ⟨φ, hφ⟩ : ∃ φ, φ = Real.arccos (dot u1 u2) := ⟨_, rfl⟩
  have hcs := dot_sq_le u1 u2
  rw [h1, h2] at hcs
  have hc1 : -1 ≤ dot u1 u2 := by nlinarith
  have hc2 : dot u1 u2 ≤ 1 := by nlinarith
  have hcos : Real.cos φ = dot u1 u2 := by rw [hφ]; exact Real.cos_arccos hc1 hc2
  have hsin : Real.sin φ = -cross u1 u2 := by
    have e : (-cross u1 u2) * (-cross u1 u2) = 1 - dot u1 u2 ^ 2 := by
      have : cross u1 u2 * cross u1 u2 + dot u1 u2 * dot u1 u2 = dot u1 u1 * dot u2 u2 := by
        simp only [dot2]; unfold cross; ring
      rw [h1, h2] at this
      nlinarith
    rw [hφ, Real.sin_arccos, ← e]
    exact Real.sqrt_mul_self (by linarith)
  rw [← hφ]
  -- half and quarter of the angle
  have hr := tan_range (c := dot u1 u2)
  have hq : Real.cos (φ / 4) ≠ 0 := by
    have h0 := Real.arccos_nonneg (dot u1 u2)
    have h1 := Real.arccos_le_pi (dot u1 u2)
    rw [← hφ] at h0 h1
    have hp := Real.pi_pos
    exact (Real.cos_pos_of_mem_Ioo ⟨by linarith, by linarith⟩).ne'
  have e1 : φ / 2 = 2 * (φ / 4) := by ring
  have e2 : φ = 2 * (φ / 2) := by ring
  have hT : Real.cos (φ / 2) + Real.tan (φ / 4) * Real.sin (φ / 2) = 1 := by
    rw [e1, Real.cos_two_mul, Real.sin_two_mul, Real.tan_eq_sin_div_cos]
    have := Real.sin_sq_add_cos_sq (φ / 4)
    field_simp
    linear_combination 2 * this
  have hcs2 := Real.sin_sq_add_cos_sq (φ / 2)
  have hcosd : dot u1 u2 = 2 * Real.cos (φ / 2) ^ 2 - 1 := by rw [← hcos, ← Real.cos_two_mul, ← e2]
  have hsind : cross u1 u2 = -(2 * Real.sin (φ / 2) * Real.cos (φ / 2)) := by
    rw [← Real.sin_two_mul, ← e2, hsin]; ring
  refine ⟨Real.sin (φ / 2) • u1 + Real.cos (φ / 2) • perp u1, ?_, ?_, ?_⟩
  · rw [norm_basis h1]; nlinarith
  · simp only [dot_add_left, dot_add_right, dot_smul_left, dot_smul_right, dot_perp_perp, dot_comm (perp u1) u1, dot_perp, h1]
    linear_combination d * hT
  · have a1 : dot u2 u1 = dot u1 u2 := dot_comm _ _
    have a2 : dot u2 (perp u1) = cross u1 u2 := by rw [dot2]; simp only [perp, cross]; ring
    have a3 : dot (perp u2) u1 = -cross u1 u2 := by rw [dot2]; simp only [perp, cross]; ring
    have a4 : dot (perp u2) (perp u1) = dot u1 u2 := by rw [dot_perp_perp, dot_comm]
    simp only [dot_sub_left, dot_add_right, dot_smul_left, dot_smul_right, a1, a2, a3, a4]
    rw [hcosd, hsind]
    linear_combination d * hT + (2 * d * Real.cos (φ / 2)) * hcs2

/-! ### shifting one point -/

/-- what extractConvex does with the point at `i` -/
noncomputable def shiftAt (l : List P2) (d : ℝ) (i : Nat) : M (List P2 × Bool) := do
  let pv ← makeVincinity l i
  shiftPoint l d i pv

theorem vinc_inner {l : List P2} {j : Nat} {a b c : P2} (ha : l[j]? = some a) (hb : l[j + 1]? = some b) (hc : l[j + 2]? = some c) :
    makeVincinity l (j + 1) = pure ⟨b - a, c - b⟩ := by
  have hlen : j + 2 < l.length := (List.getElem?_eq_some_iff.mp hc).1
  unfold makeVincinity
  rw [if_neg (by omega), if_neg (by omega), Nat.add_sub_cancel, get_eq ha, get_eq hb, get_eq hc]
  simp only [pure_bind]

theorem vinc_last {l : List P2} {j : Nat} {a b : P2} (ha : l[j]? = some a) (hb : l[j + 1]? = some b) (hlen : j + 2 = l.length) :
    makeVincinity l (j + 1) = pure ⟨b - a, 0⟩ := by
  unfold makeVincinity
  rw [if_neg (by omega), if_pos (by omega), Nat.add_sub_cancel, get_eq ha, get_eq hb]
  simp only [pure_bind]

theorem shift_last {l : List P2} {d : ℝ} {j : Nat} {a b : P2} (ha : l[j]? = some a) (hb : l[j + 1]? = some b) (hlen : j + 2 = l.length)
    (hab : a ≠ b) : shiftAt l d (j + 1) = pure ([b + d • leftN a b], true) := by
  unfold shiftAt shiftPoint getConvexity isConvex
  rw [vinc_last ha hb hlen]
  simp only [pure_bind]
  rw [if_neg (by omega)]
  simp only [pure_bind, dot_zero_left, lt_self_iff_false, if_false, Bool.true_eq_false]
  unfold shiftLateral
  rw [get_eq hb]
  simp only [pure_bind]
  rw [if_neg (by omega), if_pos (by omega)]
  simp only [pure_bind]
  rw [normalized_perp, normalized_sub hab]
  rfl

theorem cross_corner (a b c : P2) : cross (b - a) (c - a) = cross (b - a) (c - b) := by
  unfold cross; simp only [Prod.fst_sub, Prod.snd_sub]; ring

theorem cross_dir {a b c : P2} (hab : a ≠ b) (hbc : b ≠ c) : ∃ k : ℝ, 0 < k ∧ cross (dir a b) (dir b c) = k * cross (b - a) (c - b) ∧
    dot (dir a b) (dir b c) = k * dot (b - a) (c - b) := by
  have h1 : 0 < dist a b := lt_of_le_of_ne (dist_nonneg _ _) fun e => hab (dist_eq_zero.mp e.symm)
  have h2 : 0 < dist b c := lt_of_le_of_ne (dist_nonneg _ _) fun e => hbc (dist_eq_zero.mp e.symm)
  refine ⟨1 / dist a b * (1 / dist b c), by positivity, ?_, ?_⟩
  · unfold dir; rw [cross_smul]
  · unfold dir; rw [dot_smul_left, dot_smul_right]; ring

open Classical in
theorem convexity_inner {l : List P2} {d : ℝ} {j : Nat} {a b c : P2} (ha : l[j]? = some a) (hb : l[j + 1]? = some b) (hc : l[j + 2]? = some c) :
    (Concave l d j ∧ getConvexity l (j + 1) ⟨b - a, c - b⟩ (decide (0 < d)) = pure .concave) ∨
    (¬ Concave l d j ∧ -d * cross (b - a) (c - b) ≥ 0 ∧ (0 < d → cross (b - a) (c - b) ≤ 0) ∧ (d ≤ 0 → 0 < cross (b - a) (c - b)) ∧
      ((0 ≤ dot (b - a) (c - b) ∧ getConvexity l (j + 1) ⟨b - a, c - b⟩ (decide (0 < d)) = pure .convex) ∨
       (dot (b - a) (c - b) < 0 ∧ getConvexity l (j + 1) ⟨b - a, c - b⟩ (decide (0 < d)) = pure .convexSharp))) := by
  have hlen : j + 2 < l.length := (List.getElem?_eq_some_iff.mp hc).1
  have hconc : Concave l d j ↔ (0 < d → 0 < cross (b - a) (c - b)) ∧ (d ≤ 0 → cross (b - a) (c - b) ≤ 0) := by
    constructor
    · rintro ⟨a', b', c', ha', hb', hc', h⟩
      rw [ha] at ha'; rw [hb] at hb'; rw [hc] at hc'
      obtain rfl := Option.some.inj ha'; obtain rfl := Option.some.inj hb'; obtain rfl := Option.some.inj hc'
      exact h
    · intro h; exact ⟨a, b, c, ha, hb, hc, h⟩
  have hget : getConvexity l (j + 1) ⟨b - a, c - b⟩ (decide (0 < d)) =
      if Concave l d j then pure .concave else if dot (b - a) (c - b) < 0 then pure .convexSharp else pure .convex := by
    unfold getConvexity isConvex
    rw [if_pos (by omega), Nat.add_sub_cancel, get_eq ha, get_eq hb, get_eq hc]
    simp only [pure_bind, pointIsLeftOf, cross_corner, dot_comm (c - b)]
    rw [hconc]
    rcases le_or_gt d 0 with h | h
    · have h' := not_lt.mpr h
      rcases le_or_gt (cross (b - a) (c - b)) 0 with hx | hx
      · simp [h, h', hx]
      · simp [h, h', hx]
    · have h' := not_le.mpr h
      rcases le_or_gt (cross (b - a) (c - b)) 0 with hx | hx
      · simp [h, h', hx]
      · simp [h, h', hx]
  by_cases h : Concave l d j
  · exact Or.inl ⟨h, by rw [hget, if_pos h]⟩
  · refine Or.inr ⟨h, ?_⟩
    rw [hconc] at h
    have h1 : 0 < d → cross (b - a) (c - b) ≤ 0 := by
      intro hd
      by_contra hx
      exact h ⟨fun _ => not_le.mp hx, fun h0 => absurd hd (not_lt.mpr h0)⟩
    have h2 : d ≤ 0 → 0 < cross (b - a) (c - b) := by
      intro hd
      by_contra hx
      exact h ⟨fun h0 => absurd h0 (not_lt.mpr hd), fun _ => not_lt.mp hx⟩
    rw [← hconc] at h
    refine ⟨?_, h1, h2, ?_⟩
    · rcases le_or_gt d 0 with hd | hd
      · have := h2 hd; nlinarith
      · have := h1 hd; nlinarith
    · rw [hget, if_neg h]
      rcases lt_or_ge (dot (b - a) (c - b)) 0 with hx | hx
      · exact Or.inr ⟨hx, if_pos hx⟩
      · exact Or.inl ⟨hx, if_neg (not_lt.mpr hx)⟩

theorem shift_concave {l : List P2} {d : ℝ} {j : Nat} {a b c : P2} (ha : l[j]? = some a) (hb : l[j + 1]? = some b) (hc : l[j + 2]? = some c)
    (hab : a ≠ b) (h : Concave l d j) : shiftAt l d (j + 1) = pure ([b + d • leftN a b], false) := by
  have hlen : j + 2 < l.length := (List.getElem?_eq_some_iff.mp hc).1
  rcases convexity_inner ha hb hc with ⟨-, hg⟩ | ⟨h', -⟩
  · unfold shiftAt shiftPoint
    rw [vinc_inner ha hb hc]
    simp only [pure_bind]
    rw [hg]
    simp only [pure_bind]
    unfold shiftPerpendicular
    rw [if_neg (by omega), if_neg (by omega), get_eq hb]
    simp only [pure_bind, if_true]
    rw [normalized_sub hab]
    rfl
  · exact absurd h h'

theorem shift_mild {l : List P2} {d : ℝ} {j : Nat} {a b c : P2} (ha : l[j]? = some a) (hb : l[j + 1]? = some b) (hc : l[j + 2]? = some c)
    (hab : a ≠ b) (hbc : b ≠ c) (h : ¬ Concave l d j) (hm : 0 ≤ dot (b - a) (c - b)) : ∃ s : ℝ, 0 ≤ s ∧
      shiftAt l d (j + 1) = pure ([b + d • leftN a b + s • dir a b], true) ∧
      b + d • leftN a b + s • dir a b = b + d • leftN b c - s • dir b c ∧ dist (b + d • leftN a b + s • dir a b) b ≤ Real.sqrt 2 * |d| ∧
      s = -d * cross (dir a b) (dir b c) / (1 + dot (dir a b) (dir b c)) := by
  have hlen : j + 2 < l.length := (List.getElem?_eq_some_iff.mp hc).1
  obtain ⟨k, hk, hx, hdot⟩ := cross_dir hab hbc
  have h1 := unit_dir hab
  have h2 := unit_dir hbc
  have hc0 : 0 ≤ dot (dir a b) (dir b c) := by rw [hdot]; exact mul_nonneg hk.le hm
  obtain ⟨e1, e2, e3⟩ := lateral h1 h2 hc0 d
  rcases convexity_inner ha hb hc with ⟨h', -⟩ | ⟨-, hs, -, -, ⟨-, hg⟩ | ⟨hneg, -⟩⟩
  · exact absurd h' h
  · refine ⟨-d * cross (dir a b) (dir b c) / (1 + dot (dir a b) (dir b c)), ?_, ?_, ?_, ?_, rfl⟩
    · refine div_nonneg ?_ (by linarith)
      rw [hx]
      have := mul_nonneg hk.le hs
      linarith
    · unfold shiftAt shiftPoint
      rw [vinc_inner ha hb hc]
      simp only [pure_bind]
      rw [hg]
      simp only [pure_bind]
      unfold shiftLateral
      rw [get_eq hb]
      simp only [pure_bind]
      rw [if_neg (by omega), if_neg (by omega)]
      simp only [pure_bind]
      rw [normalized_sub hab, normalized_sub hbc, e1, add_assoc]
      rfl
    · have : d • leftN a b + (-d * cross (dir a b) (dir b c) / (1 + dot (dir a b) (dir b c))) • dir a b =
          d • leftN b c - (-d * cross (dir a b) (dir b c) / (1 + dot (dir a b) (dir b c))) • dir b c := e2
      rw [add_assoc, this, add_sub_assoc]
    · rw [add_assoc]
      exact near_of e3
  · exact absurd hneg (not_lt.mpr hm)

theorem convex_dist {q q' b x : P2} {r : ℝ} (h1 : dist q b ≤ r) (h2 : dist q' b ≤ r) (hx : OnSegment q q' x) : dist x b ≤ r := by
  obtain ⟨t, h0, h1', rfl⟩ := hx
  have e : q + t • (q' - q) - b = (1 - t) • (q - b) + t • (q' - b) := by module
  unfold dist at h1 h2 ⊢
  rw [e]
  refine le_trans (norm_add_le _ _) ?_
  rw [norm_smul, norm_smul, abs_of_nonneg h0, abs_of_nonneg (by linarith)]
  nlinarith

theorem shift_sharp {l : List P2} {d : ℝ} {j : Nat} {a b c : P2} (ha : l[j]? = some a) (hb : l[j + 1]? = some b) (hc : l[j + 2]? = some c)
    (hab : a ≠ b) (hbc : b ≠ c) (h : ¬ Concave l d j) (hm : dot (b - a) (c - b) < 0) : ∃ (t : ℝ), 0 ≤ t ∧
      shiftAt l d (j + 1) = pure ([b + d • leftN a b + (d * t) • dir a b, b + d • leftN b c - (d * t) • dir b c], true) ∧
      dist (b + d • leftN a b + (d * t) • dir a b) b ≤ Real.sqrt 2 * |d| ∧ dist (b + d • leftN b c - (d * t) • dir b c) b ≤ Real.sqrt 2 * |d| ∧
      (0 ≤ d → Chamfer l d j (b + d • leftN a b + (d * t) • dir a b) (b + d • leftN b c - (d * t) • dir b c)) ∧
      t = Real.tan (Real.arccos (dot (dir a b) (dir b c)) / 4) := by
  have hlen : j + 2 < l.length := (List.getElem?_eq_some_iff.mp hc).1
  obtain ⟨k, hk, hx, hdot⟩ := cross_dir hab hbc
  have h1 := unit_dir hab
  have h2 := unit_dir hbc
  obtain ⟨t0, t1⟩ := tan_range (c := dot (dir a b) (dir b c))
  have tt : Real.tan (Real.arccos (dot (dir a b) (dir b c)) / 4) * Real.tan (Real.arccos (dot (dir a b) (dir b c)) / 4) ≤ 1 := by nlinarith
  have n1 := near_of (p := b) (sharp_near h1 (d := d) tt)
  have n2 := near_of (p := b) (sharp_near h2 (d := d) (t := -Real.tan (Real.arccos (dot (dir a b) (dir b c)) / 4)) (by linarith))
  have e2 : b + d • leftN b c - (d * Real.tan (Real.arccos (dot (dir a b) (dir b c)) / 4)) • dir b c =
      b + (d • perp (dir b c) + (d * -Real.tan (Real.arccos (dot (dir a b) (dir b c)) / 4)) • dir b c) := by
    unfold leftN; module
  have e1 : b + d • leftN a b + (d * Real.tan (Real.arccos (dot (dir a b) (dir b c)) / 4)) • dir a b =
      b + (d • perp (dir a b) + (d * Real.tan (Real.arccos (dot (dir a b) (dir b c)) / 4)) • dir a b) := by
    unfold leftN; module
  rcases convexity_inner ha hb hc with ⟨h', -⟩ | ⟨-, hs, hpos, -, ⟨h0, -⟩ | ⟨hneg, hg⟩⟩
  · exact absurd h' h
  · exact absurd h0 (not_le.mpr hm)
  · refine ⟨Real.tan (Real.arccos (dot (dir a b) (dir b c)) / 4), t0, ?_, ?_, ?_, ?_, rfl⟩
    · unfold shiftAt shiftPoint
      rw [vinc_inner ha hb hc]
      simp only [pure_bind]
      rw [hg]
      simp only [pure_bind]
      have p1 : shiftPerpendicular l (j + 1) d true ⟨b - a, c - b⟩ = pure (b + d • perp (normalized (b - a))) := by
        unfold shiftPerpendicular
        rw [if_neg (by omega), if_neg (by simp), get_eq hb]
        simp only [pure_bind, if_true]
      have p2 : shiftPerpendicular l (j + 1) d false ⟨b - a, c - b⟩ = pure (b + d • perp (normalized (c - b))) := by
        unfold shiftPerpendicular
        rw [if_neg (by simp), if_neg (by omega), get_eq hb]
        simp only [pure_bind, Bool.false_eq_true, if_false]
      unfold shiftConvexSharp
      rw [if_neg (by omega), if_neg (by omega), p1, p2]
      simp only [pure_bind]
      have hcosd : dot (c - b) (b - a) / (norm (b - a) * norm (c - b)) = dot (dir a b) (dir b c) := by
        unfold dir
        rw [dot_smul_left, dot_smul_right, dot_comm (c - b), dist_comm a b, dist_comm b c]
        unfold dist
        field_simp
      have hang : Real.pi / 4 - (Real.pi - Real.arccos (dot (c - b) (b - a) / (norm (b - a) * norm (c - b)))) / 4 =
          Real.arccos (dot (dir a b) (dir b c)) / 4 := by rw [hcosd]; ring
      rw [hang, normalized_sub hab, normalized_sub hbc]
      rfl
    · rw [e1]; exact n1
    · rw [e2]; exact n2
    · intro hd
      refine ⟨a, b, c, ha, hb, hc, hm, fun x hx' => ⟨?_, ?_⟩⟩
      · rcases eq_or_lt_of_le hd with rfl | hd
        · rw [abs_zero]; exact dist_nonneg _ _
        · have hcr : cross (dir a b) (dir b c) ≤ 0 := by
            rw [hx]; exact mul_nonpos_of_nonneg_of_nonpos hk.le (hpos hd)
          obtain ⟨w, hw, w1, w2⟩ := sharp_tangent h1 h2 hcr (d := d)
          obtain ⟨s, hs0, hs1, rfl⟩ := hx'
          have hle := dot_le_norm (b + d • leftN a b + (d * Real.tan (Real.arccos (dot (dir a b) (dir b c)) / 4)) • dir a b +
            s • (b + d • leftN b c - (d * Real.tan (Real.arccos (dot (dir a b) (dir b c)) / 4)) • dir b c -
              (b + d • leftN a b + (d * Real.tan (Real.arccos (dot (dir a b) (dir b c)) / 4)) • dir a b)) - b) w
          have hwn : norm w = 1 := by
            have := norm_sq w
            rw [hw] at this
            exact (mul_self_inj (norm_nonneg w) zero_le_one).mp (by linarith)
          rw [hwn, mul_one] at hle
          rw [abs_of_pos hd]
          refine le_trans (le_of_eq ?_) hle
          have e : b + d • leftN a b + (d * Real.tan (Real.arccos (dot (dir a b) (dir b c)) / 4)) • dir a b +
            s • (b + d • leftN b c - (d * Real.tan (Real.arccos (dot (dir a b) (dir b c)) / 4)) • dir b c -
              (b + d • leftN a b + (d * Real.tan (Real.arccos (dot (dir a b) (dir b c)) / 4)) • dir a b)) - b =
              (1 - s) • (d • perp (dir a b) + (d * Real.tan (Real.arccos (dot (dir a b) (dir b c)) / 4)) • dir a b) +
              s • (d • perp (dir b c) - (d * Real.tan (Real.arccos (dot (dir a b) (dir b c)) / 4)) • dir b c) := by
            unfold leftN; module
          rw [e, dot_add_left, dot_smul_left, dot_smul_left, w1, w2]; ring
      · exact convex_dist (by rw [e1]; exact n1) (by rw [e2]; exact n2) hx'

end Verif.Geo.Offset
