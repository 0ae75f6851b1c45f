import Verif.Lanelet.Border
import Mathlib.Algebra.Order.Field.Basic
import Mathlib.Algebra.Order.Ring.Rat
import Mathlib.Tactic.Linarith
import Mathlib.Tactic.FieldSimp
import Mathlib.Tactic.Ring
import Mathlib.Tactic.NormNum

/-!
Model of `touches2d` and `overlaps2d` of polygons, areas and lanelets: geometry/impl/Polygon.h 42-72, geometry/impl/Area.h 42-45 and 52-55.

`boost::geometry::relate` with the mask `T********` is a parameter: it is meant to say that the insides of two polygons have a common point.
Inside is defined below by counting the edges that a ray crosses, with exact arithmetic over an ordered field.
-/
namespace Verif.Lanelet
open Verif.LineStr (LS invert)

variable {P : Type}

/-- Polygon.h (primitives) 113, 148 -/
def polygonNumSegments (l : List P) : Nat := if l.length < 2 then 0 else l.length

/-- the numSegments of a compound polygon, CompoundPolygon.h 58 -/
def compoundNumSegments (l : List P) : Nat := max 1 l.length

/-- touches2d, impl/Polygon.h 43-55; `segments` is numSegments of the first polygon. `none` is undefined behaviour. The body of the loop is the
one of `adjacent` for areas. -/
def touches2d [DecidableEq P] (segments : List P → Nat) (o1 o2 : List P) : Option Bool :=
  (List.range (segments o1)).foldlM (fun found i => if found then some true else adjacentAt o1 o2 i) false

/-- overlaps2d of polygons, impl/Polygon.h 58-72 -/
def overlapsPolygon [DecidableEq P] (segments : List P → Nat) (relate : List P → List P → Bool) (o1 o2 : List P) : Option Bool := do
  if ← touches2d segments o1 o2 then return false
  return relate o1 o2

/-- overlaps2d of areas, impl/Area.h 43-45 -/
def overlapsArea [DecidableEq P] (w : World P) (relate : List P → List P → Bool) (a b : Nat) : Option Bool :=
  overlapsPolygon compoundNumSegments relate (outerPolygon w a) (outerPolygon w b)

/-- overlaps2d of an area and a lanelet, impl/Area.h 53-55; the polygon of a lanelet is Lanelet.cpp 280-282 -/
def overlapsAreaLanelet [DecidableEq P] (w : World P) (relate : List P → List P → Bool) (a : Nat) (ll : LH) : Option Bool :=
  overlapsPolygon compoundNumSegments relate (outerPolygon w a) (Compound.noRep ((polygon w ll).map (points w)).flatten)

/-! ### Specification -/

variable {K : Type} [Field K] [LinearOrder K]

/-- Specification. The edges of a closed polygon. -/
def edges (l : List (K × K)) : List ((K × K) × (K × K)) := l.zip (l.drop 1 ++ l.take 1)

/-- Specification. The point is on the edge (or one of its ends). -/
def OnEdge (e : (K × K) × (K × K)) (x : K × K) : Prop :=
  ∃ t : K, 0 ≤ t ∧ t ≤ 1 ∧ x.1 = e.1.1 + t * (e.2.1 - e.1.1) ∧ x.2 = e.1.2 + t * (e.2.2 - e.1.2)

/-- Specification. The ray from `x` in the direction of the first axis crosses the edge. -/
def crosses (x : K × K) (e : (K × K) × (K × K)) : Bool :=
  (decide (e.1.2 ≤ x.2) != decide (e.2.2 ≤ x.2)) && decide (x.1 < e.1.1 + (x.2 - e.1.2) / (e.2.2 - e.1.2) * (e.2.1 - e.1.1))

/-- Specification. `x` is in the inside of the polygon: it is not on an edge, and a ray from it crosses an odd number of edges. -/
def Inside (l : List (K × K)) (x : K × K) : Prop := (∀ e ∈ edges l, ¬ OnEdge e x) ∧ (edges l).countP (crosses x) % 2 = 1

/-- Specification. Which side of the line from `p` to `q` the point `v` is on: positive on the right. -/
def rightSide (p q v : K × K) : K := (q.2 - p.2) * (v.1 - p.1) - (q.1 - p.1) * (v.2 - p.2)

/-- Specification. No point of the polygon is on the left of the edge from `p` to `q`. -/
def RightOf (l : List (K × K)) (p q : K × K) : Prop := ∀ v ∈ l, 0 ≤ rightSide p q v

/-! ### Lemmas -/

section parity
variable {α : Type}

theorem changes_path (h : α → Bool) (l : List α) (a z : α) :
    ((a :: l).zip (l ++ [z])).countP (fun e => h e.1 != h e.2) % 2 = if h a != h z then 1 else 0 := by
  induction l generalizing a with
  | nil => cases h1 : h a <;> cases h2 : h z <;> simp [h1, h2]
  | cons b l ih =>
    rw [List.cons_append, List.zip_cons_cons, List.countP_cons]
    have := ih b
    cases h1 : h a <;> cases h2 : h b <;> cases h3 : h z <;> simp only [h2, h3, bne_self_eq_false, Bool.false_eq_true, if_false, if_true,
      show (true != false) = true from rfl, show (false != true) = true from rfl] at this ⊢ <;> omega

/-- Around a cycle a property changes an even number of times. -/
theorem changes_cycle (h : α → Bool) (l : List α) : (l.zip (l.drop 1 ++ l.take 1)).countP (fun e => h e.1 != h e.2) % 2 = 0 := by
  cases l with
  | nil => rfl
  | cons a l =>
    have := changes_path h l a a
    simp only [bne_self_eq_false, Bool.false_eq_true, if_false] at this
    simpa using this

end parity

omit [Field K] [LinearOrder K] in
theorem mem_edges {l : List (K × K)} {e : (K × K) × (K × K)} (h : e ∈ edges l) : e.1 ∈ l ∧ e.2 ∈ l := by
  unfold edges at h
  have := List.of_mem_zip (a := e.1) (b := e.2) h
  refine ⟨this.1, ?_⟩
  rcases List.mem_append.mp this.2 with h | h
  · exact List.mem_of_mem_drop h
  · exact List.mem_of_mem_take h

variable [IsStrictOrderedRing K]

/-- The crossing point of an edge with the horizontal line through `x`. Helper of the proofs. -/
theorem crossing_point {a b x : K × K} (h : decide (a.2 ≤ x.2) ≠ decide (b.2 ≤ x.2)) :
    0 ≤ (x.2 - a.2) / (b.2 - a.2) ∧ (x.2 - a.2) / (b.2 - a.2) ≤ 1 ∧ x.2 = a.2 + (x.2 - a.2) / (b.2 - a.2) * (b.2 - a.2) := by
  have hne : b.2 - a.2 ≠ 0 := by
    intro e
    apply h
    have : b.2 = a.2 := by linarith
    rw [this]
  have h3 : x.2 = a.2 + (x.2 - a.2) / (b.2 - a.2) * (b.2 - a.2) := by
    rw [div_mul_cancel₀ _ hne]; ring
  by_cases h1 : a.2 ≤ x.2
  · have h2 : ¬ b.2 ≤ x.2 := by intro h2; apply h; simp [h1, h2]
    have hp : 0 < b.2 - a.2 := by linarith [not_le.mp h2]
    exact ⟨div_nonneg (by linarith) hp.le, (div_le_one hp).mpr (by linarith [not_le.mp h2]), h3⟩
  · have h2 : b.2 ≤ x.2 := by by_contra h2; apply h; simp [h1, h2]
    have hp : b.2 - a.2 < 0 := by linarith [not_le.mp h1]
    exact ⟨div_nonneg_of_nonpos (by linarith [not_le.mp h1]) hp.le, (div_le_one_of_neg hp).mpr (by linarith), h3⟩

/-- A polygon that is on one side of a line has its inside strictly on this side. -/
theorem inside_halfPlane {l : List (K × K)} {A B C : K} (hAB : A ≠ 0 ∨ B ≠ 0) (hl : ∀ v ∈ l, 0 ≤ A * v.1 + B * v.2 + C) {x : K × K} (hx : Inside l x) :
    0 < A * x.1 + B * x.2 + C := by
  by_contra hneg
  rw [not_lt] at hneg
  obtain ⟨hon, hodd⟩ := hx
  -- value of the function at the crossing point
  have key : ∀ e ∈ edges l, decide (e.1.2 ≤ x.2) ≠ decide (e.2.2 ≤ x.2) →
      0 ≤ A * (e.1.1 + (x.2 - e.1.2) / (e.2.2 - e.1.2) * (e.2.1 - e.1.1)) + B * x.2 + C ∧
        x.1 ≠ e.1.1 + (x.2 - e.1.2) / (e.2.2 - e.1.2) * (e.2.1 - e.1.1) := by
    intro e he hc
    obtain ⟨h0, h1, h2⟩ := crossing_point hc
    obtain ⟨m1, m2⟩ := mem_edges he
    have v1 := hl _ m1
    have v2 := hl _ m2
    generalize (x.2 - e.1.2) / (e.2.2 - e.1.2) = t at *
    constructor
    · have e1 : A * (e.1.1 + t * (e.2.1 - e.1.1)) + B * x.2 + C =
          (1 - t) * (A * e.1.1 + B * e.1.2 + C) + t * (A * e.2.1 + B * e.2.2 + C) := by
        rw [h2]; ring
      rw [e1]
      exact add_nonneg (mul_nonneg (by linarith) v1) (mul_nonneg h0 v2)
    · intro e2
      exact hon e he ⟨t, h0, h1, e2, h2⟩
  have even_of : ∀ h : K × K → Bool, (∀ e ∈ edges l, crosses x e = (h e.1 != h e.2)) → False := by
    intro h hh
    have := changes_cycle h l
    rw [show (l.zip (l.drop 1 ++ l.take 1)) = edges l from rfl] at this
    rw [List.countP_congr (q := fun e => h e.1 != h e.2) (fun e he => by rw [hh e he])] at hodd
    omega
  rcases lt_trichotomy A 0 with hA | hA | hA
  · -- no crossing on the right
    refine even_of (fun _ => true) fun e he => ?_
    simp only [bne_self_eq_false]
    rw [← Bool.not_eq_true]
    intro hc
    unfold crosses at hc
    simp only [Bool.and_eq_true, bne_iff_ne, decide_eq_true_eq] at hc
    obtain ⟨k1, -⟩ := key e he hc.1
    have := mul_lt_mul_of_neg_left hc.2 hA
    linarith
  · subst hA
    simp only [zero_mul, zero_add] at *
    rcases lt_or_eq_of_le hneg with hlt | heq
    · refine even_of (fun _ => true) fun e he => ?_
      simp only [bne_self_eq_false]
      rw [← Bool.not_eq_true]
      intro hc
      unfold crosses at hc
      simp only [Bool.and_eq_true, bne_iff_ne, decide_eq_true_eq] at hc
      obtain ⟨k1, -⟩ := key e he hc.1
      linarith
    · have hd : ∀ v ∈ l, 0 ≤ B * (v.2 - x.2) := by
        intro v hv
        have := hl v hv
        have e : B * (v.2 - x.2) = (B * v.2 + C) - (B * x.2 + C) := by ring
        rw [e, heq]; linarith
      rcases lt_trichotomy B 0 with hB | hB | hB
      · -- the polygon is below the line
        have hle : ∀ v ∈ l, v.2 ≤ x.2 := by
          intro v hv
          by_contra hc
          have := mul_neg_of_neg_of_pos hB (sub_pos.mpr (not_le.mp hc))
          linarith [hd v hv]
        refine even_of (fun _ => true) fun e he => ?_
        obtain ⟨m1, m2⟩ := mem_edges he
        simp [crosses, hle _ m1, hle _ m2]
      · exact (hAB.elim (fun h => h rfl) fun h => h hB).elim
      · -- the polygon is above the line: it crosses where it leaves the line
        have hge : ∀ v ∈ l, x.2 ≤ v.2 := by
          intro v hv
          by_contra hc
          have := mul_neg_of_pos_of_neg hB (sub_neg.mpr (not_le.mp hc))
          linarith [hd v hv]
        refine even_of (fun v => decide (v.2 ≤ x.2) && decide (x.1 < v.1)) fun e he => ?_
        obtain ⟨m1, m2⟩ := mem_edges he
        have g1 := hge _ m1
        have g2 := hge _ m2
        unfold crosses
        by_cases h1 : e.1.2 ≤ x.2 <;> by_cases h2 : e.2.2 ≤ x.2
        · have e1 : e.1.2 = x.2 := le_antisymm h1 g1
          have e2 : e.2.2 = x.2 := le_antisymm h2 g2
          simp only [h1, h2, decide_true, bne_self_eq_false, Bool.false_and, Bool.true_and]
          by_contra hc
          have hne : decide (x.1 < e.1.1) ≠ decide (x.1 < e.2.1) := by
            intro e; apply hc; simp [e]
          have hcr := crossing_point (a := (e.1.2, e.1.1)) (b := (e.2.2, e.2.1)) (x := (x.2, x.1)) (by
            intro e3
            apply hne
            have : (e.1.1 ≤ x.1) ↔ (e.2.1 ≤ x.1) := by simpa using e3
            simp only [decide_eq_decide]
            rw [← not_le, ← not_le, this])
          exact hon e he ⟨_, hcr.1, hcr.2.1, hcr.2.2, by rw [e1, e2]; ring⟩
        · have e1 : e.1.2 = x.2 := le_antisymm h1 g1
          simp [h2, e1]
        · have e2 : e.2.2 = x.2 := le_antisymm h2 g2
          have hne : x.2 - e.1.2 ≠ 0 := by
            intro e3; apply h1; linarith
          simp [h1, e2, div_self hne]
        · simp [h1, h2]
  · refine even_of (fun v => decide (v.2 ≤ x.2)) fun e he => ?_
    unfold crosses
    by_cases hc : decide (e.1.2 ≤ x.2) = decide (e.2.2 ≤ x.2)
    · simp [hc]
    · obtain ⟨k1, k2⟩ := key e he hc
      have hlt : x.1 < e.1.1 + (x.2 - e.1.2) / (e.2.2 - e.1.2) * (e.2.1 - e.1.1) := by
        rcases lt_or_gt_of_ne k2 with h | h
        · exact h
        · have := mul_lt_mul_of_pos_left h hA
          linarith
      simp only [hlt, decide_true, Bool.and_true]

/-- Two polygons on the two sides of a line do not have a common inner point. -/
theorem inside_disjoint {l m : List (K × K)} {p q : K × K} (hpq : p ≠ q) (hl : RightOf l p q) (hm : RightOf m q p) {x : K × K}
    (h1 : Inside l x) (h2 : Inside m x) : False := by
  have hne : q.2 - p.2 ≠ 0 ∨ -(q.1 - p.1) ≠ 0 := by
    by_contra hc
    rw [not_or, not_not, not_not] at hc
    apply hpq
    ext <;> linarith [hc.1, hc.2]
  have e1 : ∀ v : K × K, (q.2 - p.2) * v.1 + -(q.1 - p.1) * v.2 + ((q.1 - p.1) * p.2 - (q.2 - p.2) * p.1) = rightSide p q v := by
    intro v; unfold rightSide; ring
  have e2 : ∀ v : K × K, rightSide q p v = - rightSide p q v := by
    intro v; unfold rightSide; ring
  have k1 := inside_halfPlane hne (l := l) (C := (q.1 - p.1) * p.2 - (q.2 - p.2) * p.1) (fun v hv => by rw [e1]; exact hl v hv) h1
  have k2 := inside_halfPlane (A := -(q.2 - p.2)) (B := (q.1 - p.1)) (l := m) (C := -((q.1 - p.1) * p.2 - (q.2 - p.2) * p.1))
    (by rcases hne with h | h
        · exact .inl (neg_ne_zero.mpr h)
        · exact .inr (neg_ne_zero.mp h))
    (fun v hv => by
      have := hm v hv
      rw [e2, ← e1] at this
      linarith) h2
  linarith

theorem touches2d_adjacentAt [DecidableEq P] {o1 o2 : List P} (h2 : Simple o2) (n : List P → Nat) (hn : n o1 ≤ o1.length) :
    ∃ r, touches2d n o1 o2 = some r ∧
      (r = true ↔ ∃ (i : Nat) (p q : P), i < n o1 ∧ o1[i]? = some p ∧ rotatedNext o1 i = some q ∧ Edge o2 q p) := by
  have key : ∀ i ∈ List.range (n o1), adjacentAt o1 o2 i = some ((adjacentAt o1 o2 i).getD false) := by
    intro i hi
    have hi : i < o1.length := Nat.lt_of_lt_of_le (List.mem_range.mp hi) hn
    obtain ⟨q, hq⟩ := rotatedNext_some hi
    obtain ⟨r, hr, -⟩ := adjacentAt_iff h2 (List.getElem?_eq_getElem hi) hq
    rw [hr]; rfl
  unfold touches2d
  rw [foldlM_any _ key]
  refine ⟨_, rfl, ?_⟩
  simp only [Bool.false_or, List.any_eq_true, List.mem_range]
  constructor
  · rintro ⟨i, hi, h⟩
    have hi' : i < o1.length := by omega
    obtain ⟨q, hq⟩ := rotatedNext_some hi'
    obtain ⟨r, hr, hiff⟩ := adjacentAt_iff h2 (List.getElem?_eq_getElem hi') hq
    rw [hr] at h
    exact ⟨i, _, q, hi, List.getElem?_eq_getElem hi', hq, hiff.mp h⟩
  · rintro ⟨i, p, q, hi, hp, hq, h⟩
    obtain ⟨r, hr, hiff⟩ := adjacentAt_iff h2 hp hq
    refine ⟨i, hi, ?_⟩
    rw [hr]
    exact hiff.mpr h

/-! ### C88 -/

/-- C88: two simple polygons touch iff an edge of the one is, in the opposite direction, an edge of the other; plain polygons and compound
polygons (areas and lanelets) alike. -/
theorem touches2d_iff [DecidableEq P] {n : List P → Nat} (hn : n = polygonNumSegments ∨ n = compoundNumSegments) {o1 o2 : List P}
    (h1 : Simple o1) (h2 : Simple o2) :
    ∃ r, touches2d n o1 o2 = some r ∧ (r = true ↔ ∃ p q, Edge o1 p q ∧ Edge o2 q p) := by
  have hlen : 2 ≤ o1.length := by
    obtain ⟨l, -, hl, rfl | ⟨x, -, rfl⟩⟩ := h1
    · exact hl
    · simp; omega
  have hn' : n o1 = o1.length := by
    rcases hn with rfl | rfl
    · unfold polygonNumSegments; rw [if_neg (by omega)]
    · unfold compoundNumSegments; omega
  obtain ⟨r, hr, hiff⟩ := touches2d_adjacentAt h2 n (o1 := o1) (by omega)
  refine ⟨r, hr, hiff.trans ?_⟩
  constructor
  · rintro ⟨i, p, q, -, hp, hq, h⟩
    exact ⟨p, q, edge_iff.mpr ⟨h.1.symm, i, hp, hq⟩, h⟩
  · rintro ⟨p, q, h, h'⟩
    obtain ⟨-, i, hp, hq⟩ := edge_iff.mp h
    exact ⟨i, p, q, by rw [hn']; exact (List.getElem?_eq_some_iff.mp hp).1, hp, hq, h'⟩

/-- C88: touching is symmetric. -/
theorem touches2d_symm [DecidableEq P] {n : List P → Nat} (hn : n = polygonNumSegments ∨ n = compoundNumSegments) {o1 o2 : List P}
    (h1 : Simple o1) (h2 : Simple o2) : touches2d n o1 o2 = touches2d n o2 o1 := by
  obtain ⟨r, hr, e1⟩ := touches2d_iff hn h1 h2
  obtain ⟨s, hs, e2⟩ := touches2d_iff hn h2 h1
  rw [hr, hs, Option.some.injEq, Bool.eq_iff_iff, e1, e2]
  constructor <;> rintro ⟨p, q, a, b⟩ <;> exact ⟨q, p, b, a⟩

omit [IsStrictOrderedRing K] in
/-- C88, what overlaps2d answers: polygons that have a common edge (in opposite directions) do not overlap; otherwise they overlap iff their insides
have a common point. -/
theorem overlapsPolygon_spec [DecidableEq P] {n : List P → Nat} (hn : n = polygonNumSegments ∨ n = compoundNumSegments) (pos : P → K × K)
    {relate : List P → List P → Bool} (hrel : ∀ a b, relate a b = true ↔ ∃ x, Inside (a.map pos) x ∧ Inside (b.map pos) x)
    {o1 o2 : List P} (h1 : Simple o1) (h2 : Simple o2) :
    ∃ r, overlapsPolygon n relate o1 o2 = some r ∧
      (r = true ↔ (¬ ∃ p q, Edge o1 p q ∧ Edge o2 q p) ∧ ∃ x, Inside (o1.map pos) x ∧ Inside (o2.map pos) x) := by
  obtain ⟨r, hr, hiff⟩ := touches2d_iff hn h1 h2
  unfold overlapsPolygon
  rw [hr, ← hiff, ← hrel]
  cases r with
  | true => exact ⟨false, rfl, by simp⟩
  | false => exact ⟨relate o1 o2, rfl, by simp⟩

/-- C88, full statement for polygons that keep to the right of their common edges (for example convex polygons, clockwise as lanelet2 wants them):
they overlap iff their insides have a common point. -/
theorem overlapsPolygon_partial [DecidableEq P] {n : List P → Nat} (hn : n = polygonNumSegments ∨ n = compoundNumSegments) (pos : P → K × K)
    {relate : List P → List P → Bool} (hrel : ∀ a b, relate a b = true ↔ ∃ x, Inside (a.map pos) x ∧ Inside (b.map pos) x)
    {o1 o2 : List P} (h1 : Simple o1) (h2 : Simple o2)
    (hr : ∀ p q, Edge o1 p q → Edge o2 q p → pos p ≠ pos q ∧ RightOf (o1.map pos) (pos p) (pos q) ∧ RightOf (o2.map pos) (pos q) (pos p)) :
    ∃ r, overlapsPolygon n relate o1 o2 = some r ∧ (r = true ↔ ∃ x, Inside (o1.map pos) x ∧ Inside (o2.map pos) x) := by
  obtain ⟨r, h, hiff⟩ := overlapsPolygon_spec hn pos hrel h1 h2
  refine ⟨r, h, hiff.trans ?_⟩
  constructor
  · exact And.right
  · rintro ⟨x, i1, i2⟩
    refine ⟨?_, x, i1, i2⟩
    rintro ⟨p, q, e1, e2⟩
    obtain ⟨hne, r1, r2⟩ := hr p q e1 e2
    exact inside_disjoint hne r1 r2 i1 i2

omit [IsStrictOrderedRing K] in
/-- C88: the order of the polygons does not matter. -/
theorem overlapsPolygon_symm [DecidableEq P] {n : List P → Nat} (hn : n = polygonNumSegments ∨ n = compoundNumSegments) (pos : P → K × K)
    {relate : List P → List P → Bool} (hrel : ∀ a b, relate a b = true ↔ ∃ x, Inside (a.map pos) x ∧ Inside (b.map pos) x)
    {o1 o2 : List P} (h1 : Simple o1) (h2 : Simple o2) : overlapsPolygon n relate o1 o2 = overlapsPolygon n relate o2 o1 := by
  obtain ⟨r, hr, e1⟩ := overlapsPolygon_spec hn pos hrel h1 h2
  obtain ⟨s, hs, e2⟩ := overlapsPolygon_spec hn pos hrel h2 h1
  rw [hr, hs, Option.some.injEq, Bool.eq_iff_iff, e1, e2]
  constructor <;> rintro ⟨a, x, b, c⟩ <;> exact ⟨fun ⟨p, q, h, h'⟩ => a ⟨q, p, h', h⟩, x, c, b⟩

omit [IsStrictOrderedRing K] in
/-- C88: the outer polygons of areas, the polygon of a lanelet: the points of the boundary in order, each
once where parts meet. The inverted lanelet overlaps the same areas. -/
theorem overlapsArea_spec [DecidableEq P] (w : World P) (pos : P → K × K)
    {relate : List P → List P → Bool} (hrel : ∀ a b, relate a b = true ↔ ∃ x, Inside (a.map pos) x ∧ Inside (b.map pos) x) {a : Nat} {oa : List P}
    (ha : Simple oa) (hoa : oa = Compound.noRep ((w.ars a).outerPoly.map (points w)).flatten) :
    (∀ b ob, ob = Compound.noRep ((w.ars b).outerPoly.map (points w)).flatten → Simple ob → ∃ r, overlapsArea w relate a b = some r ∧
      (r = true ↔ (¬ ∃ p q, Edge oa p q ∧ Edge ob q p) ∧ ∃ x, Inside (oa.map pos) x ∧ Inside (ob.map pos) x)) ∧
    (∀ ll ob, ob = Compound.noRep (points w (w.lls ll.data).left ++ (points w (w.lls ll.data).right).reverse) → Simple ob →
      ∃ r, overlapsAreaLanelet w relate a ll = some r ∧ overlapsAreaLanelet w relate a (invertL ll) = some r ∧
        (r = true ↔ (¬ ∃ p q, Edge oa p q ∧ Edge ob q p) ∧ ∃ x, Inside (oa.map pos) x ∧ Inside (ob.map pos) x)) := by
  subst hoa
  constructor
  · rintro b ob rfl hb
    exact overlapsPolygon_spec (.inr rfl) pos hrel ha hb
  · rintro ll ob rfl hb
    have he : ((polygon w ll).map (points w)).flatten = points w (w.lls ll.data).left ++ (points w (w.lls ll.data).right).reverse := by
      simp [polygon, points_invert]
    obtain ⟨r, hr, hiff⟩ := overlapsPolygon_spec (.inr rfl) pos hrel ha hb
    refine ⟨r, ?_, ?_, hiff⟩
    · unfold overlapsAreaLanelet; rw [he]; exact hr
    · unfold overlapsAreaLanelet
      rw [show polygon w (invertL ll) = polygon w ll from rfl, he]; exact hr

/-! ### cases and disagreements -/

/-- Specification. A point is in the area: in the inside of the outer boundary, and neither in a hole nor on its edge. -/
def InArea [DecidableEq P] (w : World P) (pos : P → K × K) (a : Nat) (x : K × K) : Prop :=
  Inside ((outerPolygon w a).map pos) x ∧ ∀ h ∈ (w.ars a).innerPolys, ¬ Inside ((Compound.noRep (h.map (points w)).flatten).map pos) x

/-- Example. Positions: 1-4 is a square, 4-3-5-6-7-8 reaches around the point 3 into the square, 4-3-11-12 is a square beside the first one;
13-16, 17-20 and 21-24 are squares in each other. -/
def exPos (n : Nat) : ℚ × ℚ :=
  (#[(0, 0), (0, 0), (0, 4), (4, 4), (4, 0), (1, 3), (1, 6), (7, 6), (7, 0), (4, 0), (4, 4), (6, 4), (6, 0), (0, 0), (0, 10), (10, 10), (10, 0),
    (2, 2), (2, 8), (8, 8), (8, 2), (4, 4), (4, 6), (6, 6), (6, 4)] : Array (ℚ × ℚ)).getD n (0, 0)

/-- Example. Area 0 is the square 13-16 with the hole 17-20, area 1 is the square 21-24, area 2 has no boundary. -/
def exOverlap : World Nat where
  pts d := (#[[13, 14, 15, 16], [17, 18, 19, 20], [21, 22, 23, 24]] : Array (List Nat)).getD d []
  ids d := d + 100
  lls _ := ⟨⟨0, false⟩, ⟨1, false⟩, [], none⟩
  ars d := (#[mkArea [⟨0, false⟩] [[⟨1, false⟩]] [], mkArea [⟨2, false⟩] [] []] : Array AData).getD d (mkArea [] [] [])

theorem inside_hook : Inside ([1, 2, 3, 4].map exPos) (3 / 2, 19 / 5) ∧ Inside ([4, 3, 5, 6, 7, 8].map exPos) (3 / 2, 19 / 5) := by
  constructor
  · refine ⟨?_, by decide +kernel⟩
    intro e he
    simp only [edges, exPos, List.map, List.drop, List.take, List.cons_append, List.nil_append, List.zip_cons_cons, List.zip_nil_left,
      List.mem_cons, List.not_mem_nil, or_false] at he
    rintro ⟨t, h0, h1, h2, h3⟩
    rcases he with rfl | rfl | rfl | rfl <;> first | (norm_num at h2; done) | (norm_num at h3; done) | (norm_num at h2 h3; linarith)
  · refine ⟨?_, by decide +kernel⟩
    intro e he
    simp only [edges, exPos, List.map, List.drop, List.take, List.cons_append, List.nil_append, List.zip_cons_cons, List.zip_nil_left,
      List.mem_cons, List.not_mem_nil, or_false] at he
    rintro ⟨t, h0, h1, h2, h3⟩
    rcases he with rfl | rfl | rfl | rfl | rfl | rfl <;> first | (norm_num at h2; done) | (norm_num at h3; done) | (norm_num at h2 h3; linarith)

/-- Case: the squares 1-4 and 4-3-11-12 have a common edge and keep to the right of it. -/
example : Simple [1, 2, 3, 4] ∧ Simple [4, 3, 11, 12] ∧ Edge [1, 2, 3, 4] 3 4 ∧ Edge [4, 3, 11, 12] 4 3 ∧ exPos 3 ≠ exPos 4 ∧
    RightOf ([1, 2, 3, 4].map exPos) (exPos 3) (exPos 4) ∧ RightOf ([4, 3, 11, 12].map exPos) (exPos 4) (exPos 3) := by
  refine ⟨⟨_, by decide, by decide, .inl rfl⟩, ⟨_, by decide, by decide, .inl rfl⟩, ⟨by decide, 2, rfl, .inl rfl⟩, ⟨by decide, 0, rfl, .inl rfl⟩,
    by decide +kernel, ?_, ?_⟩ <;> unfold RightOf <;> decide +kernel

/-- Disagreement with C88: polygons that overlap are said not to, because they have a common edge. The second polygon reaches around the end of
the edge into the first one. -/
theorem hook_counterexample (n : List Nat → Nat) (hn : n = polygonNumSegments ∨ n = compoundNumSegments) (relate : List Nat → List Nat → Bool) :
    overlapsPolygon n relate [1, 2, 3, 4] [4, 3, 5, 6, 7, 8] = some false ∧ Simple [1, 2, 3, 4] ∧ Simple [4, 3, 5, 6, 7, 8] ∧
      ∃ x, Inside ([1, 2, 3, 4].map exPos) x ∧ Inside ([4, 3, 5, 6, 7, 8].map exPos) x := by
  refine ⟨?_, ⟨_, by decide, by decide, .inl rfl⟩, ⟨_, by decide, by decide, .inl rfl⟩, _, inside_hook⟩
  rcases hn with rfl | rfl <;> rfl

theorem inside_inner {x : ℚ × ℚ} (h : Inside ([21, 22, 23, 24].map exPos) x) : Inside ([17, 18, 19, 20].map exPos) x := by
  have m : ∀ v ∈ [21, 22, 23, 24].map exPos, 4 ≤ v.1 ∧ v.1 ≤ 6 ∧ 4 ≤ v.2 ∧ v.2 ≤ 6 := by decide +kernel
  have b1 := inside_halfPlane (A := 1) (B := 0) (C := -4) (.inl one_ne_zero) (fun v hv => by linarith [(m v hv).1]) h
  have b2 := inside_halfPlane (A := -1) (B := 0) (C := 6) (.inl (by norm_num)) (fun v hv => by linarith [(m v hv).2.1]) h
  have b3 := inside_halfPlane (A := 0) (B := 1) (C := -4) (.inr one_ne_zero) (fun v hv => by linarith [(m v hv).2.2.1]) h
  have b4 := inside_halfPlane (A := 0) (B := -1) (C := 6) (.inr (by norm_num)) (fun v hv => by linarith [(m v hv).2.2.2]) h
  have he : edges ([17, 18, 19, 20].map exPos) = [((2, 2), (2, 8)), ((2, 8), (8, 8)), ((8, 8), (8, 2)), ((8, 2), (2, 2))] := by decide +kernel
  refine ⟨?_, ?_⟩
  · intro e h
    rw [he] at h
    simp only [List.mem_cons, List.not_mem_nil, or_false] at h
    rintro ⟨t, h0, h1, h2, h3⟩
    rcases h with rfl | rfl | rfl | rfl <;> first | (norm_num at h2; done) | (norm_num at h3; done) | (norm_num at h2 h3; linarith)
  · rw [he]
    have c1 : crosses x (((2 : ℚ), (2 : ℚ)), ((2 : ℚ), (8 : ℚ))) = false := by
      have : ¬ x.1 < 2 := by linarith
      simp [crosses, this]
    have c2 : crosses x (((2 : ℚ), (8 : ℚ)), ((8 : ℚ), (8 : ℚ))) = false := by simp [crosses]
    have c3 : crosses x (((8 : ℚ), (8 : ℚ)), ((8 : ℚ), (2 : ℚ))) = true := by
      have h1 : x.1 < 8 := by linarith
      have h2 : ¬ 8 ≤ x.2 := by linarith
      have h3 : 2 ≤ x.2 := by linarith
      simp [crosses, h1, h2, h3]
    have c4 : crosses x (((8 : ℚ), (2 : ℚ)), ((2 : ℚ), (2 : ℚ))) = false := by simp [crosses]
    simp [c1, c2, c3, c4]

/-- Disagreement with C88: an area that lies in the hole of another area is said to overlap it, although no point is in both. -/
theorem hole_counterexample {relate : List Nat → List Nat → Bool}
    (hrel : ∀ a b, relate a b = true ↔ ∃ x, Inside (a.map exPos) x ∧ Inside (b.map exPos) x) :
    overlapsArea exOverlap relate 0 1 = some true ∧ ¬ ∃ x, InArea exOverlap exPos 0 x ∧ InArea exOverlap exPos 1 x := by
  have o0 : outerPolygon exOverlap 0 = [13, 14, 15, 16] := rfl
  have o1 : outerPolygon exOverlap 1 = [21, 22, 23, 24] := rfl
  constructor
  · obtain ⟨r, hr, hiff⟩ := overlapsPolygon_spec (n := compoundNumSegments) (.inr rfl) exPos hrel (o1 := [13, 14, 15, 16]) (o2 := [21, 22, 23, 24])
      ⟨_, by decide, by decide, .inl rfl⟩ ⟨_, by decide, by decide, .inl rfl⟩
    unfold overlapsArea
    rw [o0, o1, hr, hiff.mpr]
    refine ⟨?_, (5, 5), ⟨?_, by decide +kernel⟩, ⟨?_, by decide +kernel⟩⟩
    · rintro ⟨p, q, ⟨-, i, hp, -⟩, ⟨-, j, -, h⟩⟩
      have h1 : p ∈ [13, 14, 15, 16] := List.mem_of_getElem? hp
      have h2 : p ∈ [21, 22, 23, 24] := by
        rcases h with h | ⟨-, h⟩ <;> exact List.mem_of_getElem? h
      revert h1 h2
      simp only [List.mem_cons, List.not_mem_nil, or_false]
      omega
    · have he : edges ([13, 14, 15, 16].map exPos) = [((0, 0), (0, 10)), ((0, 10), (10, 10)), ((10, 10), (10, 0)), ((10, 0), (0, 0))] := by decide +kernel
      intro e h
      rw [he] at h
      simp only [List.mem_cons, List.not_mem_nil, or_false] at h
      rintro ⟨t, h0, h1, h2, h3⟩
      rcases h with rfl | rfl | rfl | rfl <;> first | (norm_num at h2; done) | (norm_num at h3; done) | (norm_num at h2 h3; linarith)
    · have he : edges ([21, 22, 23, 24].map exPos) = [((4, 4), (4, 6)), ((4, 6), (6, 6)), ((6, 6), (6, 4)), ((6, 4), (4, 4))] := by decide +kernel
      intro e h
      rw [he] at h
      simp only [List.mem_cons, List.not_mem_nil, or_false] at h
      rintro ⟨t, h0, h1, h2, h3⟩
      rcases h with rfl | rfl | rfl | rfl <;> first | (norm_num at h2; done) | (norm_num at h3; done) | (norm_num at h2 h3; linarith)
  · rintro ⟨x, ⟨-, h⟩, ⟨h', -⟩⟩
    rw [o1] at h'
    exact h [⟨1, false⟩] (by simp [exOverlap, mkArea, resetCacheA]) (inside_inner h')

/-- Disagreement with C88: for an area without a boundary the answer is undefined, since compound polygons without points claim to have a segment. -/
theorem empty_counterexample (w : World Nat) (relate : List Nat → List Nat → Bool) (a b : Nat) (ha : outerPolygon w a = []) :
    overlapsArea w relate a b = none := by
  unfold overlapsArea overlapsPolygon
  rw [ha]
  rfl

/-- Case: area 2 has no boundary. -/
example : outerPolygon exOverlap 2 = [] := rfl

end Verif.Lanelet
