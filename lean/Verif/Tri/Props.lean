import Verif.Tri.Traverse
import Mathlib.Tactic.Ring

/-!
Properties of the convex partition and of the triangulation of polygons.

Specification: `sides` (Lemmas), `around` (Lemmas), `Inside`, `Convex`, `Conforming` (Traverse), and `Simple`, `Delaunay` below.

A quantity `f` of directed sides is antisymmetric if it changes its sign with the direction. For `f i j = xᵢ yⱼ - xⱼ yᵢ` the sum around a polygon is twice
its signed area; for the formal sum of sides it is the boundary.
-/
namespace Verif.Tri

/-! ### subdivision of a polygon into triangles -/

section
variable {G : Type} [AddCommGroup G]

private theorem fan_length (a b : Nat) (l : List Nat) : (((b :: l).zip l).map fun x => [a, x.1, x.2]).length = l.length := by
  simp

private theorem fan_mem (a : Nat) : ∀ (l : List Nat) (b : Nat), l ≠ [] → ∀ v ∈ a :: b :: l, ∃ t ∈ ((b :: l).zip l).map fun x => [a, x.1, x.2], v ∈ t := by
  intro l
  induction l with
  | nil => intro b h; exact absurd rfl h
  | cons c l ih =>
    intro b _ v hv
    by_cases hl : l = []
    · subst hl
      refine ⟨[a, b, c], by simp, by simpa using hv⟩
    · by_cases hvb : v = a ∨ v = b
      · exact ⟨[a, b, c], by simp, by rcases hvb with rfl | rfl <;> simp⟩
      · obtain ⟨t, ht, hvt⟩ := ih c hl v (by simp only [List.mem_cons] at hv ⊢; tauto)
        exact ⟨t, by simp only [List.zip_cons_cons, List.map_cons, List.mem_cons]; exact .inr ht, hvt⟩

private theorem fan_sum {f : Nat → Nat → G} (hf : ∀ x y, f x y = - f y x) (a : Nat) : ∀ (l : List Nat) (b : Nat), l ≠ [] →
    ((((b :: l).zip l).map fun x => [a, x.1, x.2]).map (around f)).sum = around f (a :: b :: l) := by
  intro l
  induction l with
  | nil => intro b h; exact absurd rfl h
  | cons c l ih =>
    intro b _
    have h3 : ∀ x y z, around f [x, y, z] = f x y + f y z + f z x := by
      intro x y z
      rw [around_cons]
      simp [along, pairs]
      abel
    rw [List.zip_cons_cons, List.map_cons, List.map_cons, List.sum_cons, h3]
    by_cases hl : l = []
    · subst hl
      simp only [List.zip_nil_right, List.map_nil, List.sum_nil, add_zero]
      rw [h3]
    · rw [ih c hl, around_cons, around_cons]
      simp only [List.cons_append]
      rw [along_cons_cons, along_cons_cons, along_cons_cons, hf c a]
      abel

/-- A polygon of `n` indices is split into `n - 2` triangles. All of them have the first corner and a side of the polygon, no corner of the polygon is
missing, and for every antisymmetric quantity (e.g. the area) the triangles together have that of the polygon. -/
theorem subdivide_spec {f : Nat → Nat → G} (hf : ∀ x y, f x y = - f y x) (p : List Nat) (h3 : 3 ≤ p.length) :
    ∃ ts, subdivide p = .ok ts ∧ ts.length = p.length - 2 ∧ (∀ t ∈ ts, ∃ x y, t = [p.getD 0 0, x, y] ∧ (x, y) ∈ sides p) ∧
      (∀ v ∈ p, ∃ t ∈ ts, v ∈ t) ∧ (ts.map (around f)).sum = around f p := by
  match p, h3 with
  | a :: b :: c :: l, _ =>
    refine ⟨_, rfl, ?_, ?_, fan_mem a (c :: l) b (by simp), fan_sum hf a (c :: l) b (by simp)⟩
    · simp
    · intro t ht
      obtain ⟨x, hx, rfl⟩ := List.mem_map.mp ht
      refine ⟨x.1, x.2, rfl, ?_⟩
      rw [sides_first, show b :: (c :: l) ++ [a] = (b :: c :: l) ++ [a] from rfl]
      have h2 : ∀ (l : List Nat) (x : Seg) (y : Nat), x ∈ pairs l → x ∈ pairs (l ++ [y]) := by
        intro l
        induction l with
        | nil => intro x y h; simp [pairs] at h
        | cons k l ih =>
          intro x y h
          cases l with
          | nil => simp [pairs] at h
          | cons k' l =>
            rw [pairs_cons_cons] at h
            simp only [List.cons_append]
            rw [pairs_cons_cons]
            rcases List.mem_cons.mp h with rfl | h
            · simp
            · exact List.mem_cons_of_mem _ (ih x y h)
      exact List.mem_cons_of_mem _ (h2 (b :: c :: l) x a hx)

example : subdivide [4, 7, 2, 5, 9] = .ok [[4, 7, 2], [4, 2, 5], [4, 5, 9]] := by decide +kernel

/-- The triangulation has for every polygon of the diagram two triangles less than corners. Every triangle has three corners of one polygon of the
diagram, no corner of these is missing, and every antisymmetric quantity sums up to that of the polygons of the diagram. -/
theorem triangulate_spec {f : Nat → Nat → G} (hf : ∀ x y, f x y = - f y x) (d : Data) (h3 : 3 ≤ d.size) (hp : ∀ p ∈ d.polys, 3 ≤ p.length) :
    ∃ ts, d.triangulate = .ok ts ∧ ts.length = (d.polys.map fun p => p.length - 2).sum ∧
      (∀ t ∈ ts, t.length = 3 ∧ ∃ p ∈ d.polys, ∀ v ∈ t, v ∈ p) ∧ (∀ p ∈ d.polys, ∀ v ∈ p, ∃ t ∈ ts, v ∈ t) ∧
      (ts.map (around f)).sum = (d.polys.map (around f)).sum := by
  have key : ∀ l : List (List Nat), (∀ p ∈ l, 3 ≤ p.length) →
      ∃ tss : List (List (List Nat)), (l.mapM fun p => if p.length = 3 then Except.ok [p] else subdivide p) = .ok tss ∧
        tss.flatten.length = (l.map fun p => p.length - 2).sum ∧ (∀ t ∈ tss.flatten, t.length = 3 ∧ ∃ p ∈ l, ∀ v ∈ t, v ∈ p) ∧
        (∀ p ∈ l, ∀ v ∈ p, ∃ t ∈ tss.flatten, v ∈ t) ∧ (tss.flatten.map (around f)).sum = (l.map (around f)).sum := by
    intro l
    induction l with
    | nil => intro _; exact ⟨[], rfl, by simp, by simp, by simp, by simp⟩
    | cons p l ih =>
      intro hl
      obtain ⟨tss, e1, e2, e3, e4, e5⟩ := ih (fun q hq => hl q (List.mem_cons_of_mem _ hq))
      have hone : ∃ ts, (if p.length = 3 then Except.ok [p] else subdivide p) = .ok ts ∧ ts.length = p.length - 2 ∧
          (∀ t ∈ ts, t.length = 3 ∧ ∀ v ∈ t, v ∈ p) ∧ (∀ v ∈ p, ∃ t ∈ ts, v ∈ t) ∧ (ts.map (around f)).sum = around f p := by
        by_cases h : p.length = 3
        · refine ⟨[p], by rw [if_pos h], by simp [h], by simp [h], ?_, by simp⟩
          intro v hv
          exact ⟨p, by simp, hv⟩
        · obtain ⟨ts, s1, s2, s3, s4, s5⟩ := subdivide_spec hf p (hl p (by simp))
          refine ⟨ts, by rw [if_neg h, s1], s2, ?_, s4, s5⟩
          intro t ht
          obtain ⟨x, y, rfl, hxy⟩ := s3 t ht
          refine ⟨rfl, ?_⟩
          intro v hv
          have hne : 0 < p.length := by have := hl p (by simp); omega
          simp only [List.mem_cons, List.not_mem_nil, or_false] at hv
          rcases hv with rfl | rfl | rfl
          · rw [List.getD_eq_getElem _ _ hne]; exact List.getElem_mem _
          · exact (sides_mem hxy).1
          · exact (sides_mem hxy).2
      obtain ⟨ts, s1, s2, s3, s4, s5⟩ := hone
      refine ⟨ts :: tss, ?_, ?_, ?_, ?_, ?_⟩
      · rw [List.mapM_cons, s1, e1]
        rfl
      · simp only [List.flatten_cons, List.length_append, List.map_cons, List.sum_cons]
        omega
      · intro t ht
        rw [List.flatten_cons, List.mem_append] at ht
        rcases ht with ht | ht
        · exact ⟨(s3 t ht).1, p, by simp, (s3 t ht).2⟩
        · obtain ⟨k1, q, k2, k3⟩ := e3 t ht
          exact ⟨k1, q, List.mem_cons_of_mem _ k2, k3⟩
      · intro q hq v hv
        simp only [List.flatten_cons, List.mem_append]
        rcases List.mem_cons.mp hq with rfl | hq
        · obtain ⟨t, ht, h⟩ := s4 v hv
          exact ⟨t, .inl ht, h⟩
        · obtain ⟨t, ht, h⟩ := e4 q hq v hv
          exact ⟨t, .inr ht, h⟩
      · simp only [List.flatten_cons, List.map_append, List.sum_append, List.map_cons, List.sum_cons]
        rw [s5, e5]
  obtain ⟨tss, e1, e2, e3, e4, e5⟩ := key d.polys hp
  refine ⟨tss.flatten, ?_, e2, e3, e4, e5⟩
  unfold Data.triangulate
  rw [if_neg (by omega), e1]
  rfl

/-- less than three points are refused -/
theorem few_points (d : Data) (h : d.size < 3) : d.triangulate = .error .geometry ∧ d.convexPartition = throw .geometry := by
  unfold Data.triangulate Data.convexPartition
  rw [if_pos h, if_pos h]
  exact ⟨rfl, rfl⟩

/-! ### merging -/

/-- Two polygons with the opposite sides `a → b` and `b → a` and no other common corner are merged into the polygon where the side is replaced by the rest of the
other polygon: it has each corner of the two once, all their sides but the common one, and for every antisymmetric quantity their sum. -/
theorem merge_polygons {f : Nat → Nat → G} (hf : ∀ x y, f x y = - f y x) {p q : List Nat} (hp : p.Nodup) (hq : q.Nodup) (p3 : 3 ≤ p.length) (q3 : 3 ≤ q.length)
    {a b : Nat} (h1 : (a, b) ∈ sides p) (h2 : (b, a) ∈ sides q) (hc : ∀ v ∈ p, v ∈ q → v = a ∨ v = b) :
    ∃ m, merge p q (a, b) = .ok m ∧ m.Nodup ∧ (∀ v, v ∈ m ↔ v ∈ p ∨ v ∈ q) ∧
      (∀ s, s ∈ sides m ↔ (s ∈ sides p ∧ s ≠ (a, b)) ∨ (s ∈ sides q ∧ s ≠ (b, a))) ∧ m.length + 2 = p.length + q.length ∧
      around f m = around f p + around f q := by
  obtain ⟨mid, rest, m, hm, r1, r2, r3⟩ := merge_spec hp hq p3 q3 h1 h2
  refine ⟨m, hm, merged_nodup hp hq r1 r2 r3 hc, fun v => merged_mem r1 r2 r3, ?_, ?_, around_merged f hf r1 r2 r3⟩
  · intro s
    have np := r1.nodup_iff.mp hp
    have nq := r2.nodup_iff.mp hq
    rw [merged_sides r3, mem_sides_rotated r1, mem_sides_rotated r2, sides_first, sides_first]
    have k1 : s ∈ pairs (b :: rest ++ [a]) → s ≠ (a, b) := by
      rintro h rfl
      have := pairs_left h
      simp only [List.nodup_cons] at np
      exact np.1 this
    have k2 : s ∈ pairs (a :: mid ++ [b]) → s ≠ (b, a) := by
      rintro h rfl
      have := pairs_left h
      simp only [List.nodup_cons] at nq
      exact nq.1 this
    simp only [List.mem_cons]
    tauto
  · rw [r3.perm.length_eq, r1.perm.length_eq, r2.perm.length_eq]
    simp only [List.length_append, List.length_cons]
    omega

example : merge [0, 1, 4, 6] [4, 5, 6] (4, 6) = .ok [0, 1, 4, 5, 6] ∧ merge [0, 1, 4, 6] [1, 2, 3, 4] (1, 4) = .ok [0, 1, 2, 3, 4, 6] ∧
    merge [0, 1, 4, 6] [0, 6, 7] (6, 0) = .ok [7, 0, 1, 4, 6] := by decide +kernel

/-! ### the convex partition -/

/-- If the diagram has all sides of the polygon, the partition ends without an exception. All parts are polygons of at least three different corners of the polygon
that pass the test for convexity at every corner, and together they make up the polygon: for every antisymmetric quantity of sides the parts sum up to
that of the polygon.

The sort is an arbitrary permutation, so the result does not depend on the angles. -/
theorem convexPartition_spec {f : Nat → Nat → G} (hf : ∀ x y, f x y = - f y x) (d : Data) (h3 : 3 ≤ d.size) (hcf : Conforming d.size d.polys)
    (hconv : ∀ p ∈ d.polys, Inside d.size p → Convex d.turn p) (hsort : ∀ l, (d.sort l).Perm l) :
    ∃ parts, d.convexPartition = pure parts ∧
      (∀ p ∈ parts, p.Nodup ∧ 3 ≤ p.length ∧ (∀ v ∈ p, v < d.size) ∧ Convex d.turn p) ∧
      (parts.map (around f)).sum = around f (List.range d.size) := by
  obtain ⟨i, q, k1, k2, k3⟩ := dest_spec (d := d) (s := (1, 0)) hcf.first
  have hqm : q ∈ d.polys := List.mem_of_getElem? k2
  have hqi := hcf.first_inside q hqm k3
  have hlt : rank d.size (1, 0).1 < rank d.size (1, 0).2 := by
    simp only [rank]
    simp
    omega
  obtain ⟨mid, m1, m2, m3, m4, m5⟩ := new_gates hlt hqm hqi k3
  obtain ⟨head', new, vis', t1, -, -, -, t5, t6⟩ := traverse_spec h3 hcf hf hconv hsort d.size
    { poly := q, gates := getSegmentsExcept q (1, 0) } { visited := [i] } true [] []
    (fun s hs => ⟨(m5 s hs).1, (m5 s hs).2.1, by have := rank_le (m5 s hs).1.2.1; omega⟩) m4 (by simp) (by simp)
    ⟨inside_nodup hqi, hqi.1, hqi.2.1, hconv q hqm hqi⟩ (by
      intro s hs
      simp only [List.append_nil] at hs
      obtain ⟨-, -, -, -, -, -, -, k7⟩ := m5 s hs
      refine ⟨?_, k7⟩
      unfold getSegmentsExcept at hs
      rw [segments_eq] at hs
      exact List.mem_of_mem_filter hs) (by
      intro j hj q' hq' s hs
      simp only [List.mem_singleton] at hj
      subst hj
      rw [k2] at hq'
      cases hq'
      simp only [List.append_nil] at hs
      exact (m5 s hs).2.2.2.2.2.2.1) (by simp)
  refine ⟨new, ?_, t5, ?_⟩
  · unfold Data.convexPartition Data.mergeTriangulation
    rw [if_neg (by omega), k1, lift_ok, pure_bind]
    unfold Data.poly
    rw [k2]
    simp only
    rw [lift_ok, pure_bind, t1, pure_bind]
    simp
  · simp only [if_true, zero_add] at t6
    rw [t6, gain_arc (d := d) hf m1 m2 m3]
    unfold gain
    have e1 : rank d.size (1, 0).2 = d.size := by simp [rank]
    have e2 : rank d.size (1, 0).1 = 1 := by simp [rank]
    rw [e1, e2, hf]
    have e3 : upTo d f 1 = f 0 1 := by
      unfold upTo
      simp [Nat.mod_eq_of_lt (show 1 < d.size by omega)]
    rw [e3]
    have e4 : upTo d f d.size = around f (List.range d.size) := by
      unfold upTo around
      congr 1
      apply List.ext_getElem
      · simp [sides]
      · intro j hj1 hj2
        have hj : j < d.size := by simpa using hj1
        simp [sides, List.getElem_rotate, Nat.mod_eq_of_lt hj]
    rw [e4]
    abel

end

/-! ### points -/

/-- a point with integer coordinates, as in the Voronoi diagram (toVoronoi, 8) -/
abbrev Pt := Int × Int

/-- twice the signed area of a triangle; negative for clockwise -/
def orient (a b c : Pt) : Int := (b.1 - a.1) * (c.2 - a.2) - (b.2 - a.2) * (c.1 - a.1)

/-- positive if `e` is outside of the circle through the corners of the clockwise triangle `a b c` -/
def inCircle (a b c e : Pt) : Int :=
  let w (p : Pt) : Int := (p.1 - e.1) * (p.1 - e.1) + (p.2 - e.2) * (p.2 - e.2)
  (a.1 - e.1) * ((b.2 - e.2) * w c - w b * (c.2 - e.2)) - (a.2 - e.2) * ((b.1 - e.1) * w c - w b * (c.1 - e.1))
    + w a * ((b.1 - e.1) * (c.2 - e.2) - (b.2 - e.2) * (c.1 - e.1))

/-- Specification: a corner of the polygon. -/
def at' (pts : List Pt) (i : Nat) : Pt := pts.getD i (0, 0)

/-- twice the signed area of a part -/
def area (pts : List Pt) (p : List Nat) : Int := around (fun i j => (at' pts i).1 * (at' pts j).2 - (at' pts j).1 * (at' pts i).2) p

/-- no side of the polygon meets a side that is not next to it -/
def Simple (pts : List Pt) : Prop :=
  ∀ s ∈ sides (List.range pts.length), ∀ t ∈ sides (List.range pts.length), s ≠ t → s.2 ≠ t.1 → t.2 ≠ s.1 →
    0 < orient (at' pts s.1) (at' pts s.2) (at' pts t.1) * orient (at' pts s.1) (at' pts s.2) (at' pts t.2) ∨
    0 < orient (at' pts t.1) (at' pts t.2) (at' pts s.1) * orient (at' pts t.1) (at' pts t.2) (at' pts s.2)

/-- the vertices of the Voronoi diagram of points of which no four lie on a circle: the clockwise triangles with no point in their circle -/
def Delaunay (pts : List Pt) (polys : List (List Nat)) : Prop :=
  (∀ p ∈ polys, p.length = 3 ∧ ∀ v ∈ p, v < pts.length) ∧
  ∀ i ∈ List.range pts.length, ∀ j ∈ List.range pts.length, ∀ k ∈ List.range pts.length,
    ([i, j, k] ∈ polys ∨ [j, k, i] ∈ polys ∨ [k, i, j] ∈ polys) ↔
      orient (at' pts i) (at' pts j) (at' pts k) < 0 ∧
        ∀ l ∈ List.range pts.length, l = i ∨ l = j ∨ l = k ∨ 0 < inCircle (at' pts i) (at' pts j) (at' pts k) (at' pts l)

instance (pts : List Pt) : Decidable (Simple pts) := by unfold Simple; infer_instance
instance (pts : List Pt) (polys : List (List Nat)) : Decidable (Delaunay pts polys) := by unfold Delaunay; infer_instance

/-- isConnectionConvex, 97-100, without rounding -/
def turnOf (pts : List Pt) (s t : Seg) : Bool :=
  decide (((at' pts s.2).1 - (at' pts s.1).1) * ((at' pts t.2).2 - (at' pts t.1).2)
    - ((at' pts s.2).2 - (at' pts s.1).2) * ((at' pts t.2).1 - (at' pts t.1).1) ≤ 0)

/-- the data of a polygon with its diagram, without sorting -/
def dataOf (pts : List Pt) (polys : List (List Nat)) : Data := { size := pts.length, polys := polys, turn := turnOf pts, sort := id }

/-- the parts of the partition have the area of the polygon -/
theorem convexPartition_area (pts : List Pt) (polys : List (List Nat)) (h3 : 3 ≤ pts.length) (hcf : Conforming pts.length polys)
    (hconv : ∀ p ∈ polys, Inside pts.length p → Convex (turnOf pts) p) :
    ∃ parts, (dataOf pts polys).convexPartition = pure parts ∧ (∀ p ∈ parts, Convex (turnOf pts) p) ∧
      (parts.map (area pts)).sum = area pts (List.range pts.length) := by
  obtain ⟨parts, h1, h2, h4⟩ := convexPartition_spec
    (f := fun i j => (at' pts i).1 * (at' pts j).2 - (at' pts j).1 * (at' pts i).2) (by intro x y; ring) (dataOf pts polys) h3 hcf hconv (fun l => .refl l)
  exact ⟨parts, h1, fun p hp => (h2 p hp).2.2.2, h4⟩

/-! ### examples -/

/-- a dart; its hull has one more triangle -/
def exDart : List Pt := [(0, 6), (5, -3), (0, 0), (-5, -3)]
/-- Example. -/
def exDartPolys : List (List Nat) := [[0, 1, 2], [0, 2, 3], [1, 3, 2]]

theorem exDart_delaunay : Simple exDart ∧ Delaunay exDart exDartPolys := by decide +kernel

/-- a decidable form of `Inside` -/
theorem inside_iff {n : Nat} {p : List Nat} :
    Inside n p ↔ 3 ≤ p.length ∧ (∀ v ∈ p, v < n) ∧ ∃ k ∈ List.range p.length, (p.rotate k).Pairwise (· < ·) := by
  unfold Inside
  constructor
  · rintro ⟨h1, h2, l, ⟨k, rfl⟩, h4⟩
    refine ⟨h1, h2, k % p.length, by rw [List.mem_range]; exact Nat.mod_lt _ (by omega), ?_⟩
    rw [List.rotate_mod]
    exact h4
  · rintro ⟨h1, h2, k, -, h4⟩
    exact ⟨h1, h2, _, ⟨k, rfl⟩, h4⟩

theorem convex_iff {turn : Seg → Seg → Bool} {p : List Nat} :
    Convex turn p ↔ ∀ s ∈ sides p, ∀ t ∈ sides p, s.2 = t.1 → turn s t = true := by
  unfold Convex
  constructor
  · rintro h ⟨x, y⟩ h1 ⟨y', z⟩ h2 h3
    simp only at h3
    subst h3
    exact h x y z h1 h2
  · intro h x y z h1 h2
    exact h (x, y) h1 (y, z) h2 rfl

instance (n : Nat) (p : List Nat) : Decidable (Inside n p) := decidable_of_iff' _ inside_iff
instance (turn : Seg → Seg → Bool) (p : List Nat) : Decidable (Convex turn p) := decidable_of_iff' _ convex_iff
instance (n : Nat) (s : Seg) : Decidable (Border n s) := by unfold Border; infer_instance

theorem conforming_iff {n : Nat} {polys : List (List Nat)} : Conforming n polys ↔
    (∃ p ∈ polys, (0, 1) ∈ sides p) ∧ (∀ p ∈ polys, (0, 1) ∈ sides p → Inside n p) ∧
    (∀ p ∈ polys, Inside n p → ∀ s ∈ sides p, ¬ Border n s → ∃ q ∈ polys, flip s ∈ sides q) ∧
    (∀ p ∈ polys, Inside n p → ∀ s ∈ sides p, ¬ Border n s → ∀ q ∈ polys, flip s ∈ sides q → Inside n q) :=
  ⟨fun h => ⟨h.1, h.2, h.3, h.4⟩, fun h => ⟨h.1, h.2.1, h.2.2.1, h.2.2.2⟩⟩

instance (n : Nat) (polys : List (List Nat)) : Decidable (Conforming n polys) := by
  have i1 : Decidable (∃ p ∈ polys, (0, 1) ∈ sides p) := List.decidableBEx _ _
  have i2 : Decidable (∀ p ∈ polys, (0, 1) ∈ sides p → Inside n p) := List.decidableBAll _ _
  have i3 : Decidable (∀ p ∈ polys, Inside n p → ∀ s ∈ sides p, ¬ Border n s → ∃ q ∈ polys, flip s ∈ sides q) := List.decidableBAll _ _
  have i4 : Decidable (∀ p ∈ polys, Inside n p → ∀ s ∈ sides p, ¬ Border n s → ∀ q ∈ polys, flip s ∈ sides q → Inside n q) := List.decidableBAll _ _
  exact decidable_of_iff' _ conforming_iff

/-- the hypotheses of convexPartition_spec are met by the dart with the additional triangle of its hull -/
example : Conforming 4 exDartPolys ∧ (∀ p ∈ exDartPolys, Inside 4 p → Convex (turnOf exDart) p) ∧ ¬ Convex (turnOf exDart) [0, 1, 2, 3] := by decide +kernel

example : ∃ parts, (dataOf exDart exDartPolys).convexPartition = pure parts ∧ (∀ p ∈ parts, Convex (turnOf exDart) p) ∧
    (parts.map (area exDart)).sum = area exDart [0, 1, 2, 3] :=
  convexPartition_area exDart exDartPolys (by decide) (by decide +kernel) (by decide +kernel)

/-! ### disagreements -/

/-- "Split a concave polygon into triangles": `triangulate` is the triangulation of the points, i.e. of their convex hull. For the dart one triangle is outside
of the polygon, and the triangles do not have the area of the polygon. -/
theorem triangulate_counterexample : ∃ pts polys ts, Simple pts ∧ area pts (List.range pts.length) < 0 ∧ Delaunay pts polys ∧
    (dataOf pts polys).triangulate = .ok ts ∧ ts.length ≠ pts.length - 2 ∧ (ts.map (area pts)).sum ≠ area pts (List.range pts.length) :=
  ⟨exDart, exDartPolys, exDartPolys, by decide +kernel⟩

/-- the points of a polygon with a side that is not in the diagram -/
def exNeedle : List Pt := [(0, 0), (10, 0), (5, -1), (-9, -3), (-9, 5), (5, 1)]
/-- Example. -/
def exNeedlePolys : List (List Nat) := [[0, 2, 3], [0, 3, 4], [0, 4, 5], [0, 5, 2], [1, 2, 5], [1, 5, 4]]

theorem exNeedle_delaunay : Simple exNeedle ∧ area exNeedle (List.range 6) < 0 ∧ Delaunay exNeedle exNeedlePolys := by decide +kernel

/-- The partition of a simple polygon fails with an exception if a side of the polygon is not in the diagram of the points, as the sides are not part of the
construction of the diagram. -/
theorem convexPartition_counterexample : ∃ pts polys, Simple pts ∧ area pts (List.range pts.length) < 0 ∧ Delaunay pts polys ∧
    (dataOf pts polys).convexPartition = throw .notFound := by
  refine ⟨exNeedle, exNeedlePolys, exNeedle_delaunay.1, exNeedle_delaunay.2.1, exNeedle_delaunay.2.2, ?_⟩
  unfold Data.convexPartition Data.mergeTriangulation
  rw [if_neg (by decide), show (dataOf exNeedle exNeedlePolys).dest (1, 0) = .error .notFound by decide +kernel]
  rfl

end Verif.Tri
