import Mathlib.Algebra.Order.Field.Basic
import Mathlib.Tactic.Linarith
import Mathlib.Tactic.Ring
import Mathlib.Algebra.Order.Ring.Rat

/-!
Properties C06 and C07: `findNearest`, `findWithin2d`, `findWithin3d`, `nearestUntil`, `searchUntil`.

Distances are elements of an ordered field (exact arithmetic instead of `double`). The r-tree is modelled by the
list of its entries. An iteration over `bgi::nearest` is any list that contains every entry once, in ascending
order of the distance to the box of the entry; an iteration over `bgi::intersects` is any list that contains every
entry with an intersecting box once. `Strong.tree` (Lemmas.lean) shows that the tree of a map layer holds exactly
the elements of the layer that have a nonempty bounding box.
-/
namespace Verif.Nearest

variable {K : Type} [LinearOrder K] {T : Type}

/-- `std::lower_bound` on the measures and insertion at this place: the first position whose measure is not
smaller. LaneletMap.cpp 943-951. (`pop_back` before `emplace(pos)` formally invalidates `pos` if it denotes
the last element; the model uses the position, as every implementation of std::vector does.) -/
def lowerBound (m : K) (l : List (K × T)) : Nat := (l.takeWhile fun v => decide (v.1 < m)).length

/-- NSmallestElements::insert, LaneletMap.cpp 942-953. -/
def insert (n : Nat) (m : K) (v : T) (l : List (K × T)) : List (K × T) :=
  let pos := lowerBound m l
  if pos ≠ l.length ∨ l.length < n then
    let l := if l.length ≥ n then l.dropLast else l
    l.take pos ++ (m, v) :: l.drop pos
  else l

/-- The search function of findNearestImpl (LaneletMap.cpp 973-980): `none` is the undefined behaviour of `back()`
on an empty vector, `inr` ends the search. -/
def nearestStep (n : Nat) (boxDist dist : T → K) (e : T) (l : List (K × T)) :
    Option (List (K × T) ⊕ List (K × T)) :=
  if l.length ≥ n then
    match l.getLast? with
    | none => none
    | some b => if b.1 < boxDist e then some (.inr l) else some (.inl (insert n (dist e) e l))
  else some (.inl (insert n (dist e) e l))

/-- nearestUntilImpl (LaneletMap.cpp 184-195) with the search function of findNearestImpl; `order` is the sequence in
which the tree yields its entries. -/
def findNearestLoop (n : Nat) (boxDist dist : T → K) : List T → List (K × T) → Option (List (K × T))
  | [], l => some l
  | e :: es, l =>
    match nearestStep n boxDist dist e l with
    | none => none
    | some (.inr l) => some l
    | some (.inl l) => findNearestLoop n boxDist dist es l

/-- findNearestImpl, LaneletMap.cpp 965-983. -/
def findNearest (n : Nat) (boxDist dist : T → K) (order : List T) : Option (List (K × T)) :=
  findNearestLoop n boxDist dist order []

/-! ### Specification -/

/-- `r` are `n` nearest elements among `all`: they are all different entries of `all` with their distances,
ascending, as many as possible, and every other entry is at least as far away. Specification. -/
structure IsNearest (n : Nat) (dist : T → K) (all : List T) (r : List (K × T)) : Prop where
  ascending : r.Pairwise fun a b => a.1 ≤ b.1
  measure : ∀ x ∈ r, x.1 = dist x.2
  length : r.length = min n all.length
  rest : ∃ rest : List T, List.Perm all (r.map (·.2) ++ rest) ∧ ∀ x ∈ r, ∀ y ∈ rest, x.1 ≤ dist y

/-! ### Proof -/

theorem lowerBound_le (m : K) (l : List (K × T)) : lowerBound m l ≤ l.length := (List.takeWhile_sublist _).length_le

theorem take_lowerBound (m : K) (l : List (K × T)) : ∀ x ∈ l.take (lowerBound m l), x.1 < m := by
  induction l with
  | nil => simp [lowerBound]
  | cons a l ih =>
    unfold lowerBound at *
    rw [List.takeWhile_cons]
    by_cases h : a.1 < m
    · simp only [h, decide_true, if_true, List.length_cons, List.take_succ_cons, List.mem_cons]
      rintro x (rfl | hx)
      · exact h
      · exact ih x hx
    · simp [h]

theorem drop_lowerBound (m : K) (l : List (K × T)) (hs : l.Pairwise fun a b => a.1 ≤ b.1) :
    ∀ x ∈ l.drop (lowerBound m l), m ≤ x.1 := by
  induction l with
  | nil => simp
  | cons a l ih =>
    unfold lowerBound at *
    rw [List.takeWhile_cons]
    rw [List.pairwise_cons] at hs
    by_cases h : a.1 < m
    · simp only [h, decide_true, if_true, List.length_cons, List.drop_succ_cons]
      exact ih hs.2
    · simp only [h, decide_false, Bool.false_eq_true, if_false, List.length_nil, List.drop_zero, List.mem_cons]
      rintro x (rfl | hx)
      · exact not_lt.mp h
      · exact le_trans (not_lt.mp h) (hs.1 x hx)

/-- Invariant of the loop after the entries `done`. Helper of the proofs. -/
structure Inv (n : Nat) (dist : T → K) (done : List T) (l : List (K × T)) : Prop where
  ascending : l.Pairwise fun a b => a.1 ≤ b.1
  measure : ∀ x ∈ l, x.1 = dist x.2
  length : l.length = min n done.length
  rest : ∃ rest : List T, List.Perm done (l.map (·.2) ++ rest) ∧ ∀ x ∈ l, ∀ y ∈ rest, x.1 ≤ dist y

theorem insert_inv {n : Nat} {dist : T → K} {done : List T} {l : List (K × T)} (hn : 1 ≤ n) (e : T)
    (h : Inv n dist done l) : Inv n dist (done ++ [e]) (insert n (dist e) e l) := by
  obtain ⟨rest, hp, hr⟩ := h.rest
  unfold insert
  have hle := lowerBound_le (dist e) l
  have ht := take_lowerBound (dist e) l
  have hd := drop_lowerBound (dist e) l h.ascending
  generalize hpos : lowerBound (dist e) l = pos at *
  simp only
  split
  · rename_i hc
    have hins : ∀ l' : List (K × T), l'.Pairwise (fun a b => a.1 ≤ b.1) → (∀ x ∈ l'.take pos, x.1 < dist e) →
        (∀ x ∈ l'.drop pos, dist e ≤ x.1) → (l'.take pos ++ (dist e, e) :: l'.drop pos).Pairwise fun a b => a.1 ≤ b.1 := by
      intro l' h1 h2 h3
      have h4 : (l'.take pos ++ l'.drop pos).Pairwise fun a b => a.1 ≤ b.1 := by rw [List.take_append_drop]; exact h1
      rw [List.pairwise_append] at h4 ⊢
      obtain ⟨p1, p2, p3⟩ := h4
      refine ⟨p1, List.pairwise_cons.mpr ⟨h3, p2⟩, ?_⟩
      intro a ha b hb
      rcases List.mem_cons.mp hb with rfl | hb
      · exact le_of_lt (h2 a ha)
      · exact p3 a ha b hb
    have hperm : ∀ l' : List (K × T),
        List.Perm (l'.take pos ++ (dist e, e) :: l'.drop pos) ((dist e, e) :: l') := by
      intro l'
      have := List.perm_middle (a := (dist e, e)) (l₁ := l'.take pos) (l₂ := l'.drop pos)
      rwa [List.take_append_drop] at this
    by_cases hfull : l.length ≥ n
    · rw [if_pos hfull]
      have hlt : pos < l.length := by omega
      have hne : l ≠ [] := by rintro rfl; simp at hlt
      have hsplit := List.dropLast_concat_getLast hne
      generalize hL : l.dropLast = l' at *
      generalize hb : l.getLast hne = b at *
      have hl'len : l'.length = l.length - 1 := by rw [← hL, List.length_dropLast]
      have hbl : ∀ x ∈ l', x.1 ≤ b.1 := by
        have := h.ascending
        rw [← hsplit, List.pairwise_append] at this
        intro x hx
        exact this.2.2 x hx b (by simp)
      have hbe : dist e ≤ b.1 := by
        apply hd
        rw [← hsplit, List.drop_append_of_le_length (by omega)]
        simp
      have hp' := hperm l'
      refine ⟨hins l' ?_ ?_ ?_, ?_, ?_, ⟨b.2 :: rest, ?_, ?_⟩⟩
      · have := h.ascending
        rw [← hsplit, List.pairwise_append] at this
        exact this.1
      · intro x hx
        apply ht
        rw [← hsplit, List.take_append_of_le_length (by omega)]
        exact hx
      · intro x hx
        apply hd
        rw [← hsplit, List.drop_append_of_le_length (by omega)]
        simp [hx]
      · intro x hx
        rcases List.mem_cons.mp (hp'.mem_iff.mp hx) with rfl | hx
        · rfl
        · exact h.measure x (by rw [← hsplit]; simp [hx])
      · rw [hp'.length_eq]
        have := h.length
        simp only [List.length_cons, List.length_append, List.length_nil]
        omega
      · have h1 : List.Perm (done ++ [e]) (e :: done) := by
          have := List.perm_append_comm (l₁ := done) (l₂ := [e]); simpa using this
        refine h1.trans ?_
        refine (List.Perm.cons e hp).trans ?_
        have h2 : List.Perm ((l'.take pos ++ (dist e, e) :: l'.drop pos).map (·.2) ++ b.2 :: rest)
            (((dist e, e) :: l').map (·.2) ++ b.2 :: rest) := (hp'.map _).append_right _
        refine List.Perm.trans ?_ h2.symm
        rw [← hsplit]
        simp
      · intro x hx y hy
        have hx' := hp'.mem_iff.mp hx
        rcases List.mem_cons.mp hy with rfl | hy
        · rw [← h.measure b (by rw [← hsplit]; simp)]
          rcases List.mem_cons.mp hx' with rfl | hx'
          · exact hbe
          · exact hbl x hx'
        · have hb1 := hr b (by rw [← hsplit]; simp) y hy
          rcases List.mem_cons.mp hx' with rfl | hx'
          · exact le_trans hbe hb1
          · exact hr x (by rw [← hsplit]; simp [hx']) y hy
    · rw [if_neg hfull]
      have hp' := hperm l
      have hrest : rest = [] := by
        have h1 := hp.length_eq
        have h2 := h.length
        simp only [List.length_append, List.length_map] at h1
        have : rest.length = 0 := by omega
        exact List.eq_nil_of_length_eq_zero this
      refine ⟨hins l h.ascending ht hd, ?_, ?_, ⟨[], ?_, by simp⟩⟩
      · intro x hx
        rcases List.mem_cons.mp (hp'.mem_iff.mp hx) with rfl | hx
        · rfl
        · exact h.measure x hx
      · rw [hp'.length_eq]
        have := h.length
        simp only [List.length_cons, List.length_append, List.length_nil]
        omega
      · have h1 : List.Perm (done ++ [e]) (e :: done) := by
          have := List.perm_append_comm (l₁ := done) (l₂ := [e]); simpa using this
        refine h1.trans ?_
        refine (List.Perm.cons e hp).trans ?_
        have h2 := (hp'.map (·.2)).append_right ([] : List T)
        refine List.Perm.trans ?_ h2.symm
        rw [hrest]
        simp
  · rename_i hc
    have hc1 : pos = l.length := by
      by_contra h1; exact hc (Or.inl h1)
    have hc2 : n ≤ l.length := by
      by_contra h1; exact hc (Or.inr (by omega))
    refine ⟨h.ascending, h.measure, ?_, ⟨rest ++ [e], ?_, ?_⟩⟩
    · have := h.length
      simp only [List.length_append, List.length_cons, List.length_nil]
      omega
    · rw [← List.append_assoc]
      exact hp.append_right _
    · intro x hx y hy
      rcases List.mem_append.mp hy with hy | hy
      · exact hr x hx y hy
      · rw [List.mem_singleton] at hy; subst hy
        apply le_of_lt
        apply ht
        rw [hc1, List.take_length]; exact hx

/-- C06: for `n ≥ 1`, `findNearest` returns the `n` nearest elements, whatever the tree looks like: the only
assumptions are that the tree yields its entries by ascending box distance and that the distance to the bounding
box is never larger than the distance to the element. In particular, stopping early loses nothing. -/
theorem findNearest_spec (n : Nat) (hn : 1 ≤ n) (boxDist dist : T → K)
    (tree order : List T) (hbox : ∀ e ∈ tree, boxDist e ≤ dist e) (hperm : List.Perm order tree) (hsorted : order.Pairwise fun a b => boxDist a ≤ boxDist b) :
    ∃ r, findNearest n boxDist dist order = some r ∧ IsNearest n dist tree r := by
  have main : ∀ (es done : List T) (l : List (K × T)), Inv n dist done l →
      es.Pairwise (fun a b => boxDist a ≤ boxDist b) → (∀ e ∈ es, boxDist e ≤ dist e) →
      ∃ r, findNearestLoop n boxDist dist es l = some r ∧ Inv n dist (done ++ es) r := by
    intro es
    induction es with
    | nil => intro done l h _ _; exact ⟨l, rfl, by simpa using h⟩
    | cons e es ih =>
      intro done l h hs hbox
      rw [List.pairwise_cons] at hs
      have hgo := ih (done ++ [e]) _ (insert_inv hn e h) hs.2 fun y hy => hbox y (by simp [hy])
      rw [List.append_assoc, List.singleton_append] at hgo
      rw [findNearestLoop]
      unfold nearestStep
      by_cases hfull : l.length ≥ n
      · rw [if_pos hfull]
        cases hlast : l.getLast? with
        | none =>
          rw [List.getLast?_eq_none_iff] at hlast
          subst hlast
          simp at hfull
          omega
        | some b =>
          simp only
          by_cases hstop : b.1 < boxDist e
          · rw [if_pos hstop]
            obtain ⟨rest, hp, hr⟩ := h.rest
            refine ⟨l, rfl, h.ascending, h.measure, ?_, ⟨rest ++ (e :: es), ?_, ?_⟩⟩
            · have := h.length
              simp only [List.length_append, List.length_cons]
              omega
            · rw [← List.append_assoc]; exact hp.append_right _
            · have hbl : ∀ x ∈ l, x.1 ≤ b.1 := by
                have hne : l ≠ [] := by rintro rfl; simp at hlast
                have hb : l.getLast hne = b := by
                  rw [List.getLast?_eq_some_getLast hne] at hlast; exact Option.some.inj hlast
                have hsplit := List.dropLast_concat_getLast hne
                have ha := h.ascending
                rw [← hsplit, List.pairwise_append, hb] at ha
                intro x hx
                rw [← hsplit, hb] at hx
                rcases List.mem_append.mp hx with hx | hx
                · exact ha.2.2 x hx b (by simp)
                · rw [List.mem_singleton] at hx; rw [hx]
              intro x hx y hy
              rcases List.mem_append.mp hy with hy | hy
              · exact hr x hx y hy
              · have h1 : boxDist e ≤ boxDist y := by
                  rcases List.mem_cons.mp hy with rfl | hy
                  · exact le_refl _
                  · exact hs.1 y hy
                exact le_trans (hbl x hx) (le_trans (le_of_lt hstop) (le_trans h1 (hbox y hy)))
          · rw [if_neg hstop]; exact hgo
      · rw [if_neg hfull]; exact hgo
  obtain ⟨r, h1, h2⟩ := main order [] [] ⟨by simp, by simp, by simp, [], by simp, by simp⟩ hsorted
    fun e he => hbox e (hperm.mem_iff.1 he)
  refine ⟨r, h1, h2.ascending, h2.measure, ?_, ?_⟩
  · rw [h2.length, List.nil_append, hperm.length_eq]
  · obtain ⟨rest, hp, hr⟩ := h2.rest
    exact ⟨rest, hperm.symm.trans (by simpa using hp), hr⟩

/-- Disagreement: `findNearest(layer, p, 0)` is undefined on every nonempty layer (`back()` of an empty vector). -/
theorem findNearest_zero_counterexample (boxDist dist : T → K) (e : T) (es : List T) :
    findNearest 0 boxDist dist (e :: es) = none := by
  simp [findNearest, findNearestLoop, nearestStep]

/-! ### Geometry: the bounding box assumption -/

section geometry
variable {F : Type} [Field F] [LinearOrder F] [IsStrictOrderedRing F]

/-- Axis aligned box, BoundingBox.h. -/
structure Box (F : Type) where
  xmin : F
  ymin : F
  xmax : F
  ymax : F

/-- A point set in the plane, e.g. all points of a lanelet. Specification. -/
abbrev Shape (F : Type) := F × F → Prop

/-- Specification: a point of a box (with its border). -/
def Box.Contains (b : Box F) (p : F × F) : Prop := b.xmin ≤ p.1 ∧ p.1 ≤ b.xmax ∧ b.ymin ≤ p.2 ∧ p.2 ≤ b.ymax

/-- The box encloses the shape, as boundingBox2d of the primitive does. Specification. -/
def Box.Encloses (b : Box F) (s : Shape F) : Prop := ∀ p, s p → b.Contains p

/-- `bgi::intersects` for boxes: closed boxes have a common point. LaneletMap.cpp 176 -/
def Box.intersects (a b : Box F) : Bool :=
  decide (a.xmin ≤ b.xmax) && decide (b.xmin ≤ a.xmax) && decide (a.ymin ≤ b.ymax) && decide (b.ymin ≤ a.ymax)

/-- `boost::geometry::buffer` of a box. geometry/impl/LaneletMap.h 21-23, 43-45 (findWithin) -/
def Box.buffer (b : Box F) (d : F) : Box F := ⟨b.xmin - d, b.ymin - d, b.xmax + d, b.ymax + d⟩

/-- The squared distance of two points (geometry/Point.h 63-79). -/
def distSq (p q : F × F) : F := (p.1 - q.1) * (p.1 - q.1) + (p.2 - q.2) * (p.2 - q.2)

/-- Distance of a coordinate to an interval: Eigen AlignedBox::squaredExteriorDistance. BoundingBox.h 227-230 -/
def axisDist (lo hi x : F) : F := if x < lo then lo - x else if hi < x then x - hi else 0

/-- Eigen AlignedBox::squaredExteriorDistance, BoundingBox.h 227-230: the squared distance of a point and a box. -/
def Box.distSq (b : Box F) (p : F × F) : F :=
  axisDist b.xmin b.xmax p.1 * axisDist b.xmin b.xmax p.1 + axisDist b.ymin b.ymax p.2 * axisDist b.ymin b.ymax p.2

/-- `d` is the squared distance of point and shape. Specification. -/
def IsDistSq (p : F × F) (s : Shape F) (d : F) : Prop :=
  (∃ q, s q ∧ distSq p q = d) ∧ ∀ q, s q → d ≤ distSq p q

theorem axisDist_sq_le (lo hi x y : F) (h1 : lo ≤ y) (h2 : y ≤ hi) :
    axisDist lo hi x * axisDist lo hi x ≤ (x - y) * (x - y) := by
  unfold axisDist
  split
  · rename_i h
    have a : 0 ≤ lo - x := by linarith
    have b : lo - x ≤ y - x := by linarith
    have := mul_self_le_mul_self a b
    have e : (x - y) * (x - y) = (y - x) * (y - x) := by ring
    rw [e]; exact this
  · split
    · rename_i h _
      have a : 0 ≤ x - hi := by linarith
      have b : x - hi ≤ x - y := by linarith
      exact mul_self_le_mul_self a b
    · simp only [mul_zero]; exact mul_self_nonneg _

/-- The assumption of `findNearest_spec` holds for every bounding box that encloses its shape. -/
theorem box_dist_le {b : Box F} {s : Shape F} (h : b.Encloses s) {p : F × F} {d : F} (hd : IsDistSq p s d) :
    b.distSq p ≤ d := by
  obtain ⟨⟨q, hq, rfl⟩, -⟩ := hd
  obtain ⟨h1, h2, h3, h4⟩ := h q hq
  exact add_le_add (axisDist_sq_le _ _ _ _ h1 h2) (axisDist_sq_le _ _ _ _ h3 h4)

/-- C06 for shapes in the plane (measured with squared distances, which have the same order). -/
theorem findNearest_shapes (n : Nat) (hn : 1 ≤ n) (p : F × F) (shape : T → Shape F) (box : T → Box F) (dist : T → F)
    (hbox : ∀ e, (box e).Encloses (shape e)) (hdist : ∀ e, IsDistSq p (shape e) (dist e))
    (tree order : List T) (hperm : List.Perm order tree)
    (hsorted : order.Pairwise fun a b => (box a).distSq p ≤ (box b).distSq p) :
    ∃ r, findNearest n (fun e => (box e).distSq p) dist order = some r ∧ IsNearest n dist tree r :=
  findNearest_spec n hn _ _ tree order (fun e _ => box_dist_le (hbox e) (hdist e)) hperm hsorted

/-! ### findWithin -/

/-- findWithin2d, findWithin3d: impl/LaneletMap.h 13-57. `search` is what `layer.search` returns for a box (every
entry whose box intersects it, in some order); `sort` is `std::sort`; `dist` is the distance between the
geometry and the element. -/
def findWithin (search : Box F → List T) (sort : List (F × T) → List (F × T)) (gbox : Box F) (dist : T → F)
    (maxDist : F) : List (F × T) :=
  let b := if 0 < maxDist then gbox.buffer maxDist else gbox
  sort (((search b).map fun e => (dist e, e)).filter fun v => decide (v.1 ≤ maxDist))

/-- `d` is the distance between two shapes; `dz` is the distance in the third dimension (0 for findWithin2d). -/
def IsDist (a b : Shape F) (d : F) : Prop := 0 ≤ d ∧ ∃ p q, a p ∧ b q ∧ distSq p q ≤ d * d

theorem abs_le_of_distSq {x y u v d : F} (hd : 0 ≤ d) (h : distSq (x, y) (u, v) ≤ d * d) :
    x - u ≤ d ∧ u - x ≤ d ∧ y - v ≤ d ∧ v - y ≤ d := by
  unfold distSq at h
  simp only at h
  have h1 := mul_self_nonneg (x - u)
  have h2 := mul_self_nonneg (y - v)
  have ax : |x - u| ≤ d := by
    rw [← abs_of_nonneg hd]
    exact abs_le_abs_of_mul_self_le (by linarith)
  have ay : |y - v| ≤ d := by
    rw [← abs_of_nonneg hd]
    exact abs_le_abs_of_mul_self_le (by linarith)
  rw [abs_le] at ax ay
  refine ⟨ax.2, by linarith [ax.1], ay.2, by linarith [ay.1]⟩
where
  abs_le_abs_of_mul_self_le {a b : F} (h : a * a ≤ b * b) : |a| ≤ |b| := abs_le_abs_iff_mul_self_le.mpr h
  abs_le_abs_iff_mul_self_le {a b : F} : |a| ≤ |b| ↔ a * a ≤ b * b := by
    constructor
    · intro h
      have := mul_self_le_mul_self (abs_nonneg a) h
      rwa [abs_mul_abs_self, abs_mul_abs_self] at this
    · intro h
      by_contra hc
      have hc := not_le.mp hc
      have := mul_self_lt_mul_self (abs_nonneg b) hc
      rw [abs_mul_abs_self, abs_mul_abs_self] at this
      exact absurd h (not_le.mpr this)

/-- C07: the result of findWithin are exactly the elements of the layer with a distance of at most `maxDist`, each
with its distance, ascending. For a negative `maxDist` it is empty. -/
theorem findWithin_spec (tree : List T) (shape : T → Shape F) (box : T → Box F)
    (hbox : ∀ e, (box e).Encloses (shape e)) (search : Box F → List T)
    (hsearch : ∀ b, List.Perm (search b) (tree.filter fun e => b.intersects (box e)))
    (sort : List (F × T) → List (F × T)) (hsort : ∀ l, List.Perm (sort l) l ∧ (sort l).Pairwise fun a b => a.1 ≤ b.1)
    (geo : Shape F) (gbox : Box F) (hg : gbox.Encloses geo) (dist : T → F)
    (hdist : ∀ e, IsDist geo (shape e) (dist e)) (maxDist : F) :
    let r := findWithin search sort gbox dist maxDist
    r.Pairwise (fun a b => a.1 ≤ b.1) ∧
    List.Perm r ((tree.filter fun e => decide (dist e ≤ maxDist)).map fun e => (dist e, e)) := by
  refine ⟨(hsort _).2, ?_⟩
  unfold findWithin
  simp only
  refine (hsort _).1.trans ?_
  generalize hb : (if 0 < maxDist then gbox.buffer maxDist else gbox) = b
  refine (((hsearch b).map _).filter _).trans ?_
  rw [List.filter_map, List.filter_filter]
  have : tree.filter (fun a => ((fun v : F × T => decide (v.1 ≤ maxDist)) ∘ fun e => (dist e, e)) a && b.intersects (box a)) =
      tree.filter fun e => decide (dist e ≤ maxDist) := by
    apply List.filter_congr
    intro e _
    simp only [Function.comp]
    by_cases hd : dist e ≤ maxDist
    · simp only [hd, decide_true, Bool.true_and]
      obtain ⟨h0, ⟨px, py⟩, ⟨qx, qy⟩, hp, hq, hpq⟩ := hdist e
      obtain ⟨a1, a2, a3, a4⟩ := abs_le_of_distSq h0 hpq
      obtain ⟨b1, b2, b3, b4⟩ := hg _ hp
      obtain ⟨c1, c2, c3, c4⟩ := hbox e _ hq
      simp only at b1 b2 b3 b4 c1 c2 c3 c4
      unfold Box.intersects
      simp only [Bool.and_eq_true, decide_eq_true_eq]
      rw [← hb]
      split
      · simp only [Box.buffer]
        refine ⟨⟨⟨?_, ?_⟩, ?_⟩, ?_⟩ <;> linarith
      · refine ⟨⟨⟨?_, ?_⟩, ?_⟩, ?_⟩ <;> linarith
    · simp [hd]
  rw [this]

/-- C07: a negative distance finds nothing. -/
theorem findWithin_negative (tree : List T) (shape : T → Shape F) (box : T → Box F)
    (hbox : ∀ e, (box e).Encloses (shape e)) (search : Box F → List T)
    (hsearch : ∀ b, List.Perm (search b) (tree.filter fun e => b.intersects (box e)))
    (sort : List (F × T) → List (F × T)) (hsort : ∀ l, List.Perm (sort l) l ∧ (sort l).Pairwise fun a b => a.1 ≤ b.1)
    (geo : Shape F) (gbox : Box F) (hg : gbox.Encloses geo) (dist : T → F)
    (hdist : ∀ e, IsDist geo (shape e) (dist e)) (maxDist : F) (hneg : maxDist < 0) :
    findWithin search sort gbox dist maxDist = [] := by
  have := (findWithin_spec tree shape box hbox search hsearch sort hsort geo gbox hg dist hdist maxDist).2
  have h2 : tree.filter (fun e => decide (dist e ≤ maxDist)) = [] := by
    rw [List.filter_eq_nil_iff]
    intro e _
    have := (hdist e).1
    simp only [decide_eq_true_eq, not_le]
    linarith
  rw [h2, List.map_nil] at this
  exact this.eq_nil

end geometry

/-! ### nearestUntil and searchUntil -/

/-- nearestUntilImpl and findUntilImpl, LaneletMap.cpp 171-195: `std::find_if` over the query. -/
def until_ (func : T → Bool) (order : List T) : Option T := order.find? func

/-- The result is the first element in query order that the function accepts; it is accepted, everything
before is rejected; nothing is returned only if all are rejected. -/
theorem until_spec (func : T → Bool) (order : List T) :
    (∀ x, until_ func order = some x ↔ func x = true ∧ ∃ pre post, order = pre ++ x :: post ∧
      ∀ y ∈ pre, func y = false) ∧
    (until_ func order = none ↔ ∀ y ∈ order, func y = false) := by
  constructor
  · intro x
    unfold until_
    rw [List.find?_eq_some_iff_append]
    simp
  · simp [until_]

/-- C06: nearestUntil with an accepting function that does not depend on the distance yields the element with the
smallest box distance among the accepted. -/
theorem nearestUntil_min (func : T → Bool) (boxDist : T → K) (order : List T)
    (hs : order.Pairwise fun a b => boxDist a ≤ boxDist b) (x : T) (h : until_ func order = some x) :
    func x = true ∧ x ∈ order ∧ ∀ y ∈ order, func y = true → boxDist x ≤ boxDist y := by
  obtain ⟨h1, pre, post, rfl, h2⟩ := ((until_spec func order).1 x).mp h
  refine ⟨h1, by simp, ?_⟩
  intro y hy hf
  rw [List.pairwise_append, List.pairwise_cons] at hs
  rcases List.mem_append.mp hy with hy | hy
  · rw [h2 y hy] at hf; cases hf
  · rcases List.mem_cons.mp hy with rfl | hy
    · exact le_refl _
    · exact hs.2.1.1 y hy

/-! ### Cases -/

/-- A case where the order of the boxes differs from the order of the distances and the search stops before the
last entry. -/
example : findNearest 2 (fun e : Nat => [0, 1, 2, 9].getD e 0) (fun e => [5, 1, 3, 9].getD e 0) [0, 1, 2, 3] =
    some [(1, 1), (3, 2)] := by decide

example : ∃ r, findNearest 2 (fun e : Nat => [0, 1, 2, 9].getD e 0) (fun e => [5, 1, 3, 9].getD e 9) [0, 1, 2, 3] = some r ∧
    IsNearest 2 (fun e => [5, 1, 3, 9].getD e 9) [3, 1, 2, 0] r := by
  apply findNearest_spec
  · omega
  · intro e
    match e with
    | 0 => decide
    | 1 => decide
    | 2 => decide
    | 3 => decide
    | n + 4 => simp
  · decide
  · decide

/-- A case for `findWithin_spec`: points on a line, one of which is within the distance. -/
example : let sort : List (Rat × Nat) → List (Rat × Nat) := fun l => l.mergeSort fun a b => decide (a.1 ≤ b.1)
    let box : Nat → Box Rat := fun n => ⟨n, 0, n, 0⟩
    findWithin (fun b => [0, 3, 7].filter fun e => b.intersects (box e)) sort ⟨2, 0, 2, 0⟩
      (fun n : Nat => |(n : Rat) - 2|) (3/2) = [(1, 3)] := by
  decide +kernel

end Verif.Nearest
