import Verif.LMap.Nearest

/-!
Property C104: `PrimitiveLayer::nearest`, lanelet2_core/src/LaneletMap.cpp 526-538.

The r-tree is the list of its entries, as in Verif.LMap.Nearest. What boost's query for the n nearest values gives is described by `Query`: boost
does not promise an order.
-/
namespace Verif.Nearest

/-! ### Model -/

variable {K : Type} [LinearOrder K] {T : Type}

/-- getSecond, LaneletMap.cpp 103-109: the elements of the nodes of the tree, which are pairs of a box and an element -/
def getSecond {B : Type} (nodes : List (B × T)) : List T := nodes.map (·.2)

/-- PrimitiveLayer::nearest, LaneletMap.cpp 526-538; `query n` is what the tree writes for bgi::nearest(point, n) -/
def layerNearest {B : Type} (query : Nat → List (B × T)) (n : Nat) : List T := getSecond (query n)

/-! ### Specification -/

/-- Specification. Boost's query for the n nearest nodes of a tree, whose boxes have these distances to the point: as many different nodes as asked
for or as there are, and none that is left out is nearer. -/
structure Query {B : Type} (boxDist : B → K) (nodes : List (B × T)) (query : Nat → List (B × T)) : Prop where
  split : ∀ n, ∃ rest, (query n ++ rest).Perm nodes ∧ (query n).length = min n nodes.length ∧ ∀ a ∈ query n, ∀ b ∈ rest, boxDist a.1 ≤ boxDist b.1

/-- Specification. The elements of `all` split into those that are returned and the others. -/
def Split (all returned others : List T) : Prop := (returned ++ others).Perm all

/-! ### Proofs -/

variable {B : Type}

/-- C104. nearest gives the number of elements asked for, or all; each element of the tree at most once; none of the others has a box that is
nearer, and none of them is nearer than any box of the result. -/
theorem layerNearest_spec (boxDist : B → K) (box : T → B) (dist : T → K) (hb : ∀ e, boxDist (box e) ≤ dist e) (tree : List T)
    (query : Nat → List (B × T)) (hq : Query boxDist (tree.map fun e => (box e, e)) query) (n : Nat) :
    (layerNearest query n).length = min n tree.length ∧
    ∃ others, Split tree (layerNearest query n) others ∧
      ∀ x ∈ layerNearest query n, ∀ y ∈ others, boxDist (box x) ≤ boxDist (box y) ∧ boxDist (box x) ≤ dist y := by
  obtain ⟨rest, h1, h2, h3⟩ := hq.split n
  have hbox : ∀ a ∈ query n ++ rest, a.1 = box a.2 := by
    intro a ha
    obtain ⟨e, -, rfl⟩ := List.mem_map.1 (h1.mem_iff.1 ha)
    rfl
  refine ⟨by simpa [layerNearest, getSecond] using h2, rest.map (·.2), ?_, ?_⟩
  · have := h1.map (·.2)
    simpa [Split, layerNearest, getSecond, Function.comp_def] using this
  · intro x hx y hy
    obtain ⟨a, ha, rfl⟩ := List.mem_map.1 hx
    obtain ⟨b, hb', rfl⟩ := List.mem_map.1 hy
    have h := h3 a ha b hb'
    rw [hbox a (by simp [ha]), hbox b (by simp [hb'])] at h
    exact ⟨h, h.trans (hb _)⟩

/-- C104. For points, whose box is the point, they are the nearest ones. -/
theorem layerNearest_points (boxDist : B → K) (box : T → B) (dist : T → K) (hp : ∀ e, boxDist (box e) = dist e) (tree : List T)
    (query : Nat → List (B × T)) (hq : Query boxDist (tree.map fun e => (box e, e)) query) (n : Nat) :
    (layerNearest query n).length = min n tree.length ∧
    ∃ others, Split tree (layerNearest query n) others ∧ ∀ x ∈ layerNearest query n, ∀ y ∈ others, dist x ≤ dist y := by
  obtain ⟨h1, others, h2, h3⟩ := layerNearest_spec boxDist box dist (fun e => (hp e).le) tree query hq n
  exact ⟨h1, others, h2, fun x hx y hy => by have := (h3 x hx y hy).1; rwa [hp, hp] at this⟩

/-- C104. If some element of the result is not farther away than all boxes of the others, in particular not farther than the farthest box of the
result, the nearest element of the layer is in the result. -/
theorem layerNearest_enough (boxDist : B → K) (box : T → B) (dist : T → K) (hb : ∀ e, boxDist (box e) ≤ dist e) (tree : List T)
    (query : Nat → List (B × T)) (hq : Query boxDist (tree.map fun e => (box e, e)) query) (n : Nat) (x far : T)
    (hx : x ∈ layerNearest query n) (hf : far ∈ layerNearest query n) (h : dist x ≤ boxDist (box far)) :
    ∃ z ∈ layerNearest query n, ∀ y ∈ tree, dist z ≤ dist y := by
  obtain ⟨-, others, h2, h3⟩ := layerNearest_spec boxDist box dist hb tree query hq n
  have least : ∀ l : List T, x ∈ l → ∃ z ∈ l, ∀ y ∈ l, dist z ≤ dist y := by
    intro l hl
    obtain ⟨z, hz, hmin⟩ := exists_least l (List.ne_nil_of_mem hl)
    exact ⟨z, hz, hmin⟩
  obtain ⟨z, hz, hmin⟩ := least _ hx
  refine ⟨z, hz, fun y hy => ?_⟩
  rcases List.mem_append.1 (h2.mem_iff.2 hy) with hy | hy
  · exact hmin y hy
  · exact (hmin x hx).trans (h.trans (h3 far hf y hy).2)
where
  exists_least (l : List T) (hl : l ≠ []) : ∃ z ∈ l, ∀ y ∈ l, dist z ≤ dist y := by
    induction l with
    | nil => exact absurd rfl hl
    | cons a l ih =>
      by_cases hn : l = []
      · subst hn
        exact ⟨a, by simp, by simp⟩
      · obtain ⟨z, hz, hmin⟩ := ih hn
        rcases le_total (dist a) (dist z) with h | h
        · exact ⟨a, by simp, fun y hy => by
            rcases List.mem_cons.1 hy with rfl | hy
            · exact le_rfl
            · exact h.trans (hmin y hy)⟩
        · exact ⟨z, by simp [hz], fun y hy => by
            rcases List.mem_cons.1 hy with rfl | hy
            · exact h
            · exact hmin y hy⟩

/-- Helper of the proofs. The distance of the squared kind between a point and a box of rationals. -/
def sqBox (p : Rat × Rat) (b : (Rat × Rat) × (Rat × Rat)) : Rat :=
  let d (x lo hi : Rat) : Rat := if x < lo then lo - x else if hi < x then x - hi else 0
  d p.1 b.1.1 b.2.1 * d p.1 b.1.1 b.2.1 + d p.2 b.1.2 b.2.2 * d p.2 b.1.2 b.2.2

/-- C104. As documented, other elements than points need not be the nearest. Asked for one element at the point (0, 0), nearest gives a line along two sides of a square, from (-8, 1) by (-8, -8) to
(1, -8), whose points are all eight metres away, instead of a point at (1, 0): whatever the tree does, since the box of the line has the
point inside. Distances are squared. -/
theorem layerNearest_not_exact (query : Nat → List (((Rat × Rat) × (Rat × Rat)) × Bool))
    (hq : Query (sqBox (0, 0)) ([true, false].map fun e => (bif e then ((-8, -8), (1, 1)) else ((1, 0), (1, 0)), e)) query) :
    layerNearest query 1 = [true] ∧
    (∀ t : Rat, 0 ≤ t → t ≤ 9 → 64 ≤ (-8) * (-8) + (1 - t) * (1 - t) ∧ 64 ≤ (-8 + t) * (-8 + t) + (-8) * (-8)) := by
  refine ⟨?_, fun t _ _ => ⟨by nlinarith [mul_self_nonneg (1 - t)], by nlinarith [mul_self_nonneg (-8 + t)]⟩⟩
  obtain ⟨h1, others, h2, h3⟩ := layerNearest_spec (sqBox (0, 0)) (fun e => bif e then ((-8, -8), (1, 1)) else ((1, 0), (1, 0)))
    (fun e : Bool => sqBox (0, 0) (bif e then ((-8, -8), (1, 1)) else ((1, 0), (1, 0)))) (fun _ => le_rfl) [true, false] query hq 1
  have h1' : (layerNearest query 1).length = 1 := h1
  obtain ⟨x, hx⟩ := List.length_eq_one_iff.1 h1'
  rw [hx] at h2 h3 ⊢
  cases x with
  | true => rfl
  | false =>
    have ht : true ∈ others := by
      have : true ∈ [false] ++ others := h2.mem_iff.2 (by simp)
      simpa using this
    have := (h3 false (by simp) true ht).1
    exact absurd this (by decide +kernel)

/-! ### Examples -/

/-- Example. A query that answers in descending order. -/
theorem query_exists : Query (K := Int) (fun b => b) ([4, 1, 7].map fun e : Int => (e, e)) fun n => (([(1, 1), (4, 4), (7, 7)] : List (Int × Int)).take n).reverse := by
  refine ⟨fun n => ⟨([(1, 1), (4, 4), (7, 7)] : List (Int × Int)).drop n, ?_, by simp, ?_⟩⟩
  · have h : (([(1, 1), (4, 4), (7, 7)] : List (Int × Int)).take n ++ ([(1, 1), (4, 4), (7, 7)] : List (Int × Int)).drop n).Perm
        ([4, 1, 7].map fun e : Int => (e, e)) := by
      rw [List.take_append_drop]
      decide
    exact ((List.reverse_perm _).append_right _).trans h
  · match n with
    | 0 => simp
    | 1 => decide
    | 2 => decide
    | n + 3 => simp

example : layerNearest (fun n => (([(1, 1), (4, 4), (7, 7)] : List (Int × Int)).take n).reverse) 2 = [4, 1] := by decide

end Verif.Nearest
