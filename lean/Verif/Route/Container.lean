import Verif.Debug.Props
import Verif.Lanelet.Border
import Mathlib.Algebra.Order.Ring.Int

/-!
Model of queries over several routing graphs, and C71: the conflicts it reports.

Sources: lanelet2_routing/include/lanelet2_routing/RoutingGraphContainer.h 40-100, lanelet2_core/include/lanelet2_core/geometry/impl/Lanelet.h 63-90, 119-126,
         lanelet2_routing/src/RouteBuilder.cpp 411-424, lanelet2_core/src/LaneletMap.cpp 75-80, 924-933.

Bounding boxes, the test for common points of the insides of two lanelets and the difference in height between two lanelets are parameters.
-/
namespace Verif.Container
open Verif.Lanelet Verif.Debug

variable {P F : Type} [DecidableEq P] [LinearOrder F] [Zero F]

/-- what the geometry of lanelets says: whether their bounding boxes intersect, whether their insides have a common point, and the difference in height between
the closest points of their centerlines -/
structure Shape (F : Type) where
  boxes : LH → LH → Bool
  relate : LH → LH → Bool
  gap : LH → LH → F

/-- overlaps3d, impl/Lanelet.h 119-126 -/
def overlaps3d (w : World P) (s : Shape F) (a b : LH) (height : F) : Bool := overlaps2d w s.boxes s.relate a b && decide (s.gap a b < height)

/-- conflictingInGraph, RoutingGraphContainer.h 40-57. `graphs` are the lanelets of the passable submaps of the graphs, in the order in which the search finds
them. The error is the InvalidInputError. -/
def conflictingInGraph (w : World P) (s : Shape F) (graphs : List (List LH)) (ll : LH) (id : Nat) (height : F) : Except Unit (List LH) :=
  match graphs[id]? with
  | none => .error ()
  | some submap =>
    let found := submap.filter fun x => s.boxes ll x
    let found := found.filter fun x => !decide (x = ll)
    .ok (found.filter fun x => if height ≠ 0 then overlaps3d w s ll x height else overlaps2d w s.boxes s.relate ll x)

/-- conflictingInGraphs, RoutingGraphContainer.h 63-69 -/
def conflictingInGraphs (w : World P) (s : Shape F) (graphs : List (List LH)) (ll : LH) (height : F) : Except Unit (List (Nat × List LH)) :=
  (List.range graphs.length).mapM fun i => (conflictingInGraph w s graphs ll i height).map fun c => (i, c)

/-- insertion into a set, RoutingGraphContainer.h 82 -/
def insertAll (set xs : List LH) : List LH := xs.foldl (fun set x => if x ∈ set then set else set ++ [x]) set

/-- the lanelets of laneletSubmap of a route, RouteBuilder.cpp 421-423: of lanelets with the same id only the first is kept -/
def submapOf (idOf : Nat → Int) (members : List LH) : List LH := (toMap (members.map fun x => (idOf x.data, x))).map (·.2)

/-- conflictingOfRouteInGraph, RoutingGraphContainer.h 77-85; `route` are the lanelets of the submap of the route -/
def conflictingOfRouteInGraph (w : World P) (s : Shape F) (graphs : List (List LH)) (route : List LH) (id : Nat) (height : F) : Except Unit (List LH) :=
  route.foldlM (fun set ll => (conflictingInGraph w s graphs ll id height).map (insertAll set)) []

/-- conflictingOfRouteInGraphs, RoutingGraphContainer.h 91-97 -/
def conflictingOfRouteInGraphs (w : World P) (s : Shape F) (graphs : List (List LH)) (route : List LH) (height : F) : Except Unit (List (Nat × List LH)) :=
  (List.range graphs.length).mapM fun i => (conflictingOfRouteInGraph w s graphs route i height).map fun c => (i, c)

/-! ### specification -/

/-- Specification. Two lanelets are in conflict for a participant of that height: they are two directions of the same lanelet or are not neighbours and have a
common inner point, and if a height is given then one is not that much above the other. -/
def Conflict (w : World P) (s : Shape F) (height : F) (a b : LH) : Prop :=
  a ≠ b ∧ (a.data = b.data ∨ (¬ Neighbours w a b ∧ s.relate a b = true)) ∧ (height ≠ 0 → s.gap a b < height)

/-- Specification. Lanelets with a common inner point, or the same data, have bounding boxes that intersect. -/
structure ShapeOk (s : Shape F) : Prop where
  relate : ∀ a b, s.relate a b = true → s.boxes a b = true
  same : ∀ a b : LH, a.data = b.data → s.boxes a b = true

variable {w : World P} {s : Shape F} {graphs : List (List LH)} {height : F}

/-- **C71.** A query for the conflicts of a lanelet in a graph reports exactly the lanelets of its submap that are in conflict with it, and fails exactly if there is no
such graph. -/
theorem conflictingInGraph_exact (hs : ShapeOk s) (ll : LH) (id : Nat) :
    (conflictingInGraph w s graphs ll id height = .error () ↔ graphs.length ≤ id) ∧
    ∀ submap, graphs[id]? = some submap → ∃ r, conflictingInGraph w s graphs ll id height = .ok r ∧ r.Sublist submap ∧
      ∀ x, x ∈ r ↔ x ∈ submap ∧ Conflict w s height ll x := by
  constructor
  · unfold conflictingInGraph
    cases h : graphs[id]? with
    | none => simpa using h
    | some m =>
      have := (List.getElem?_eq_some_iff.mp h).1
      simp; omega
  · intro submap hm
    refine ⟨_, by unfold conflictingInGraph; rw [hm], ?_, ?_⟩
    · exact List.filter_sublist.trans (List.filter_sublist.trans List.filter_sublist)
    · intro x
      have ho : overlaps2d w s.boxes s.relate ll x = true ↔ _ := overlaps2d_spec w hs.relate ll x
      simp only [List.mem_filter, Bool.not_eq_true', decide_eq_false_iff_not, Conflict]
      constructor
      · rintro ⟨⟨⟨h1, -⟩, h2⟩, h3⟩
        refine ⟨h1, fun h => h2 h.symm, ?_, ?_⟩
        · split at h3
          · unfold overlaps3d at h3
            exact ho.mp (Bool.and_eq_true_iff.mp h3).1
          · exact ho.mp h3
        · intro hh
          rw [if_pos hh] at h3
          unfold overlaps3d at h3
          exact of_decide_eq_true (Bool.and_eq_true_iff.mp h3).2
      · rintro ⟨h1, h2, h3, h4⟩
        refine ⟨⟨⟨h1, ?_⟩, fun h => h2 h.symm⟩, ?_⟩
        · rcases h3 with h | ⟨-, h⟩
          · exact hs.same _ _ h
          · exact hs.relate _ _ h
        · split
          · rename_i hh
            unfold overlaps3d
            rw [ho.mpr h3, decide_eq_true (h4 hh)]
            rfl
          · exact ho.mpr h3

/-- **C71.** A query over all graphs has the answer of every graph, in the order of the graphs, and does not fail. -/
theorem conflictingInGraphs_exact (ll : LH) : ∃ r, conflictingInGraphs w s graphs ll height = .ok r ∧ r.map (·.1) = List.range graphs.length ∧
    ∀ i c, (i, c) ∈ r → conflictingInGraph w s graphs ll i height = .ok c := by
  unfold conflictingInGraphs
  have key : ∀ l : List Nat, (∀ i ∈ l, i < graphs.length) →
      ∃ r, (l.mapM fun i => (conflictingInGraph w s graphs ll i height).map fun c => (i, c)) = .ok r ∧ r.map (·.1) = l ∧
        ∀ i c, (i, c) ∈ r → conflictingInGraph w s graphs ll i height = .ok c := by
    intro l
    induction l with
    | nil => intro _; exact ⟨[], rfl, rfl, by simp⟩
    | cons i l ih =>
      intro h
      obtain ⟨r, h1, h2, h3⟩ := ih fun j hj => h j (List.mem_cons_of_mem _ hj)
      have hi := h i (by simp)
      obtain ⟨c, hc⟩ : ∃ c, conflictingInGraph w s graphs ll i height = .ok c := by
        unfold conflictingInGraph
        rw [List.getElem?_eq_getElem hi]
        exact ⟨_, rfl⟩
      refine ⟨(i, c) :: r, ?_, by simp [h2], ?_⟩
      · rw [List.mapM_cons, h1, hc]; rfl
      · intro j d hj
        rcases List.mem_cons.mp hj with hj | hj
        · cases hj; exact hc
        · exact h3 j d hj
  exact key _ fun i hi => List.mem_range.mp hi

theorem insertAll_spec (xs : List LH) : ∀ set : List LH, set.Nodup → (insertAll set xs).Nodup ∧ ∀ x, x ∈ insertAll set xs ↔ x ∈ set ∨ x ∈ xs := by
  induction xs with
  | nil => intro set h; exact ⟨h, by simp [insertAll]⟩
  | cons y xs ih =>
    intro set h
    have he : insertAll set (y :: xs) = insertAll (if y ∈ set then set else set ++ [y]) xs := rfl
    rw [he]
    split
    · rename_i hy
      obtain ⟨h1, h2⟩ := ih set h
      refine ⟨h1, fun x => ?_⟩
      rw [h2, List.mem_cons]
      constructor
      · rintro (h | h)
        exacts [.inl h, .inr (.inr h)]
      · rintro (h | rfl | h)
        exacts [.inl h, .inl hy, .inr h]
    · rename_i hy
      obtain ⟨h1, h2⟩ := ih (set ++ [y]) (by
        rw [List.nodup_append]
        exact ⟨h, by simp, fun a ha b hb hab => hy (by simp only [List.mem_singleton] at hb; subst hb; subst hab; exact ha)⟩)
      refine ⟨h1, fun x => ?_⟩
      rw [h2, List.mem_append, List.mem_singleton, List.mem_cons, or_assoc]

theorem ofRoute_fold (submap : List LH) {id : Nat} (hm : graphs[id]? = some submap) (hs : ShapeOk s) (route : List LH) : ∀ set : List LH, set.Nodup →
    ∃ r, route.foldlM (fun set ll => (conflictingInGraph w s graphs ll id height).map (insertAll set)) set = .ok r ∧ r.Nodup ∧
      ∀ x, x ∈ r ↔ x ∈ set ∨ x ∈ submap ∧ ∃ ll ∈ route, Conflict w s height ll x := by
  induction route with
  | nil => intro set h; exact ⟨set, rfl, h, by simp⟩
  | cons ll route ih =>
    intro set h
    obtain ⟨c, hc, -, hx⟩ := (conflictingInGraph_exact (w := w) (graphs := graphs) (height := height) hs ll id).2 submap hm
    obtain ⟨k1, k2⟩ := insertAll_spec c set h
    obtain ⟨r, h1, h2, h3⟩ := ih (insertAll set c) k1
    refine ⟨r, ?_, h2, fun x => ?_⟩
    · rw [List.foldlM_cons, hc]
      exact h1
    · rw [h3, k2, hx]
      simp only [List.mem_cons, exists_eq_or_imp]
      tauto

/-- **C71.** A query for the conflicts of a route in a graph reports exactly the lanelets of the submap of the graph that are in conflict with a lanelet of the submap
of the route, each once. It fails exactly if there is no such graph (and the route is not empty). -/
theorem conflictingOfRouteInGraph_exact (hs : ShapeOk s) (route : List LH) (id : Nat) :
    (conflictingOfRouteInGraph w s graphs route id height = .error () ↔ graphs.length ≤ id ∧ route ≠ []) ∧
    ∀ submap, graphs[id]? = some submap → ∃ r, conflictingOfRouteInGraph w s graphs route id height = .ok r ∧ r.Nodup ∧
      ∀ x, x ∈ r ↔ x ∈ submap ∧ ∃ ll ∈ route, Conflict w s height ll x := by
  have h2 : ∀ submap, graphs[id]? = some submap → ∃ r, conflictingOfRouteInGraph w s graphs route id height = .ok r ∧ r.Nodup ∧
      ∀ x, x ∈ r ↔ x ∈ submap ∧ ∃ ll ∈ route, Conflict w s height ll x := by
    intro submap hm
    obtain ⟨r, h1, h2, h3⟩ := ofRoute_fold (w := w) (height := height) submap hm hs route [] List.nodup_nil
    exact ⟨r, h1, h2, fun x => by rw [h3]; simp⟩
  refine ⟨?_, h2⟩
  cases hg : graphs[id]? with
  | some m =>
    obtain ⟨r, h, -⟩ := h2 m hg
    have := (List.getElem?_eq_some_iff.mp hg).1
    rw [h]
    simp; omega
  | none =>
    have hle : graphs.length ≤ id := by simpa using hg
    cases route with
    | nil =>
      constructor
      · intro h; cases h
      · rintro ⟨-, h⟩; exact absurd rfl h
    | cons a l =>
      refine ⟨fun _ => ⟨hle, by simp⟩, fun _ => ?_⟩
      unfold conflictingOfRouteInGraph
      rw [List.foldlM_cons, (conflictingInGraph_exact (w := w) (height := height) hs a id).1.mpr hle]
      rfl

/-- **C71.** A query for the conflicts of a route over all graphs has the answer of every graph, in the order of the graphs, and does not fail. -/
theorem conflictingOfRouteInGraphs_exact (hs : ShapeOk s) (route : List LH) : ∃ r, conflictingOfRouteInGraphs w s graphs route height = .ok r ∧
    r.map (·.1) = List.range graphs.length ∧ ∀ i c, (i, c) ∈ r → conflictingOfRouteInGraph w s graphs route i height = .ok c := by
  unfold conflictingOfRouteInGraphs
  have key : ∀ l : List Nat, (∀ i ∈ l, i < graphs.length) →
      ∃ r, (l.mapM fun i => (conflictingOfRouteInGraph w s graphs route i height).map fun c => (i, c)) = .ok r ∧ r.map (·.1) = l ∧
        ∀ i c, (i, c) ∈ r → conflictingOfRouteInGraph w s graphs route i height = .ok c := by
    intro l
    induction l with
    | nil => intro _; exact ⟨[], rfl, rfl, by simp⟩
    | cons i l ih =>
      intro h
      obtain ⟨r, h1, h2, h3⟩ := ih fun j hj => h j (List.mem_cons_of_mem _ hj)
      obtain ⟨c, hc, -⟩ := (conflictingOfRouteInGraph_exact (w := w) (height := height) hs route i).2 _ (List.getElem?_eq_getElem (h i (by simp)))
      refine ⟨(i, c) :: r, ?_, by simp [h2], ?_⟩
      · rw [List.mapM_cons, h1, hc]; rfl
      · intro j d hj
        rcases List.mem_cons.mp hj with hj | hj
        · cases hj; exact hc
        · exact h3 j d hj
  exact key _ fun i hi => List.mem_range.mp hi

/-- **C71.** The submap of a route has all of its lanelets if it does not use a lanelet in both directions. -/
theorem submapOf_all (idOf : Nat → Int) (members : List LH) (h : (members.map fun x => idOf x.data).Nodup) : submapOf idOf members = members := by
  unfold submapOf
  rw [toMap_nodup, List.map_map]
  · exact List.map_id _
  · rw [List.map_map]; exact h

theorem conflict_symm (hs : ShapeOk s) (hr : ∀ a b, s.relate a b = s.relate b a) (hg : ∀ a b, s.gap a b = s.gap b a) (a b : LH) :
    Conflict w s height a b ↔ Conflict w s height b a := by
  have h := overlaps2d_symm w hs.relate hr a b
  rw [Bool.eq_iff_iff, overlaps2d_spec w hs.relate, overlaps2d_spec w hs.relate] at h
  unfold Conflict
  rw [h, hg a b, ne_comm]

/-- **C71.** Conflicts are mutual: if one lanelet of a graph is reported for a lanelet of a graph (of the same or another one), then so is the other way around. -/
theorem conflicts_mutual (hs : ShapeOk s) (hr : ∀ a b, s.relate a b = s.relate b a) (hg : ∀ a b, s.gap a b = s.gap b a) {i j : Nat} {mi mj : List LH}
    (hi : graphs[i]? = some mi) (hj : graphs[j]? = some mj) {a b : LH} (ha : a ∈ mi) (hb : b ∈ mj) :
    (∃ r, conflictingInGraph w s graphs a j height = .ok r ∧ b ∈ r) ↔ ∃ r, conflictingInGraph w s graphs b i height = .ok r ∧ a ∈ r := by
  obtain ⟨r, h1, -, h2⟩ := (conflictingInGraph_exact (w := w) (graphs := graphs) (height := height) hs a j).2 mj hj
  obtain ⟨r', k1, -, k2⟩ := (conflictingInGraph_exact (w := w) (graphs := graphs) (height := height) hs b i).2 mi hi
  rw [h1, k1]
  constructor
  · rintro ⟨_, h, hm⟩
    cases h
    exact ⟨r', rfl, (k2 a).mpr ⟨ha, (conflict_symm hs hr hg a b).mp ((h2 b).mp hm).2⟩⟩
  · rintro ⟨_, h, hm⟩
    cases h
    exact ⟨r, rfl, (h2 b).mpr ⟨hb, (conflict_symm hs hr hg a b).mpr ((k2 a).mp hm).2⟩⟩

/-- **C71.** A taller participant has all the conflicts of a lower one. -/
theorem conflict_mono {h h' : F} (hpos : h ≠ 0) (hle : h ≤ h') {a b : LH} (hc : Conflict w s h a b) : Conflict w s h' a b :=
  ⟨hc.1, hc.2.1, fun _ => lt_of_lt_of_le (hc.2.2 hpos) hle⟩

/-! ### cases -/

/-- Example. All lanelets overlap, with a difference in height that is that of their numbers. -/
def exShape : Shape Int := ⟨fun _ _ => true, fun _ _ => true, fun a b => (a.data - b.data : Int).natAbs⟩

theorem exShape_ok : ShapeOk exShape := ⟨fun _ _ _ => rfl, fun _ _ _ => rfl⟩

/-- Case: lanelets 0 and 1 end at the same place and overlap. For a participant of the height 1 they do not, since they differ by 1 in height. -/
example : conflictingInGraph exBorder exShape [[⟨1, false⟩], [⟨0, false⟩]] ⟨0, false⟩ 0 0 = .ok [⟨1, false⟩] ∧
    conflictingInGraph exBorder exShape [[⟨1, false⟩], [⟨0, false⟩]] ⟨0, false⟩ 1 0 = .ok [] ∧
    conflictingInGraph exBorder exShape [[⟨1, false⟩], [⟨0, false⟩]] ⟨0, false⟩ 0 1 = .ok [] ∧
    conflictingInGraph exBorder exShape [[⟨1, false⟩], [⟨0, false⟩]] ⟨0, false⟩ 0 2 = .ok [⟨1, false⟩] ∧
    conflictingInGraph exBorder exShape [[⟨1, false⟩], [⟨0, false⟩]] ⟨0, false⟩ 2 2 = .error () := ⟨rfl, rfl, rfl, rfl, rfl⟩

/-- Case: a route over lanelets 0 and 1 is in conflict with both of them. -/
example : conflictingOfRouteInGraph exBorder exShape [[⟨1, false⟩, ⟨0, false⟩]] [⟨0, false⟩, ⟨1, false⟩] 0 0 = .ok [⟨1, false⟩, ⟨0, false⟩] := rfl

/-- C71 is violated for lanelets that may be used in both directions: a graph has both of them, but its submap has the lanelet only once. For the inverted lanelet the
lanelet itself is reported as a conflict, for the lanelet itself the inverted one is not. -/
theorem direction_counterexample : conflictingInGraph exBorder exShape [[⟨0, false⟩]] ⟨0, true⟩ 0 0 = .ok [⟨0, false⟩] ∧
    conflictingInGraph exBorder exShape [[⟨0, false⟩]] ⟨0, false⟩ 0 0 = .ok [] ∧ Conflict exBorder exShape 0 ⟨0, false⟩ ⟨0, true⟩ :=
  ⟨rfl, rfl, by decide, .inl rfl, fun h => absurd rfl h⟩

/-- C71 is violated for routes that use a lanelet in both directions: the submap has only one of them, and conflicts of the other one are not reported. Lanelets 0 and 1
overlap, but the inverted lanelet 0 is a neighbour of lanelet 1. -/
theorem route_direction_counterexample : submapOf (fun d => d + 100) [⟨0, true⟩, ⟨0, false⟩] = [⟨0, true⟩] ∧
    conflictingOfRouteInGraph exBorder exShape [[⟨1, false⟩]] (submapOf (fun d => d + 100) [⟨0, true⟩, ⟨0, false⟩]) 0 0 = .ok [] ∧
    conflictingInGraph exBorder exShape [[⟨1, false⟩]] ⟨0, false⟩ 0 0 = .ok [⟨1, false⟩] := ⟨rfl, rfl, rfl⟩

end Verif.Container
