import Verif.Lanelet.Props
import Verif.Compound.Props
import Mathlib.Data.List.Nodup
import Mathlib.Tactic.Tauto

/-!
C62: borders between lanelets and areas. Model of lanelet2_core/include/lanelet2_core/geometry/impl/Area.h 78-143 (adjacent,
determineCommonLine...) and impl/Lanelet.h 63-90 (overlaps2d). Access to the ends of an empty linestring is undefined behaviour (`none`).
-/
namespace Verif.Lanelet
open Verif.LineStr

variable {P : Type}

/-! ### model -/

/-- outerBoundPolygon, Area.h 159: the points that the iterators of a compound polygon show, see `Compound.compound_points` -/
def outerPolygon [DecidableEq P] (w : World P) (ar : Nat) : List P :=
  Compound.noRep ((w.ars ar).outerPoly.map (points w)).flatten

/-- impl/Area.h 81 `rotatedNext`; also the second point of CompoundLineString.h 195-200 `segment` -/
def rotatedNext (l : List P) (i : Nat) : Option P := if i + 1 = l.length then l[0]? else l[i + 1]?

/-- CompoundLineString.h 195-200 -/
def segment (l : List P) (i : Nat) : Option (P × P) := do
  let first ← l[i]?
  let second ← rotatedNext l i
  return (first, second)

/-- one round of adjacent, impl/Area.h 83-87 -/
def adjacentAt [DecidableEq P] (o1 o2 : List P) (i : Nat) : Option Bool := do
  let s ← segment o1 i
  match o2.findIdx? fun x => decide (x = s.2) with
  | none => return false
  | some j => do
    let next ← rotatedNext o2 j
    return decide (next = s.1)

/-- adjacent, impl/Area.h 78-90; numSegments is CompoundPolygon.h 58 -/
def adjacent [DecidableEq P] (w : World P) (area1 area2 : Nat) : Option Bool :=
  let outer1 := outerPolygon w area1
  let outer2 := outerPolygon w area2
  (List.range (max 1 outer1.length)).foldlM (fun found i => if found then some true else adjacentAt outer1 outer2 i) false

/-- utils::findIf over the boundary with a test on the first and the last point; geometry/impl/Area.h and geometry/impl/Lanelet.h (determineCommonLine) -/
def findEnds [DecidableEq P] (w : World P) (test : P → P → Bool) : List LS → Option (Option LS)
  | [] => some none
  | l :: ls => do
    let f ← (points w l).head?
    let b ← (points w l).getLast?
    if test f b then some (some l) else findEnds w test ls

/-- determineCommonLinePreceding, impl/Area.h 92-96 -/
def commonLinePreceding [DecidableEq P] (w : World P) (ll : LH) (ar : Nat) : Option (Option LS) := do
  let p1 ← (points w (leftBound w ll)).getLast?
  let p2 ← (points w (rightBound w ll)).getLast?
  findEnds w (fun f b => decide (b = p1) && decide (f = p2)) (w.ars ar).outer

/-- determineCommonLineFollowing, impl/Area.h 98-100 -/
def commonLineFollowing [DecidableEq P] (w : World P) (ar : Nat) (ll : LH) : Option (Option LS) := commonLinePreceding w (invertL ll) ar

/-- determineCommonLineFollowingOrPreceding, impl/Area.h 102-108 -/
def commonLineFollowingOrPreceding [DecidableEq P] (w : World P) (ar : Nat) (ll : LH) : Option (Option LS) := do
  let p1 ← (points w (leftBound w ll)).head?
  let p2 ← (points w (rightBound w ll)).head?
  let p3 ← (points w (leftBound w ll)).getLast?
  let p4 ← (points w (rightBound w ll)).getLast?
  findEnds w (fun f b => (decide (b = p2) && decide (f = p1)) || (decide (b = p3) && decide (f = p4))) (w.ars ar).outer

/-- determineCommonLineSideways(area, lanelet), impl/Area.h 115-119 -/
def commonLineSidewaysArea (w : World P) (ar : Nat) (ll : LH) : Option LS :=
  (w.ars ar).outer.find? fun b => b == invert (leftBound w ll) || b == rightBound w ll

/-- determineCommonLine(area, lanelet), impl/Area.h 128-131 -/
def commonLineAreaLanelet [DecidableEq P] (w : World P) (ar : Nat) (ll : LH) : Option (Option LS) := do
  match ← commonLineFollowingOrPreceding w ar ll with
  | some r => return some r
  | none => return commonLineSidewaysArea w ar ll

/-- overlaps2d, impl/Lanelet.h 63-90: `boxes` tells whether the bounding boxes intersect, `relate` whether the insides have a common point -/
def overlaps2d [DecidableEq P] (w : World P) (boxes relate : LH → LH → Bool) (a b : LH) : Bool :=
  if a.data = b.data then true
  else if rightBound w a == leftBound w b || leftBound w a == rightBound w b || invert (leftBound w a) == leftBound w b ||
      invert (rightBound w a) == rightBound w b || follows w a b || follows w b a || follows w (invertL a) b || follows w (invertL b) a then false
  else if !boxes a b then false
  else relate a b

/-! ### specification -/

/-- the linestring leads from one point to the other; Specification. -/
def Connects (w : World P) (ls : LS) (p q : P) : Prop := (points w ls).head? = some p ∧ (points w ls).getLast? = some q

/-- on the way around the polygon `p` is followed by the different point `q`; Specification. -/
def Edge (o : List P) (p q : P) : Prop := p ≠ q ∧ ∃ i : Nat, o[i]? = some p ∧ (o[i + 1]? = some q ∨ (i + 1 = o.length ∧ o[0]? = some q))

/-- a polygon of two or more points that does not come back to a point, except that the first point may be repeated at its end; Specification. -/
def Simple (o : List P) : Prop := ∃ l : List P, l.Nodup ∧ 2 ≤ l.length ∧ (o = l ∨ ∃ x, l.head? = some x ∧ o = l ++ [x])

/-- the ends of the bounds of a lanelet: start and end on the left, start and end on the right; Specification. -/
structure Ends (w : World P) (ll : LH) (ls le rs re : P) : Prop where
  left : Connects w (leftBound w ll) ls le
  right : Connects w (rightBound w ll) rs re

/-- the lanelets are side by side (in any direction of travel), or one begins at the end of the other, or both begin at the same place; Specification. -/
def Neighbours (w : World P) (a b : LH) : Prop :=
  rightBound w a = leftBound w b ∨ leftBound w a = rightBound w b ∨ invert (leftBound w a) = leftBound w b ∨
  invert (rightBound w a) = rightBound w b ∨ (∃ l r, Joined w a b l r) ∨ (∃ l r, Joined w b a l r) ∨ ∃ l r, Joined w (invertL a) b l r
where
  /-- `a` ends where `b` begins -/
  Joined (w : World P) (a b : LH) (l r : P) : Prop :=
    (points w (leftBound w a)).getLast? = some l ∧ (points w (leftBound w b)).head? = some l ∧
    (points w (rightBound w a)).getLast? = some r ∧ (points w (rightBound w b)).head? = some r

/-! ### adjacent -/

theorem foldlM_any {α : Type} {f : α → Option Bool} {g : α → Bool} : ∀ (l : List α), (∀ x ∈ l, f x = some (g x)) → ∀ found,
    l.foldlM (fun found x => if found then some true else f x) found = some (found || l.any g) := by
  intro l
  induction l with
  | nil => intro _ found; simp
  | cons x l ih =>
    intro h found
    rw [List.foldlM_cons]
    cases found
    · simp only [Bool.false_eq_true, if_false, h x (by simp), Option.bind_eq_bind, Option.bind_some]
      rw [ih (fun y hy => h y (by simp [hy]))]
      simp
    · simp only [if_true, Option.bind_eq_bind, Option.bind_some]
      rw [ih (fun y hy => h y (by simp [hy]))]
      simp

theorem rotatedNext_some {o : List P} {i : Nat} (h : i < o.length) : ∃ q, rotatedNext o i = some q := by
  unfold rotatedNext
  split
  · exact ⟨o[0], List.getElem?_eq_getElem (by omega)⟩
  · exact ⟨o[i + 1], List.getElem?_eq_getElem (by omega)⟩

theorem edge_iff {o : List P} {p q : P} : Edge o p q ↔ p ≠ q ∧ ∃ i : Nat, o[i]? = some p ∧ rotatedNext o i = some q := by
  unfold Edge rotatedNext
  refine and_congr_right fun _ => exists_congr fun i => and_congr_right fun hp => ?_
  have hi : i < o.length := (List.getElem?_eq_some_iff.mp hp).1
  by_cases e : i + 1 = o.length
  · rw [if_pos e]
    constructor
    · rintro (h | ⟨-, h⟩)
      · have := (List.getElem?_eq_some_iff.mp h).1; omega
      · exact h
    · intro h; exact .inr ⟨e, h⟩
  · rw [if_neg e]
    constructor
    · rintro (h | ⟨h, -⟩)
      · exact h
      · exact absurd h e
    · exact .inl

theorem nodup_idx {l : List P} (h : l.Nodup) {i j : Nat} {x : P} (hi : l[i]? = some x) (hj : l[j]? = some x) : i = j := by
  obtain ⟨h1, e1⟩ := List.getElem?_eq_some_iff.mp hi
  obtain ⟨h2, e2⟩ := List.getElem?_eq_some_iff.mp hj
  exact (List.Nodup.getElem_inj_iff h).mp (e1.trans e2.symm)

theorem simple_first [DecidableEq P] {o : List P} (ho : Simple o) {i : Nat} {p q : P} (hi : o[i]? = some p) (hq : rotatedNext o i = some q) (hpq : p ≠ q) :
    o.findIdx? (fun x => decide (x = p)) = some i := by
  have hlt : i < o.length := (List.getElem?_eq_some_iff.mp hi).1
  rw [List.findIdx?_eq_some_iff_getElem]
  refine ⟨hlt, by simpa using (List.getElem?_eq_some_iff.mp hi).2, ?_⟩
  intro k hk
  simp only [decide_eq_true_eq]
  intro e
  have hk' : o[k]? = some p := by rw [List.getElem?_eq_getElem (by omega), e]
  obtain ⟨l, hn, h2, rfl | ⟨x, hx, rfl⟩⟩ := ho
  · have := nodup_idx hn hi hk'; omega
  · by_cases hil : i < l.length
    · rw [List.getElem?_append_left hil] at hi
      rw [List.getElem?_append_left (by omega)] at hk'
      have := nodup_idx hn hi hk'; omega
    · have : i = l.length := by simp at hlt; omega
      subst this
      rw [List.getElem?_append_right (by omega)] at hi
      simp only [Nat.sub_self, List.getElem?_cons_zero, Option.some.injEq] at hi
      subst hi
      unfold rotatedNext at hq
      rw [if_pos (by simp), List.getElem?_append_left (by omega), ← List.head?_eq_getElem?, hx] at hq
      exact hpq (Option.some.inj hq)

/-- the point after the first occurrence of a point is another one -/
theorem simple_next [DecidableEq P] {o : List P} (ho : Simple o) {j : Nat} {p : P} (hj : o.findIdx? (fun x => decide (x = p)) = some j) :
    rotatedNext o j ≠ some p := by
  rw [List.findIdx?_eq_some_iff_getElem] at hj
  obtain ⟨hlt, he, hfirst⟩ := hj
  have hj' : o[j]? = some p := by rw [List.getElem?_eq_getElem hlt]; simpa using he
  intro hc
  unfold rotatedNext at hc
  obtain ⟨l, hn, h2, rfl | ⟨x, hx, rfl⟩⟩ := ho
  · split at hc
    · have := nodup_idx hn hj' hc; omega
    · have := nodup_idx hn hj' hc; omega
  · have h0 : (l ++ [x])[0]? = some x := by
      rw [List.getElem?_append_left (by omega), ← List.head?_eq_getElem?, hx]
    split at hc
    · rename_i hl
      have hj0 : j = l.length := by simp at hl; omega
      rw [h0] at hc
      have := hfirst 0 (by omega)
      simp only [decide_eq_true_eq] at this
      rw [List.getElem?_eq_getElem (by simp)] at h0
      exact this (by rw [Option.some.inj h0]; exact Option.some.inj hc)
    · rename_i hl
      simp only [List.length_append, List.length_singleton] at hl hlt
      rw [List.getElem?_append_left (by omega)] at hj'
      by_cases hl2 : j + 1 < l.length
      · rw [List.getElem?_append_left hl2] at hc
        have := nodup_idx hn hj' hc; omega
      · rw [List.getElem?_append_right (by omega)] at hc
        have hz : j + 1 - l.length = 0 := by omega
        rw [hz] at hc
        simp only [List.getElem?_cons_zero, Option.some.injEq] at hc
        subst hc
        rw [List.getElem?_append_left (by omega)] at h0
        have := nodup_idx hn hj' h0; omega

theorem adjacentAt_iff [DecidableEq P] {o1 o2 : List P} (h2 : Simple o2) {i : Nat} {p q : P} (hi : o1[i]? = some p) (hn : rotatedNext o1 i = some q) :
    ∃ r, adjacentAt o1 o2 i = some r ∧ (r = true ↔ Edge o2 q p) := by
  unfold adjacentAt segment
  simp only [hi, hn, Option.bind_eq_bind, Option.bind_some, Option.pure_def]
  cases hf : o2.findIdx? (fun x => decide (x = q)) with
  | none =>
    refine ⟨false, rfl, ?_⟩
    simp only [Bool.false_eq_true, false_iff]
    intro he
    obtain ⟨hne, j, h3, h4⟩ := edge_iff.mp he
    rw [simple_first h2 h3 h4 hne] at hf
    cases hf
  | some j =>
    have hj : j < o2.length := by
      rw [List.findIdx?_eq_some_iff_getElem] at hf; exact hf.1
    have hjq : o2[j]? = some q := by
      rw [List.findIdx?_eq_some_iff_getElem] at hf
      obtain ⟨_, he, _⟩ := hf
      rw [List.getElem?_eq_getElem hj]; simpa using he
    obtain ⟨n, hn2⟩ := rotatedNext_some hj
    refine ⟨decide (n = p), by simp [hn2], ?_⟩
    rw [decide_eq_true_eq, edge_iff]
    constructor
    · rintro rfl
      refine ⟨?_, j, hjq, hn2⟩
      rintro rfl
      exact simple_next h2 hf hn2
    · rintro ⟨hne, k, h3, h4⟩
      have h5 := simple_first h2 h3 h4 hne
      rw [hf] at h5
      obtain rfl := Option.some.inj h5
      rw [hn2] at h4
      exact Option.some.inj h4

/-- C62: areas are adjacent iff an edge of one is an edge of the other in the opposite direction, if the second is a simple polygon. -/
theorem adjacent_iff [DecidableEq P] (w : World P) {a b : Nat} (ha : outerPolygon w a ≠ []) (hb : Simple (outerPolygon w b)) :
    ∃ r, adjacent w a b = some r ∧ (r = true ↔ ∃ p q, Edge (outerPolygon w a) p q ∧ Edge (outerPolygon w b) q p) := by
  have hlen : max 1 (outerPolygon w a).length = (outerPolygon w a).length := by
    have := List.length_pos_iff.mpr ha; omega
  have key : ∀ i ∈ List.range (outerPolygon w a).length, adjacentAt (outerPolygon w a) (outerPolygon w b) i =
      some ((adjacentAt (outerPolygon w a) (outerPolygon w b) i).getD false) := by
    intro i hi
    have hi := List.mem_range.mp hi
    obtain ⟨q, hq⟩ := rotatedNext_some hi
    obtain ⟨r, hr, -⟩ := adjacentAt_iff hb (List.getElem?_eq_getElem hi) hq
    rw [hr]; rfl
  unfold adjacent
  simp only [hlen]
  rw [foldlM_any _ key]
  refine ⟨_, rfl, ?_⟩
  simp only [Bool.false_or, List.any_eq_true, List.mem_range]
  constructor
  · rintro ⟨i, hi, h⟩
    obtain ⟨q, hq⟩ := rotatedNext_some hi
    have hi' := List.getElem?_eq_getElem hi
    obtain ⟨r, hr, hiff⟩ := adjacentAt_iff hb hi' hq
    rw [hr] at h
    have he := hiff.mp h
    exact ⟨_, q, edge_iff.mpr ⟨he.1.symm, i, hi', hq⟩, he⟩
  · rintro ⟨p, q, h1, h2⟩
    obtain ⟨hne, i, hi, hq⟩ := edge_iff.mp h1
    have hlt := (List.getElem?_eq_some_iff.mp hi).1
    obtain ⟨r, hr, hiff⟩ := adjacentAt_iff hb hi hq
    refine ⟨i, hlt, ?_⟩
    rw [hr]
    exact hiff.mpr h2

theorem Simple.ne_nil {o : List P} (h : Simple o) : o ≠ [] := by
  obtain ⟨l, -, h2, rfl | ⟨x, -, rfl⟩⟩ := h
  · intro e; rw [e] at h2; simp at h2
  · simp

/-- C62: adjacency of simple areas is symmetric. -/
theorem adjacent_symm [DecidableEq P] (w : World P) {a b : Nat} (ha : Simple (outerPolygon w a)) (hb : Simple (outerPolygon w b)) :
    adjacent w a b = adjacent w b a := by
  obtain ⟨r, hr, h1⟩ := adjacent_iff w ha.ne_nil hb
  obtain ⟨s, hs, h2⟩ := adjacent_iff w hb.ne_nil ha
  rw [hr, hs, Option.some.injEq, Bool.eq_iff_iff, h1, h2]
  constructor <;> rintro ⟨p, q, e1, e2⟩ <;> exact ⟨q, p, e2, e1⟩

theorem noRep_head [DecidableEq P] (b : P) (l : List P) : ∃ t, Compound.noRep (b :: l) = b :: t := by
  induction l generalizing b with
  | nil => exact ⟨[], rfl⟩
  | cons c l ih =>
    unfold Compound.noRep
    split
    · rename_i h; subst h; exact ih b
    · exact ⟨_, rfl⟩

theorem noRep_infix [DecidableEq P] {p q : P} (hpq : p ≠ q) : ∀ {l : List P}, [p, q] <:+: l → [p, q] <:+: Compound.noRep l := by
  intro l
  induction l with
  | nil => intro h; exact absurd (List.infix_nil.mp h) (by simp)
  | cons a l ih =>
    intro h
    cases l with
    | nil =>
      have := h.length_le; simp at this
    | cons b l =>
      unfold Compound.noRep
      rcases List.infix_cons_iff.mp h with h | h
      · rw [List.cons_prefix_cons, List.cons_prefix_cons] at h
        obtain ⟨rfl, rfl, -⟩ := h
        rw [if_neg hpq]
        obtain ⟨t, ht⟩ := noRep_head q l
        rw [ht]
        exact ⟨[], t, rfl⟩
      · split
        · exact ih h
        · exact (ih h).trans (List.suffix_cons _ _).isInfix

theorem infix_edge {o : List P} {p q : P} (hpq : p ≠ q) (h : [p, q] <:+: o) : Edge o p q := by
  obtain ⟨s, t, rfl⟩ := h
  refine ⟨hpq, s.length, ?_, .inl ?_⟩
  · simp
  · rw [List.append_assoc, List.getElem?_append_right (by omega)]
    simp

/-- C62: areas with a common linestring that has a segment are adjacent. -/
theorem commonLineAreas_adjacent [DecidableEq P] (w : World P) {a b : Nat} {l : LS} (hl : commonLineAreas w a b = some l)
    (ha : (w.ars a).outerPoly = (w.ars a).outer) (hb : (w.ars b).outerPoly = (w.ars b).outer) (hs : Simple (outerPolygon w b))
    {p q : P} (hpq : p ≠ q) (hseg : [p, q] <:+: points w l) : adjacent w a b = some true := by
  obtain ⟨h1, h2⟩ := (commonLineAreas_spec w a b).1 l hl
  have hinf : ∀ (outer : List LS) (m : LS), m ∈ outer → points w m <:+: (outer.map (points w)).flatten := by
    intro outer m hm
    exact List.infix_of_mem_flatten (List.mem_map_of_mem hm)
  have e1 : Edge (outerPolygon w a) p q := by
    refine infix_edge hpq (noRep_infix hpq ?_)
    rw [ha]; exact hseg.trans (hinf _ _ h1)
  have e2 : Edge (outerPolygon w b) q p := by
    refine infix_edge hpq.symm (noRep_infix hpq.symm ?_)
    rw [hb]
    refine List.IsInfix.trans ?_ (hinf _ _ h2)
    rw [points_invert]
    have := List.reverse_infix.mpr hseg
    simpa using this
  obtain ⟨r, hr, hiff⟩ := adjacent_iff w (a := a) (by
    intro e; obtain ⟨-, i, hi, -⟩ := e1; rw [e] at hi; simp at hi) hs
  rw [hr, hiff.mpr ⟨p, q, e1, e2⟩]

/-! ### common lines of areas and lanelets -/

theorem findEnds_spec [DecidableEq P] (w : World P) (test : P → P → Bool) : ∀ (outer : List LS), (∀ l ∈ outer, points w l ≠ []) →
    ∃ r, findEnds w test outer = some r ∧ (∀ l, r = some l → l ∈ outer ∧ ∃ f b, Connects w l f b ∧ test f b = true) ∧
      (r = none ↔ ∀ l ∈ outer, ∀ f b, Connects w l f b → test f b = false) := by
  intro outer
  induction outer with
  | nil => intro _; exact ⟨none, rfl, by simp, by simp⟩
  | cons l outer ih =>
    intro h
    obtain ⟨r, hr, h1, h2⟩ := ih fun m hm => h m (by simp [hm])
    obtain ⟨f, hf⟩ : ∃ f, (points w l).head? = some f := by
      cases e : points w l with
      | nil => exact absurd e (h l (by simp))
      | cons x _ => exact ⟨x, rfl⟩
    have hb := List.getLast?_eq_some_getLast (h l (by simp))
    unfold findEnds
    simp only [hf, hb, Option.bind_eq_bind, Option.bind_some]
    by_cases ht : test f ((points w l).getLast (h l (by simp))) = true
    · rw [if_pos ht]
      refine ⟨_, rfl, ?_, ?_⟩
      · rintro m hm
        obtain rfl := Option.some.inj hm
        exact ⟨by simp, _, _, ⟨hf, hb⟩, ht⟩
      · simp only [reduceCtorEq, false_iff]
        intro hall
        rw [hall l (by simp) _ _ ⟨hf, hb⟩] at ht
        cases ht
    · rw [if_neg ht]
      refine ⟨r, hr, ?_, ?_⟩
      · intro m hm
        obtain ⟨h3, h4⟩ := h1 m hm
        exact ⟨by simp [h3], h4⟩
      · rw [h2]
        constructor
        · intro hall m hm f' b' hc
          rcases List.mem_cons.mp hm with rfl | hm
          · obtain ⟨e1, e2⟩ := hc
            rw [hf] at e1; rw [hb] at e2
            obtain rfl := Option.some.inj e1
            obtain rfl := Option.some.inj e2
            simpa using ht
          · exact hall m hm f' b' hc
        · intro hall m hm f' b' hc
          exact hall m (by simp [hm]) f' b' hc

/-- the result of a search for a linestring of the boundary; Specification. -/
def Finds (outer : List LS) (r : Option LS) (Good : LS → Prop) : Prop :=
  (∀ l, r = some l → l ∈ outer ∧ Good l) ∧ (r = none → ∀ l ∈ outer, ¬ Good l)

theorem connects_inj {w : World P} {l : LS} {p q p' q' : P} (h : Connects w l p q) (h' : Connects w l p' q') : p = p' ∧ q = q' :=
  ⟨Option.some.inj (h.1.symm.trans h'.1), Option.some.inj (h.2.symm.trans h'.2)⟩

/-- C62: the line where one gets from a lanelet to an area: a linestring of the boundary from the right end to the left end of the lanelet. -/
theorem preceding_spec [DecidableEq P] (w : World P) (ll : LH) (ar : Nat) {ls le rs re : P} (he : Ends w ll ls le rs re)
    (hne : ∀ l ∈ (w.ars ar).outer, points w l ≠ []) :
    ∃ r, commonLinePreceding w ll ar = some r ∧ Finds (w.ars ar).outer r fun l => Connects w l re le := by
  unfold commonLinePreceding
  simp only [he.left.2, he.right.2, Option.bind_eq_bind, Option.bind_some]
  obtain ⟨r, hr, h1, h2⟩ := findEnds_spec w (fun f b => decide (b = le) && decide (f = re)) _ hne
  refine ⟨r, hr, ?_, ?_⟩
  · intro l hl
    obtain ⟨h3, f, b, h4, h5⟩ := h1 l hl
    simp only [Bool.and_eq_true, decide_eq_true_eq] at h5
    obtain ⟨rfl, rfl⟩ := h5
    exact ⟨h3, h4⟩
  · intro hn l hl hc
    have := h2.mp hn l hl _ _ hc
    simp at this

theorem ends_invert {w : World P} {ll : LH} {ls le rs re : P} (he : Ends w ll ls le rs re) : Ends w (invertL ll) re rs le ls := by
  obtain ⟨-, -, a1, a2, -⟩ := invert_spec (fun a _ => a) w ll
  constructor
  · unfold Connects
    rw [a1, List.head?_reverse, List.getLast?_reverse]
    exact ⟨he.right.2, he.right.1⟩
  · unfold Connects
    rw [a2, List.head?_reverse, List.getLast?_reverse]
    exact ⟨he.left.2, he.left.1⟩

/-- C62: the line where one gets from an area to a lanelet: from the left start to the right start of the lanelet. -/
theorem following_spec [DecidableEq P] (w : World P) (ll : LH) (ar : Nat) {ls le rs re : P} (he : Ends w ll ls le rs re)
    (hne : ∀ l ∈ (w.ars ar).outer, points w l ≠ []) :
    ∃ r, commonLineFollowing w ar ll = some r ∧ Finds (w.ars ar).outer r fun l => Connects w l ls rs :=
  preceding_spec w (invertL ll) ar (ends_invert he) hne

/-- C62: following or preceding: one of these two is found iff there is one. -/
theorem followingOrPreceding_spec [DecidableEq P] (w : World P) (ll : LH) (ar : Nat) {ls le rs re : P} (he : Ends w ll ls le rs re)
    (hne : ∀ l ∈ (w.ars ar).outer, points w l ≠ []) :
    ∃ r, commonLineFollowingOrPreceding w ar ll = some r ∧ Finds (w.ars ar).outer r fun l => Connects w l ls rs ∨ Connects w l re le := by
  unfold commonLineFollowingOrPreceding
  simp only [he.left.1, he.right.1, he.left.2, he.right.2, Option.bind_eq_bind, Option.bind_some]
  obtain ⟨r, hr, h1, h2⟩ := findEnds_spec w (fun f b => (decide (b = rs) && decide (f = ls)) || (decide (b = le) && decide (f = re))) _ hne
  refine ⟨r, hr, ?_, ?_⟩
  · intro l hl
    obtain ⟨h3, f, b, h4, h5⟩ := h1 l hl
    simp only [Bool.or_eq_true, Bool.and_eq_true, decide_eq_true_eq] at h5
    refine ⟨h3, ?_⟩
    rcases h5 with ⟨rfl, rfl⟩ | ⟨rfl, rfl⟩
    · exact .inl h4
    · exact .inr h4
  · intro hn l hl hc
    rcases hc with hc | hc <;> · have := h2.mp hn l hl _ _ hc; simp at this

/-- C62: beside: the same line is found from both sides, directed as the boundary of the area or as the bound of the lanelet. -/
theorem sideways_spec (w : World P) (ll : LH) (ar : Nat) :
    Finds (w.ars ar).outer (commonLineSidewaysArea w ar ll) (fun l => l = invert (leftBound w ll) ∨ l = rightBound w ll) ∧
    (∀ l, commonLineSideways w ll ar = some l → (l = leftBound w ll ∧ invert l ∈ (w.ars ar).outer) ∨ (l = rightBound w ll ∧ l ∈ (w.ars ar).outer)) ∧
    ((commonLineSideways w ll ar).isSome = (commonLineSidewaysArea w ar ll).isSome) := by
  obtain ⟨hL, hR, -, h3, h4⟩ := areaSides_spec w ll ar
  have hF : Finds (w.ars ar).outer (commonLineSidewaysArea w ar ll) (fun l => l = invert (leftBound w ll) ∨ l = rightBound w ll) := by
    unfold commonLineSidewaysArea
    constructor
    · intro l hl
      exact ⟨List.mem_of_find?_eq_some hl, by simpa using List.find?_some hl⟩
    · intro hn l hl hg
      have := List.find?_eq_none.mp hn l hl
      simp at this
      rcases hg with rfl | rfl <;> simp at this
  refine ⟨hF, ?_, ?_⟩
  · intro l hl
    unfold commonLineSideways at hl
    rw [h3, h4] at hl
    cases h : areaLeftOf w ll ar with
    | true =>
      rw [h] at hl
      obtain rfl := Option.some.inj hl
      exact .inl ⟨rfl, hL.mp h⟩
    | false =>
      rw [h] at hl
      cases h' : areaRightOf w ll ar with
      | true =>
        rw [h'] at hl
        obtain rfl := Option.some.inj hl
        exact .inr ⟨rfl, hR.mp h'⟩
      | false => rw [h'] at hl; simp at hl
  · unfold commonLineSideways
    rw [h3, h4, Bool.eq_iff_iff]
    cases hs : commonLineSidewaysArea w ar ll with
    | some l =>
      have := hF.1 l hs
      rcases this with ⟨hm, rfl | rfl⟩
      · rw [hL.mpr hm]; simp
      · rw [hR.mpr hm]
        cases areaLeftOf w ll ar <;> simp
    | none =>
      have hn := hF.2 hs
      have e1 : areaLeftOf w ll ar = false := by
        cases h : areaLeftOf w ll ar with
        | false => rfl
        | true => exact absurd (.inl rfl) (hn _ (hL.mp h))
      have e2 : areaRightOf w ll ar = false := by
        cases h : areaRightOf w ll ar with
        | false => rfl
        | true => exact absurd (.inr rfl) (hn _ (hR.mp h))
      rw [e1, e2]; simp

/-- C62: the common line of an area and a lanelet: a linestring of the boundary that is a bound of the lanelet or closes one of its ends. -/
theorem commonLineAreaLanelet_spec [DecidableEq P] (w : World P) (ll : LH) (ar : Nat) {ls le rs re : P} (he : Ends w ll ls le rs re)
    (hne : ∀ l ∈ (w.ars ar).outer, points w l ≠ []) :
    ∃ r, commonLineAreaLanelet w ar ll = some r ∧ Finds (w.ars ar).outer r fun l =>
      Connects w l ls rs ∨ Connects w l re le ∨ l = invert (leftBound w ll) ∨ l = rightBound w ll := by
  obtain ⟨r, hr, h1, h2⟩ := followingOrPreceding_spec w ll ar he hne
  obtain ⟨⟨h3, h4⟩, -, -⟩ := sideways_spec w ll ar
  unfold commonLineAreaLanelet
  simp only [hr, Option.bind_eq_bind, Option.bind_some]
  cases r with
  | some l =>
    refine ⟨some l, rfl, ?_, by simp⟩
    intro m hm
    obtain ⟨h5, h6⟩ := h1 m hm
    exact ⟨h5, h6.elim .inl fun h => .inr (.inl h)⟩
  | none =>
    refine ⟨_, rfl, ?_, ?_⟩
    · intro m hm
      obtain ⟨h5, h6⟩ := h3 m hm
      exact ⟨h5, .inr (.inr h6)⟩
    · intro hn l hl hg
      have n1 := h2 rfl l hl
      have n2 := h4 hn l hl
      rcases hg with h | h | h
      · exact n1 (.inl h)
      · exact n1 (.inr h)
      · exact n2 h

/-- C62: an area that has the line to a lanelet follows the lanelet. -/
theorem preceding_follows [DecidableEq P] (w : World P) (ll : LH) (ar : Nat) {ls le rs re : P} (he : Ends w ll ls le rs re)
    (hne : ∀ l ∈ (w.ars ar).outer, points w l ≠ []) {l : LS} (h : commonLinePreceding w ll ar = some (some l)) :
    areaFollows w ll ar = some true := by
  obtain ⟨r, hr, h1, -⟩ := preceding_spec w ll ar he hne
  rw [hr] at h
  obtain ⟨h2, h3⟩ := h1 l (Option.some.inj h)
  obtain ⟨r', h4, -, h5⟩ := areaFollows_spec w ll ar he.left.2 he.right.2 hne
  rw [h4, h5.mpr ⟨l, h2, .inr ⟨h3.1, h3.2⟩⟩]

/-! ### overlaps2d -/

/-- C62: lanelets overlap iff they are the same lanelet or are not neighbours and their insides have a common point. -/
theorem overlaps2d_spec [DecidableEq P] (w : World P) {boxes relate : LH → LH → Bool} (hb : ∀ a b, relate a b = true → boxes a b = true) (a b : LH) :
    overlaps2d w boxes relate a b = true ↔ a.data = b.data ∨ (¬ Neighbours w a b ∧ relate a b = true) := by
  have hj : ∀ a b, follows w a b = true ↔ ∃ l r, Neighbours.Joined w a b l r := fun a b => (follows_spec w a b).1
  have hd : follows w (invertL b) a = follows w (invertL a) b := by
    have := (follows_spec w (invertL a) b).2
    rw [invertL_invertL] at this
    exact this
  unfold overlaps2d Neighbours
  by_cases h : a.data = b.data
  · simp [h]
  · rw [if_neg h]
    simp only [h, false_or, hd, ← hj, Bool.or_eq_true, beq_iff_eq]
    split
    · rename_i hn
      simp only [Bool.false_eq_true, false_iff, not_and]
      intro hc
      exfalso
      apply hc
      tauto
    · rename_i hn
      have hnb : ¬ (rightBound w a = leftBound w b ∨ leftBound w a = rightBound w b ∨ invert (leftBound w a) = leftBound w b ∨
          invert (rightBound w a) = rightBound w b ∨ follows w a b = true ∨ follows w b a = true ∨ follows w (invertL a) b = true) := by
        intro hc; apply hn; tauto
      cases hr : relate a b with
      | true => simp [hb a b hr, hnb]
      | false => cases boxes a b <;> simp

/-- C62: overlapping is symmetric. -/
theorem overlaps2d_symm [DecidableEq P] (w : World P) {boxes relate : LH → LH → Bool} (hb : ∀ a b, relate a b = true → boxes a b = true)
    (hs : ∀ a b, relate a b = relate b a) (a b : LH) : overlaps2d w boxes relate a b = overlaps2d w boxes relate b a := by
  have hn : Neighbours w a b ↔ Neighbours w b a := by
    have hj : ∀ a b, (∃ l r, Neighbours.Joined w a b l r) ↔ follows w a b = true := fun a b => (follows_spec w a b).1.symm
    have hd : follows w (invertL b) a = follows w (invertL a) b := by
      have := (follows_spec w (invertL a) b).2
      rw [invertL_invertL] at this
      exact this
    have hi : ∀ x y : LS, invert x = y ↔ invert y = x := by
      intro x y
      constructor <;> (rintro rfl; simp)
    unfold Neighbours
    simp only [hj, hd]
    rw [hi (leftBound w a), hi (rightBound w a), eq_comm (a := rightBound w a), eq_comm (a := leftBound w a)]
    tauto
  rw [Bool.eq_iff_iff, overlaps2d_spec w hb, overlaps2d_spec w hb, hn, hs a b]
  constructor <;> (rintro (h | h); exacts [.inl h.symm, .inr h])

/-! ### cases and disagreements -/

/-- Point numbers 1-8. Linestrings 0: 1-2 and 1: 3-4 are the left and the right bound of lanelet 0, 2: 4-2 closes its end, 3: 2-5-4 is the rest of
area 0. Linestring 4: 5-2 is a part of area 1 with 5: 2-6-5. Linestring 6: 2-4 and 7: 4-5 and 4 bound area 2, which is area 0 with the opposite
direction. Area 3 with linestring 8 comes back to point 1: 1-2-3-1-4-5. Area 4 with linestring 9 is 4-1-6-4. Lanelet 1 has the bounds 10: 7-4
and 11: 8-2, it ends where lanelet 0 ends. -/
def exBorder : World Nat where
  pts d := (#[[1, 2], [3, 4], [4, 2], [2, 5, 4], [5, 2], [2, 6, 5], [2, 4], [4, 5], [1, 2, 3, 1, 4, 5], [4, 1, 6, 4], [7, 4], [8, 2]] : Array (List Nat)).getD d []
  ids d := d + 100
  lls d := if d = 0 then ⟨⟨0, false⟩, ⟨1, false⟩, [], none⟩ else ⟨⟨10, false⟩, ⟨11, false⟩, [], none⟩
  ars d := (#[mkArea [⟨2, false⟩, ⟨3, false⟩] [] [], mkArea [⟨4, false⟩, ⟨5, false⟩] [] [], mkArea [⟨6, false⟩, ⟨7, false⟩, ⟨4, false⟩] [] [], mkArea [⟨8, false⟩] [] [],
    mkArea [⟨9, false⟩] [] []] : Array AData).getD d (mkArea [] [] [])

/-- Case: the boundaries 4-2-5-4 and 5-2-6-5 have the edge 2-5. -/
example : adjacent exBorder 0 1 = some true ∧ Simple (outerPolygon exBorder 0) ∧ Simple (outerPolygon exBorder 1) := by
  refine ⟨rfl, ⟨[4, 2, 5], by decide, by decide, .inr ⟨4, rfl, rfl⟩⟩, ⟨[5, 2, 6], by decide, by decide, .inr ⟨5, rfl, rfl⟩⟩⟩

/-- Case: from lanelet 0 one gets to area 0. -/
example : commonLinePreceding exBorder ⟨0, false⟩ 0 = some (some ⟨2, false⟩) ∧ commonLineAreaLanelet exBorder 0 ⟨0, false⟩ = some (some ⟨2, false⟩) ∧
    Ends exBorder ⟨0, false⟩ 1 2 3 4 ∧ ∀ l ∈ (exBorder.ars 0).outer, points exBorder l ≠ [] :=
  ⟨rfl, rfl, ⟨⟨rfl, rfl⟩, ⟨rfl, rfl⟩⟩, by decide⟩

/-- Disagreement with C62: an area follows a lanelet, but no common line is found, because the line has the direction from left to right. -/
theorem follows_counterexample : areaFollows exBorder ⟨0, false⟩ 2 = some true ∧ commonLinePreceding exBorder ⟨0, false⟩ 2 = some none ∧
    commonLineAreaLanelet exBorder 2 ⟨0, false⟩ = some none := ⟨rfl, rfl, rfl⟩

/-- Disagreement with C62: if the boundary of an area comes back to a point, only the edge at its first occurrence is seen. The areas have a common
edge, but the answer depends on their order. -/
theorem pinched_counterexample : adjacent exBorder 4 3 = some false ∧ adjacent exBorder 3 4 = some true ∧ Edge (outerPolygon exBorder 4) 4 1 ∧
    Edge (outerPolygon exBorder 3) 1 4 := by
  refine ⟨rfl, rfl, ⟨by decide, 0, rfl, .inl rfl⟩, ⟨by decide, 3, rfl, .inl rfl⟩⟩

/-- Disagreement with C62: whether lanelets overlap depends on their direction. Lanelets that end at the same place are not neighbours, but they are
if one of them is inverted. If their insides have common points, the answers differ. -/
theorem overlaps_direction_counterexample : overlaps2d exBorder (fun _ _ => true) (fun _ _ => true) ⟨0, false⟩ ⟨1, false⟩ = true ∧
    overlaps2d exBorder (fun _ _ => true) (fun _ _ => true) ⟨0, true⟩ ⟨1, false⟩ = false := ⟨rfl, rfl⟩

/-- Disagreement: for an area without points the first segment is accessed. -/
theorem adjacent_empty_counterexample : adjacent exBorder 9 0 = none := rfl

end Verif.Lanelet
