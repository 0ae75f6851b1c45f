import Verif.Compound.Props
import Verif.Lanelet.Props
import Verif.Seq.Model

/-!
C46: a LaneletSequence behaves like one lanelet.

`Compound.view` is the concatenation of the members without repeated points (backwards for inverted ones), and
`Compound.compound_points`, `compound_at`, `compound_iterators`, ... state that all accessors of compound linestrings show it.
-/
set_option linter.unusedSectionVars false

namespace Verif.Seq
open Verif.LineStr (LS)
open Verif.Lanelet (World LH Center invertL)
open Verif.Compound (view noRep)

variable {P : Type} [DecidableEq P]

/-- points of the left and right bound and centerline of a lanelet as it is now -/
def leftPts (w : World P) (l : LH) : List P := Lanelet.points w (Lanelet.leftBound w l)
/-- Specification: the points of the right bound. -/
def rightPts (w : World P) (l : LH) : List P := Lanelet.points w (Lanelet.rightBound w l)

/-- `UpToDate`: no lanelet of the sequence got another linestring as bound since the sequence was built. Points may have been
added to the bounds or changed. -/
structure UpToDate (s : State P) (d : Nat) : Prop where
  left : (s.seqs d).left = ⟨(s.seqs d).lanelets.map (Lanelet.leftBound s.w), false⟩
  right : (s.seqs d).right = ⟨(s.seqs d).lanelets.map (Lanelet.rightBound s.w), false⟩
  poly : ∀ p, (s.seqs d).polygon = some p → p = concat [(s.seqs d).left, (s.seqs d).right.invert]

theorem set_same (s : State P) (d : Nat) (x : SeqData P) : (s.set d x).seqs d = x := by simp [State.set]

theorem set_other (s : State P) (d d' : Nat) (x : SeqData P) (h : d' ≠ d) : (s.set d x).seqs d' = s.seqs d' := by
  simp [State.set, h]

/-- new sequences, and sequences after resetCache(), are up to date -/
theorem mk_upToDate (s : State P) (d : Nat) (ls : List LH) (h : SH) :
    (let (h', s') := mk s d ls; UpToDate s' h'.data ∧ lanelets s' h' = ls ∧ s'.w = s.w) ∧
    (let (h', s') := resetCache s d h
     UpToDate s' h'.data ∧ (h.data ≠ d → lanelets s' h' = lanelets s' h) ∧ h'.inv = h.inv ∧ s'.w = s.w) := by
  refine ⟨⟨⟨?_, ?_, ?_⟩, ?_, rfl⟩, ⟨?_, ?_, ?_⟩, ?_, rfl, rfl⟩
  all_goals simp only [mk, resetCache, lanelets, set_same, mkData]
  · rfl
  · rfl
  · simp
  · simp
  · rfl
  · rfl
  · simp
  · intro hd; simp [State.set, hd]

theorem points_invert' (w : World P) (ls : LS) : Lanelet.points w (LineStr.invert ls) = (Lanelet.points w ls).reverse := by
  unfold Lanelet.points LineStr.invert
  cases ls.inv <;> simp

theorem view_parts (w : World P) (parts : List LS) :
    view (shown w ⟨parts, false⟩) = noRep (parts.flatMap (Lanelet.points w)) := by
  simp [view, shown, List.flatMap]

theorem view_invert (w : World P) (c : Comp LS) : view (shown w c.invert) = (view (shown w c)).reverse := by
  have := (Compound.compound_invert (shown w c)).1
  simpa [shown, Comp.invert, Compound.CLS.invert] using this

/-- C46: the bounds of a sequence are the bounds of its lanelets one after the other, without repeated points. -/
theorem bounds_spec (s : State P) (h : SH) (hu : UpToDate s h.data) (hi : h.inv = false) :
    (shown s.w (leftBound s h)).points = some (noRep ((lanelets s h).flatMap (leftPts s.w))) ∧
    (shown s.w (rightBound s h)).points = some (noRep ((lanelets s h).flatMap (rightPts s.w))) := by
  simp only [Compound.compound_points, leftBound, rightBound, hi, lanelets, Bool.false_eq_true, if_false, hu.left, hu.right,
    view_parts, List.flatMap_map, leftPts, rightPts]
  exact ⟨rfl, rfl⟩

/-- C46: inverting swaps and inverts the bounds; inverting twice gives the sequence back. -/
theorem invert_spec (s : State P) (h : SH) :
    view (shown s.w (leftBound s (invert h))) = (view (shown s.w (rightBound s h))).reverse ∧
    view (shown s.w (rightBound s (invert h))) = (view (shown s.w (leftBound s h))).reverse ∧
    invert (invert h) = h ∧ (polygon s (invert h)).1 = (polygon s h).1 := by
  refine ⟨?_, ?_, by simp [invert], rfl⟩
  all_goals
    obtain ⟨d, i⟩ := h
    cases i <;> simp [leftBound, rightBound, invert, view_invert]

theorem noRep_flat_reverse (w : World P) (l : List LS) :
    noRep ((l.map LineStr.invert).reverse.flatMap (Lanelet.points w)) = (noRep (l.flatMap (Lanelet.points w))).reverse := by
  rw [← Compound.noRep_reverse]
  congr 1
  induction l with
  | nil => rfl
  | cons a l ih => simp [List.flatMap_append, ih, points_invert']

/-- C46: the bounds of an inverted sequence are those of the inverted lanelets in reverse order. -/
theorem inverted_bounds_spec (s : State P) (h : SH) (hu : UpToDate s h.data) (hi : h.inv = false) :
    (shown s.w (leftBound s (invert h))).points =
      some (noRep (((lanelets s h).map invertL).reverse.flatMap (leftPts s.w))) ∧
    (shown s.w (rightBound s (invert h))).points =
      some (noRep (((lanelets s h).map invertL).reverse.flatMap (rightPts s.w))) := by
  have key : ∀ l : LH, Lanelet.leftBound s.w (invertL l) = LineStr.invert (Lanelet.rightBound s.w l) ∧
      Lanelet.rightBound s.w (invertL l) = LineStr.invert (Lanelet.leftBound s.w l) := by
    intro l
    obtain ⟨d, i⟩ := l
    have hii : ∀ ls : LS, LineStr.invert (LineStr.invert ls) = ls := by intro ls; simp [LineStr.invert]
    cases i <;> simp [Lanelet.leftBound, Lanelet.rightBound, invertL, hii]
  have e1 : ((lanelets s h).map invertL).reverse.flatMap (leftPts s.w) =
      (((lanelets s h).map (Lanelet.rightBound s.w)).map LineStr.invert).reverse.flatMap (Lanelet.points s.w) := by
    rw [← List.map_reverse, ← List.map_reverse, ← List.map_reverse, List.flatMap_map, List.flatMap_map, List.flatMap_map]
    simp only [leftPts, key]
  have e2 : ((lanelets s h).map invertL).reverse.flatMap (rightPts s.w) =
      (((lanelets s h).map (Lanelet.leftBound s.w)).map LineStr.invert).reverse.flatMap (Lanelet.points s.w) := by
    rw [← List.map_reverse, ← List.map_reverse, ← List.map_reverse, List.flatMap_map, List.flatMap_map, List.flatMap_map]
    simp only [rightPts, key]
  rw [e1, e2, noRep_flat_reverse, noRep_flat_reverse, Compound.compound_points, Compound.compound_points,
    (invert_spec s h).1, (invert_spec s h).2.1]
  simp only [leftBound, rightBound, hi, lanelets, Bool.false_eq_true, if_false, hu.left, hu.right, view_parts, and_self]

/-- C46: the polygon consists of the left bounds and the right bounds backwards. It is the same for the inverted sequence. -/
theorem polygon_spec (s : State P) (h : SH) (hu : UpToDate s h.data) :
    (shown s.w (polygon s h).1).points =
      some (noRep ((s.seqs h.data).lanelets.flatMap (leftPts s.w) ++
        ((s.seqs h.data).lanelets.flatMap (rightPts s.w)).reverse)) ∧
    UpToDate (polygon s h).2 h.data ∧ lanelets (polygon s h).2 h = lanelets s h ∧ (polygon s h).2.w = s.w ∧
    (polygon (polygon s h).2 h).1 = (polygon s h).1 := by
  have hp : (polygon s h).1 = concat [(s.seqs h.data).left, (s.seqs h.data).right.invert] := by
    unfold polygon
    cases e : (s.seqs h.data).polygon with
    | none => rfl
    | some p => exact hu.poly p e
  have hr : ∀ l : List LS, ((l.map LineStr.invert).reverse.flatMap (Lanelet.points s.w)) =
      (l.flatMap (Lanelet.points s.w)).reverse := by
    intro l
    induction l with
    | nil => rfl
    | cons a l ih => simp [List.flatMap_append, ih, points_invert']
  refine ⟨?_, ?_, ?_, ?_, ?_⟩
  · rw [Compound.compound_points, hp, hu.left, hu.right]
    simp only [concat, Comp.invert, Comp.lineStrings, List.flatMap_cons, List.flatMap_nil, List.append_nil,
      Bool.false_eq_true, if_false, Bool.not_false, if_true, view_parts, List.flatMap_append, hr, List.flatMap_map,
      leftPts, rightPts]
    rfl
  all_goals
    unfold polygon
    cases e : (s.seqs h.data).polygon with
    | none =>
      simp only
      first
        | (refine ⟨?_, ?_, ?_⟩
           · rw [set_same]; exact hu.left
           · rw [set_same]; exact hu.right
           · intro p hp; rw [set_same] at hp ⊢; simpa using hp.symm)
        | (simp only [lanelets, set_same]; done)
        | (simp only [set_same]; done)
        | rfl
    | some p =>
      first
        | exact hu
        | rfl
        | (rw [e]; done)
        | (rw [e]; rfl)

/-- C46: the regulatory elements are those of the lanelets. -/
theorem regulatoryElements_spec (s : State P) (h : SH) (r : Nat) :
    r ∈ regulatoryElements s h ↔ ∃ l ∈ (s.seqs h.data).lanelets, r ∈ (s.w.lls l.data).regs := by
  unfold regulatoryElements lanelets
  cases h.inv <;> simp [List.mem_flatMap]

/-- C46: the iterators and lanelets() agree. -/
theorem at_spec (s : State P) (h : SH) (i : Nat) : at? s h i = (lanelets s h)[i]? := by
  unfold at? lanelets
  cases h.inv <;> rfl

/-- C46 (fails): the lanelets of an inverted sequence are not inverted, neither by lanelets() nor by the iterators. -/
theorem lanelets_inverted (s : State P) (h : SH) : lanelets s (invert h) = (lanelets s h).reverse := by
  obtain ⟨d, i⟩ := h
  cases i <;> simp [lanelets, invert]

/-! ### centerline -/

/-- points of the centerline of a lanelet -/
def centerPts (compute : List P → List P → List P) (w : World P) (l : LH) : List P :=
  (Lanelet.centerline compute w l).1

theorem centerOf_points (compute : List P → List P → List P) (w : World P) (l : LH) :
    partPoints w (centerOf compute w l).1 = centerPts compute w l ∧
    (centerOf compute w l).2.pts = w.pts ∧
    (centerOf compute w l).2 = (Lanelet.centerline compute w l).2 := by
  unfold centerOf centerPts Lanelet.centerline
  cases e : (w.lls l.data).center with
  | none => refine ⟨?_, rfl, rfl⟩; simp [partPoints]
  | some c => cases c <;> simp [partPoints]

/-- filling caches does not change any centerline -/
theorem centerPts_stable (compute : List P → List P → List P) (w : World P) (l l' : LH) :
    centerPts compute (centerOf compute w l).2 l' = centerPts compute w l' := by
  unfold centerOf
  cases e : (w.lls l.data).center with
  | some c => rfl
  | none =>
    simp only [centerPts, Lanelet.centerline, World.setLL]
    by_cases h : l'.data = l.data
    · simp [h, e]
    · simp only [if_neg h]
      cases (w.lls l'.data).center with
      | none => rfl
      | some c => cases c <;> rfl

theorem partPoints_pts (w w' : World P) (hw : w'.pts = w.pts) (c : CPart P) : partPoints w' c = partPoints w c := by
  unfold partPoints
  cases c.center <;> simp [Lanelet.points, hw]

theorem centersOf_points (compute : List P → List P → List P) (ls : List LH) : ∀ w : World P,
    (centersOf compute w ls).1.map (partPoints w) = ls.map (centerPts compute w) ∧
    (centersOf compute w ls).2.pts = w.pts ∧
    ∀ l', centerPts compute (centersOf compute w ls).2 l' = centerPts compute w l' := by
  induction ls with
  | nil => intro w; exact ⟨rfl, rfl, fun _ => rfl⟩
  | cons l ls ih =>
    intro w
    obtain ⟨h1, h2, -⟩ := centerOf_points compute w l
    obtain ⟨i1, i2, i3⟩ := ih (centerOf compute w l).2
    simp only [centersOf, List.map_cons]
    refine ⟨?_, i2.trans h2, fun l' => (i3 l').trans (centerPts_stable compute w l l')⟩
    rw [h1]
    congr 1
    have e1 : (centersOf compute (centerOf compute w l).2 ls).1.map (partPoints w) =
        (centersOf compute (centerOf compute w l).2 ls).1.map (partPoints (centerOf compute w l).2) :=
      List.map_congr_left fun c _ => (partPoints_pts _ _ h2 c).symm
    rw [e1, i1]
    exact List.map_congr_left fun l' _ => centerPts_stable compute w l l'

/-- C46: the centerline at its first access is the concatenation of the centerlines of the lanelets; the inverted sequence has
the inverted centerline; later accesses return the same object, as long as resetCache() is not called. -/
theorem centerline_spec (compute : List P → List P → List P) (s : State P) (h : SH) (hc : (s.seqs h.data).center = none) :
    let (c, s') := centerline compute s h
    let all := noRep ((s.seqs h.data).lanelets.flatMap (centerPts compute s.w))
    (shownC s'.w c).points = some (if h.inv then all.reverse else all) ∧
    (s'.seqs h.data).lanelets = (s.seqs h.data).lanelets ∧ leftBound s' h = leftBound s h ∧
    rightBound s' h = rightBound s h ∧ s'.w.pts = s.w.pts ∧
    (∀ l, centerPts compute s'.w l = centerPts compute s.w l) ∧
    (centerline compute s' h).1 = c ∧ (centerline compute s' (invert h)).1 = c.invert := by
  obtain ⟨i1, i2, i3⟩ := centersOf_points compute (s.seqs h.data).lanelets s.w
  simp only [centerline, centerlineD, hc]
  refine ⟨?_, by rw [set_same], ?_, ?_, ?_, ?_, ?_, ?_⟩
  · rw [Compound.compound_points]
    have e : (centersOf compute s.w (s.seqs h.data).lanelets).1.map
        (partPoints (State.set { s with w := (centersOf compute s.w (s.seqs h.data).lanelets).2 } h.data
          { s.seqs h.data with center := some ⟨(centersOf compute s.w (s.seqs h.data).lanelets).1, false⟩ }).w) =
        (s.seqs h.data).lanelets.map (centerPts compute s.w) := by
      rw [← i1]
      exact List.map_congr_left fun c _ => partPoints_pts _ _ i2 c
    cases hi : h.inv
    · simp only [Bool.false_eq_true, if_false, view, shownC, e, List.flatMap]
    · simp only [if_true, Comp.invert, Bool.not_false, view, shownC, e, List.flatMap]
  · simp only [leftBound, set_same]
  · simp only [rightBound, set_same]
  · exact i2
  · exact i3
  · simp only [set_same]
  · simp only [invert, set_same]
    cases h.inv <;> simp [Comp.invert]

/-! ### concatenation and equality -/

/-- C46: a sequence built from sequences that are not inverted has all their lanelets, and so the concatenated bounds. -/
theorem mkConcat_spec (s : State P) (d : Nat) (hs : List SH) (hi : ∀ h ∈ hs, h.inv = false) :
    let (h', s') := mkConcat s d hs
    (shown s'.w (leftBound s' h')).points =
      some (noRep (hs.flatMap fun h => (s.seqs h.data).lanelets.flatMap (leftPts s.w))) ∧
    (shown s'.w (rightBound s' h')).points =
      some (noRep (hs.flatMap fun h => (s.seqs h.data).lanelets.flatMap (rightPts s.w))) := by
  simp only [mkConcat, mk]
  have hu := (mk_upToDate s d (hs.flatMap (lanelets s)) ⟨0, false⟩).1
  simp only [mk] at hu
  obtain ⟨h1, h2, h3⟩ := hu
  obtain ⟨b1, b2⟩ := bounds_spec _ (⟨d, false⟩ : SH) h1 rfl
  have e : ∀ f : LH → List P, (hs.flatMap (lanelets s)).flatMap f = hs.flatMap fun h => (s.seqs h.data).lanelets.flatMap f := by
    intro f
    rw [List.flatMap_assoc]
    clear h1 h2 h3 b1 b2
    induction hs with
    | nil => rfl
    | cons h hs ih =>
      simp only [List.flatMap_cons]
      rw [ih fun x hx => hi x (List.mem_cons_of_mem _ hx)]
      have := hi h (List.mem_cons_self ..)
      simp [lanelets, this]
  rw [h2, e] at b1 b2
  exact ⟨b1, b2⟩

/-- C46: sequences that are not inverted are equal exactly if they have the same lanelets. -/
theorem equal_iff (s : State P) (a b : SH) (ha : a.inv = false) (hb : b.inv = false) :
    equal s a b = true ↔ (s.seqs a.data).lanelets = (s.seqs b.data).lanelets := by
  simp [equal, lanelets, ha, hb]

/-- C46: the number of segments of a compound polygon is the number of its points, except for empty ones. -/
theorem polyNumSegments_spec (c : Compound.CLS P) :
    polyNumSegments c = some (if view c = [] then 1 else (view c).length) := by
  simp only [polyNumSegments, Compound.compound_size, Option.bind_eq_bind, Option.bind_some, Option.pure_def]
  congr 1
  cases h : view c with
  | nil => rfl
  | cons x r => simp

/-! ### concrete cases -/

/-- two successive lanelets: left points 0, 1 and 1, 2, right points 5, 6 and 6, 7 -/
def exWorld : World Nat :=
  { pts := fun d => match d with | 0 => [0, 1] | 1 => [1, 2] | 2 => [5, 6] | 3 => [7, 6] | _ => [],
    ids := fun d => d + 1,
    lls := fun d => match d with
      | 0 => ⟨⟨0, false⟩, ⟨2, false⟩, [40], none⟩
      | _ => ⟨⟨1, false⟩, ⟨3, true⟩, [41], none⟩,
    ars := fun _ => ⟨[], [], [], [], []⟩ }

/-- Example. -/
def exState : State Nat := ⟨exWorld, fun _ => ⟨[], ⟨[], false⟩, ⟨[], false⟩, none, none⟩⟩

/-- Example. -/
def exSeq : SH × State Nat := mk exState 0 [⟨0, false⟩, ⟨1, false⟩]

example : UpToDate exSeq.2 exSeq.1.data ∧
    (shown exSeq.2.w (leftBound exSeq.2 exSeq.1)).points = some [0, 1, 2] ∧
    (shown exSeq.2.w (rightBound exSeq.2 exSeq.1)).points = some [5, 6, 7] ∧
    (shown exSeq.2.w (leftBound exSeq.2 (invert exSeq.1))).points = some [7, 6, 5] ∧
    (shown exSeq.2.w (polygon exSeq.2 exSeq.1).1).points = some [0, 1, 2, 7, 6, 5] ∧
    regulatoryElements exSeq.2 exSeq.1 = [40, 41] := by
  refine ⟨(mk_upToDate exState 0 _ ⟨0, false⟩).1.1, ?_, ?_, ?_, ?_, by decide⟩
  all_goals rw [Compound.compound_points]; decide

/-- C46 (fails): a sequence of one lanelet equals its inversion although its left bound differs. -/
theorem equal_inverted_counterexample :
    let (h, s) := mk exState 0 [⟨0, false⟩]
    equal s h (invert h) = true ∧ view (shown s.w (leftBound s h)) ≠ view (shown s.w (leftBound s (invert h))) := by
  decide

/-- C46 (fails): the sequence built from the lanelets of an inverted sequence, or by the concatenating constructor, has other
bounds: its lanelets are driven in the original direction, in the reverse order. -/
theorem concat_inverted_counterexample :
    let (h, s) := exSeq
    let (h', s') := mkConcat s 1 [invert h]
    view (shown s'.w (leftBound s' h')) = [1, 2, 0, 1] ∧ view (shown s.w (leftBound s (invert h))) = [7, 6, 5] := by
  decide

/-- C46 (fails): the lanelets of an inverted sequence are not inverted. -/
theorem lanelets_inverted_counterexample :
    let (h, s) := exSeq
    lanelets s (invert h) = [⟨1, false⟩, ⟨0, false⟩] ∧ lanelets s (invert h) ≠ ((lanelets s h).map invertL).reverse := by
  decide

/-- an empty compound polygon has one segment, which does not exist -/
theorem polyNumSegments_empty_counterexample :
    polyNumSegments (⟨[], false⟩ : Compound.CLS Nat) = some 1 ∧ (⟨[], false⟩ : Compound.CLS Nat).points = some [] := by
  constructor
  · rw [polyNumSegments_spec]; rfl
  · rw [Compound.compound_points]; rfl

end Verif.Seq
