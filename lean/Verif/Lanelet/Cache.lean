import Verif.Lanelet.Props

/-!
C14: cached centerlines and area polygons are never stale.
-/
namespace Verif.Lanelet
open Verif.LineStr

variable {P : Type}

/-- what a user can do to lanelets, areas and their linestrings; The member functions of Lanelet.h 221-300, Area.h 206-260 and LineString.h 364-516. -/
inductive Op (P : Type) where
  | setLeft (h : LH) (b : LS)
  | setRight (h : LH) (b : LS)
  | setCenterline (h : LH) (c : LS)
  | resetCache (h : LH)
  | askCenterline (h : LH)
  | editPoints (data : Nat) (pts : List P)
  | setOuter (area : Nat) (b : List LS)
  | setInner (area : Nat) (b : List (List LS))
  | newArea (area : Nat) (outer : List LS) (inner : List (List LS))

/-- Lanelet.h 221-300, Area.h 206-260, by the operation. -/
def step (compute : List P → List P → List P) (w : World P) : Op P → World P
  | .setLeft h b => setLeft w h b
  | .setRight h b => setRight w h b
  | .setCenterline h c => setCenterline w h c
  | .resetCache h => resetCache w h.data
  | .askCenterline h => (centerline compute w h).2
  | .editPoints d pts => { w with pts := fun d' => if d' = d then pts else w.pts d' }
  | .setOuter a b => setOuter w a b
  | .setInner a b => setInner w a b
  | .newArea a o i => w.setAr a (mkArea o i [])

/-- A history of operations (helper of the properties). -/
def run (compute : List P → List P → List P) (w : World P) (ops : List (Op P)) : World P := ops.foldl (step compute) w

/-! ### Specification -/

/-- what is to be seen of a lanelet: bounds and explicitly set centerline, in the direction of the lanelet; Specification. -/
structure Seen where
  left : LS
  right : LS
  custom : Option LS

/-- Specification: what the inverted handle shows. -/
def Seen.inverted (s : Seen) : Seen := ⟨invert s.right, invert s.left, s.custom.map invert⟩

/-- a centerline without valid id counts only until the lanelet is changed; Specification. -/
def Seen.drop (ids : Nat → Int) (s : Seen) : Seen := { s with custom := s.custom.filter fun c => ids c.data ≠ 0 }

/-- effect of an operation, called on a handle that sees `s`; Specification. -/
def Seen.effect (ids : Nat → Int) (s : Seen) : Op P → Seen
  | .setLeft _ b => if b = s.left then s else { s.drop ids with left := b }
  | .setRight _ b => if b = s.right then s else { s.drop ids with right := b }
  | .setCenterline _ c => { s with custom := some c }
  | .resetCache _ => s.drop ids
  | _ => s

/-- The lanelet handle that an operation is called on. -/
def Op.handle : Op P → Option LH
  | .setLeft h _ | .setRight h _ | .setCenterline h _ | .resetCache h | .askCenterline h => some h
  | _ => none

/-- what lanelet `d` shows after an operation: nothing happens unless it is addressed; addressed by an inverted handle
everything happens to the inverted lanelet; Specification. -/
def Seen.step (ids : Nat → Int) (d : Nat) (s : Seen) (op : Op P) : Seen :=
  match op.handle with
  | none => s
  | some h => if h.data ≠ d then s else if h.inv then (s.inverted.effect ids op).inverted else s.effect ids op

/-- what lanelet `d` shows after a history of operations; Specification. -/
def Seen.after (ids : Nat → Int) (d : Nat) (s : Seen) (ops : List (Op P)) : Seen := ops.foldl (Seen.step ids d) s

/-- Specification: nobody moves, adds or removes points of linestrings. -/
def noEdits (ops : List (Op P)) : Prop := ∀ op ∈ ops, ∀ d pts, op ≠ .editPoints d pts

/-- the state of a lanelet in the world; Specification. -/
def seen (w : World P) (d : Nat) : Seen :=
  ⟨(w.lls d).left, (w.lls d).right, match (w.lls d).center with | some (.given c) => some c | _ => none⟩

/-! ### Invariant -/

/-- a computed centerline in the cache belongs to the current bounds; Specification. -/
def Fresh (compute : List P → List P → List P) (w : World P) (d : Nat) : Prop :=
  ∀ pts, (w.lls d).center = some (.made pts) → pts = compute (points w (w.lls d).left) (points w (w.lls d).right)

theorem step_ids (compute : List P → List P → List P) (w : World P) (op : Op P) : (step compute w op).ids = w.ids := by
  cases op with
  | setLeft h b =>
    simp only [step, setLeft]; split
    · exact (setRightD_spec w _ _).2.2.2.2.2.1
    · exact (setLeftD_spec w _ _).2.2.2.2.2.1
  | setRight h b =>
    simp only [step, setRight]; split
    · exact (setLeftD_spec w _ _).2.2.2.2.2.1
    · exact (setRightD_spec w _ _).2.2.2.2.2.1
  | resetCache h => exact (resetCache_bounds w h.data 0).2.2.2.2.2.1
  | askCenterline h => simp only [step, centerline]; split <;> rfl
  | _ => rfl

theorem seen_resetCache (w : World P) (d : Nat) :
    seen (resetCache w d) d = (seen w d).drop w.ids ∧
    (∀ pts, ((resetCache w d).lls d).center ≠ some (.made pts)) := by
  unfold resetCache hasCustom
  cases hc : (w.lls d).center with
  | none => simp [seen, Seen.drop, hc, World.setLL]
  | some c =>
    cases c with
    | made pts => simp [seen, Seen.drop, hc, World.setLL]
    | given c =>
      by_cases hi : w.ids c.data = 0
      · simp [seen, Seen.drop, hc, hi, World.setLL, Option.filter, invalId]
      · simp [seen, Seen.drop, hc, hi, Option.filter, invalId]

theorem seen_setLeftD (w : World P) (d : Nat) (b : LS) :
    seen (setLeftD w d b) d = (if b = (seen w d).left then seen w d else { (seen w d).drop w.ids with left := b }) ∧
    ((b ≠ (w.lls d).left) → ∀ pts, ((setLeftD w d b).lls d).center ≠ some (.made pts)) := by
  unfold setLeftD
  by_cases h : b = (w.lls d).left
  · simp [h, seen]
  · obtain ⟨h1, h2⟩ := seen_resetCache w d
    have e : b ≠ (seen w d).left := h
    refine ⟨?_, fun _ => ?_⟩
    · rw [if_neg e, ← h1]
      simp only [ne_eq, h, not_false_eq_true, if_true]
      simp [seen, World.setLL]
    · simp only [ne_eq, h, not_false_eq_true, if_true]
      simpa [World.setLL] using h2

theorem seen_setRightD (w : World P) (d : Nat) (b : LS) :
    seen (setRightD w d b) d = (if b = (seen w d).right then seen w d else { (seen w d).drop w.ids with right := b }) ∧
    ((b ≠ (w.lls d).right) → ∀ pts, ((setRightD w d b).lls d).center ≠ some (.made pts)) := by
  unfold setRightD
  by_cases h : b = (w.lls d).right
  · simp [h, seen]
  · obtain ⟨h1, h2⟩ := seen_resetCache w d
    have e : b ≠ (seen w d).right := h
    refine ⟨?_, fun _ => ?_⟩
    · rw [if_neg e, ← h1]
      simp only [ne_eq, h, not_false_eq_true, if_true]
      simp [seen, World.setLL]
    · simp only [ne_eq, h, not_false_eq_true, if_true]
      simpa [World.setLL] using h2

theorem setLeftD_same (w : World P) (d : Nat) (b : LS) (h : b = (w.lls d).left) : setLeftD w d b = w := by
  simp [setLeftD, h]

theorem setRightD_same (w : World P) (d : Nat) (b : LS) (h : b = (w.lls d).right) : setRightD w d b = w := by
  simp [setRightD, h]

theorem fresh_setLeftD (compute : List P → List P → List P) (w : World P) (d : Nat) (b : LS) (h : Fresh compute w d) :
    Fresh compute (setLeftD w d b) d := by
  by_cases e : b = (w.lls d).left
  · rw [setLeftD_same _ _ _ e]; exact h
  · intro pts hp; exact absurd hp ((seen_setLeftD w d b).2 e pts)

theorem fresh_setRightD (compute : List P → List P → List P) (w : World P) (d : Nat) (b : LS) (h : Fresh compute w d) :
    Fresh compute (setRightD w d b) d := by
  by_cases e : b = (w.lls d).right
  · rw [setRightD_same _ _ _ e]; exact h
  · intro pts hp; exact absurd hp ((seen_setRightD w d b).2 e pts)

theorem map_invert_filter (ids : Nat → Int) (o : Option LS) :
    ((o.map invert).filter fun c => ids c.data ≠ 0).map invert = o.filter fun c => ids c.data ≠ 0 := by
  cases o with
  | none => rfl
  | some c =>
    by_cases h : ids c.data = 0
    · simp [Option.filter, invert, h]
    · simp [Option.filter, invert, h]

@[simp] theorem Seen.inverted_inverted (s : Seen) : s.inverted.inverted = s := by
  cases s with
  | mk l r c => cases c <;> simp [Seen.inverted]

/-- operations that do not address `d` and are no edits leave it as it is -/
theorem step_other (compute : List P → List P → List P) (w : World P) (op : Op P) (d : Nat)
    (hd : ∀ h, op.handle = some h → h.data ≠ d) : (step compute w op).lls d = w.lls d := by
  cases op with
  | setLeft h b =>
    have hd := (hd h rfl).symm
    simp only [step, setLeft]; split
    · exact (setRightD_spec w _ _).2.2.2.1 _ hd
    · exact (setLeftD_spec w _ _).2.2.2.1 _ hd
  | setRight h b =>
    have hd := (hd h rfl).symm
    simp only [step, setRight]; split
    · exact (setLeftD_spec w _ _).2.2.2.1 _ hd
    · exact (setRightD_spec w _ _).2.2.2.1 _ hd
  | setCenterline h c => have hd := (hd h rfl).symm; simp [step, setCenterline, World.setLL, hd]
  | resetCache h => exact (resetCache_bounds w h.data d).2.2.2.1 (hd h rfl).symm
  | askCenterline h =>
    have hd := (hd h rfl).symm
    simp only [step, centerline]; split <;> simp [World.setLL, hd]
  | _ => rfl

theorem step_pts (compute : List P → List P → List P) (w : World P) (op : Op P)
    (hop : ∀ d pts, op ≠ .editPoints d pts) : (step compute w op).pts = w.pts := by
  cases op with
  | setLeft h b =>
    simp only [step, setLeft]; split
    · exact (setRightD_spec w _ _).2.2.2.2.1
    · exact (setLeftD_spec w _ _).2.2.2.2.1
  | setRight h b =>
    simp only [step, setRight]; split
    · exact (setLeftD_spec w _ _).2.2.2.2.1
    · exact (setRightD_spec w _ _).2.2.2.2.1
  | setCenterline h c => rfl
  | resetCache h => exact (resetCache_bounds w h.data 0).2.2.2.2.1
  | askCenterline h => simp only [step, centerline]; split <;> rfl
  | editPoints d pts => exact absurd rfl (hop d pts)
  | _ => rfl

theorem seen_step (compute : List P → List P → List P) (w : World P) (op : Op P) (d : Nat) :
    seen (step compute w op) d = (seen w d).step w.ids d op := by
  by_cases hd : ∀ h, op.handle = some h → h.data ≠ d
  · have e := step_other compute w op d hd
    have : seen (step compute w op) d = seen w d := by simp only [seen, e]
    rw [this]
    unfold Seen.step
    cases ho : op.handle with
    | none => rfl
    | some h => simp [hd h ho]
  · simp only [Classical.not_forall, ne_eq, Decidable.not_not] at hd
    obtain ⟨h, ho, hdd⟩ := hd
    subst hdd
    simp only [Seen.step, ho, ne_eq, not_true, if_false]
    cases op with
    | setLeft h' b =>
      obtain rfl : h' = h := by simpa [Op.handle] using ho
      simp only [step, setLeft]
      by_cases hi : h'.inv = true
      · rw [if_pos hi, if_pos hi, (seen_setRightD w h'.data (invert b)).1]
        simp only [Seen.effect]
        by_cases e : invert b = (seen w h'.data).right
        · rw [if_pos e, if_pos (by simp [Seen.inverted, ← e])]; simp
        · rw [if_neg e, if_neg (by intro e'; apply e; rw [e']; simp [Seen.inverted])]
          simp only [Seen.inverted, Seen.drop, map_invert_filter, invert_invert]
      · rw [if_neg hi, if_neg hi, (seen_setLeftD w h'.data b).1]; rfl
    | setRight h' b =>
      obtain rfl : h' = h := by simpa [Op.handle] using ho
      simp only [step, setRight]
      by_cases hi : h'.inv = true
      · rw [if_pos hi, if_pos hi, (seen_setLeftD w h'.data (invert b)).1]
        simp only [Seen.effect]
        by_cases e : invert b = (seen w h'.data).left
        · rw [if_pos e, if_pos (by simp [Seen.inverted, ← e])]; simp
        · rw [if_neg e, if_neg (by intro e'; apply e; rw [e']; simp [Seen.inverted])]
          simp only [Seen.inverted, Seen.drop, map_invert_filter, invert_invert]
      · rw [if_neg hi, if_neg hi, (seen_setRightD w h'.data b).1]; rfl
    | setCenterline h' c =>
      obtain rfl : h' = h := by simpa [Op.handle] using ho
      by_cases hi : h'.inv = true <;> simp [hi, step, setCenterline, seen, World.setLL, Seen.inverted, Seen.effect]
    | resetCache h' =>
      obtain rfl : h' = h := by simpa [Op.handle] using ho
      simp only [step, (seen_resetCache w h'.data).1, Seen.effect]
      split
      · simp only [Seen.inverted, Seen.drop, map_invert_filter, invert_invert]
      · rfl
    | askCenterline h' =>
      obtain rfl : h' = h := by simpa [Op.handle] using ho
      simp only [step, centerline, Seen.effect, Seen.inverted_inverted, ite_self]
      cases hc : (w.lls h'.data).center with
      | none => simp [seen, World.setLL, hc]
      | some c => cases c <;> simp [seen, hc]
    | editPoints _ _ => cases ho
    | setOuter _ _ => cases ho
    | setInner _ _ => cases ho
    | newArea _ _ _ => cases ho

theorem fresh_step (compute : List P → List P → List P) (w : World P) (op : Op P) (d : Nat)
    (hop : ∀ d pts, op ≠ .editPoints d pts) (hf : Fresh compute w d) : Fresh compute (step compute w op) d := by
  have hpts := step_pts compute w op hop
  by_cases hd : ∀ h, op.handle = some h → h.data ≠ d
  · have e := step_other compute w op d hd
    intro pts hp
    rw [e] at hp
    have := hf pts hp
    simp only [points, hpts, e] at this ⊢
    exact this
  · simp only [Classical.not_forall, ne_eq, Decidable.not_not] at hd
    obtain ⟨h, ho, hdd⟩ := hd
    subst hdd
    cases op with
    | setLeft h' b =>
      obtain rfl : h' = h := by simpa [Op.handle] using ho
      simp only [step, setLeft]
      split
      · exact fresh_setRightD _ _ _ _ hf
      · exact fresh_setLeftD _ _ _ _ hf
    | setRight h' b =>
      obtain rfl : h' = h := by simpa [Op.handle] using ho
      simp only [step, setRight]
      split
      · exact fresh_setLeftD _ _ _ _ hf
      · exact fresh_setRightD _ _ _ _ hf
    | setCenterline h' c =>
      obtain rfl : h' = h := by simpa [Op.handle] using ho
      intro pts hp
      simp [step, setCenterline, World.setLL] at hp
    | resetCache h' =>
      obtain rfl : h' = h := by simpa [Op.handle] using ho
      intro pts hp
      exact absurd hp ((seen_resetCache w h'.data).2 pts)
    | askCenterline h' =>
      obtain rfl : h' = h := by simpa [Op.handle] using ho
      intro pts hp
      simp only [step, centerline] at hp ⊢
      cases hc : (w.lls h'.data).center with
      | none =>
        simp only [hc] at hp ⊢
        simp [World.setLL] at hp
        subst hp
        simp [World.setLL, points]
      | some c =>
        simp only [hc] at hp ⊢
        cases c with
        | given _ => simp only at hp; rw [hc] at hp; cases hp
        | made p => simp only at hp ⊢; exact hf pts hp
    | editPoints d pts => exact absurd rfl (hop d pts)
    | setOuter _ _ => cases ho
    | setInner _ _ => cases ho
    | newArea _ _ _ => cases ho

theorem run_spec (compute : List P → List P → List P) (d : Nat) (ops : List (Op P)) :
    ∀ (w : World P), seen (run compute w ops) d = (seen w d).after w.ids d ops ∧ (run compute w ops).ids = w.ids ∧
      (noEdits ops → Fresh compute w d → Fresh compute (run compute w ops) d) := by
  induction ops with
  | nil => intro w; exact ⟨rfl, rfl, fun _ h => h⟩
  | cons op ops ih =>
    intro w
    obtain ⟨h1, h2, h3⟩ := ih (step compute w op)
    refine ⟨?_, ?_, ?_⟩
    · show seen (run compute (step compute w op) ops) d = _
      rw [h1, step_ids, seen_step]; rfl
    · show (run compute (step compute w op) ops).ids = _
      rw [h2, step_ids]
    · intro hn hf
      exact h3 (fun o ho => hn o (by simp [ho])) (fresh_step compute w op d (hn op (by simp)) hf)

/-- what `centerline()` must return: the explicitly set centerline, else the one computed from the current bounds; Specification. -/
def expected (compute : List P → List P → List P) (w : World P) (s : Seen) : List P :=
  match s.custom with
  | some c => points w c
  | none => compute (points w s.left) (points w s.right)

theorem centerline_of_fresh (compute : List P → List P → List P) (w : World P) (h : LH) (hf : Fresh compute w h.data) :
    (centerline compute w h).1 =
      if h.inv then (expected compute w (seen w h.data)).reverse else expected compute w (seen w h.data) := by
  have : (match (w.lls h.data).center with
    | some (.given ls) => points w ls
    | some (.made pts) => pts
    | none => compute (points w (w.lls h.data).left) (points w (w.lls h.data).right)) =
      expected compute w (seen w h.data) := by
    cases hc : (w.lls h.data).center with
    | none => simp [expected, seen, hc]
    | some c =>
      cases c with
      | given c => simp [expected, seen, hc]
      | made p => simp [expected, seen, hc, hf p hc]
  rw [← this]
  unfold centerline
  cases hc : (w.lls h.data).center with
  | none => rfl
  | some c => cases c <;> rfl

/-- **C14, lanelets.** Lanelet `d` is new (no centerline asked for or set). After any history of setting bounds and
centerlines through any handles, resetting and asking, in which no linestring is edited, its bounds are those set last,
and `centerline()` returns the centerline set last (a centerline without id only until the next change of a bound), else
what is computed from the current bounds; reversed for the inverted handle. -/
theorem centerline_never_stale (compute : List P → List P → List P) (w : World P) (h : LH)
    (hnew : (w.lls h.data).center = none) (ops : List (Op P)) (hops : noEdits ops) :
    let w' := run compute w ops
    let s := Seen.after w.ids h.data ⟨(w.lls h.data).left, (w.lls h.data).right, none⟩ ops
    (w'.lls h.data).left = s.left ∧ (w'.lls h.data).right = s.right ∧
    (centerline compute w' h).1 = if h.inv then (expected compute w' s).reverse else expected compute w' s := by
  intro w' s
  obtain ⟨h1, h2, h3⟩ := run_spec compute h.data ops w
  have hs : seen w' h.data = s := by
    show seen (run compute w ops) h.data = _
    rw [h1]; simp [seen, hnew, s]
  have hf : Fresh compute w' h.data := h3 hops (fun pts hp => by rw [hnew] at hp; cases hp)
  exact ⟨by rw [← hs]; rfl, by rw [← hs]; rfl, by rw [centerline_of_fresh compute w' h hf, hs]⟩

/-- The same if linestrings were edited, provided the cache was reset afterwards. -/
theorem centerline_after_reset (compute : List P → List P → List P) (w : World P) (h h' : LH)
    (hsame : h'.data = h.data) (before ops : List (Op P)) (hops : noEdits ops) :
    let w' := run compute w (before ++ [.resetCache h'] ++ ops)
    let s := (seen w h.data).after w.ids h.data (before ++ [.resetCache h'] ++ ops)
    (centerline compute w' h).1 = if h.inv then (expected compute w' s).reverse else expected compute w' s := by
  intro w' s
  obtain ⟨h1, -, -⟩ := run_spec compute h.data (before ++ [.resetCache h'] ++ ops) w
  have hf : Fresh compute w' h.data := by
    have e : w' = run compute (resetCache (run compute w before) h'.data) ops := by
      simp [w', run, step]
    rw [e]
    refine (run_spec compute h.data ops _).2.2 hops ?_
    intro pts hp
    rw [← hsame] at hp
    exact absurd hp ((seen_resetCache _ h'.data).2 pts)
  rw [centerline_of_fresh compute w' h hf]
  have : seen w' h.data = s := h1
  rw [this]

/-- Editing the points of a bound without resetting leaves the old centerline in place. -/
theorem centerline_edit_counterexample :
    ∃ (compute : List Nat → List Nat → List Nat) (w : World Nat) (h : LH) (ops : List (Op Nat)),
      (w.lls h.data).center = none ∧
      (centerline compute (run compute w ops) h).1 ≠
        compute (points (run compute w ops) (leftBound (run compute w ops) h))
          (points (run compute w ops) (rightBound (run compute w ops) h)) :=
  ⟨fun a b => a ++ b, ⟨fun _ => [1], fun _ => 5, fun _ => ⟨⟨1, false⟩, ⟨2, false⟩, [], none⟩, fun _ => ⟨[], [], [], [], []⟩⟩,
    ⟨0, false⟩, [.askCenterline ⟨0, false⟩, .editPoints 1 [7]], rfl, by decide⟩

/-! ### Areas -/

/-- bounds of an area according to the history; Specification. -/
def boundsAfter (a : Nat) (s : List LS × List (List LS)) (ops : List (Op P)) : List LS × List (List LS) :=
  ops.foldl (fun s op => match op with
    | .setOuter a' b => if a' = a then (b, s.2) else s
    | .setInner a' b => if a' = a then (s.1, b) else s
    | .newArea a' o i => if a' = a then (o, i) else s
    | _ => s) s

/-- **C14, areas.** An area is created; after any further history the bounds are those set last, and the polygons are made
of exactly these bounds. -/
theorem area_polygons_never_stale (compute : List P → List P → List P) (w : World P) (a : Nat) (o : List LS)
    (i : List (List LS)) (ops : List (Op P)) :
    let x := (run compute (step compute w (.newArea a o i)) ops).ars a
    (x.outer, x.inner) = boundsAfter a (o, i) ops ∧ x.outerPoly = x.outer ∧ x.innerPolys = x.inner := by
  suffices ∀ (w : World P), (w.ars a).outerPoly = (w.ars a).outer → (w.ars a).innerPolys = (w.ars a).inner →
      let x := (run compute w ops).ars a
      (x.outer, x.inner) = boundsAfter a ((w.ars a).outer, (w.ars a).inner) ops ∧ x.outerPoly = x.outer ∧
        x.innerPolys = x.inner by
    have h := this (step compute w (.newArea a o i)) (by simp [step, World.setAr, mkArea, resetCacheA])
      (by simp [step, World.setAr, mkArea, resetCacheA])
    simpa [step, World.setAr, mkArea, resetCacheA] using h
  induction ops with
  | nil => intro w h1 h2; exact ⟨rfl, h1, h2⟩
  | cons op ops ih =>
    intro w h1 h2
    have keep : (step compute w op).ars = w.ars →
        (boundsAfter a ((w.ars a).outer, (w.ars a).inner) (op :: ops) =
          boundsAfter a ((w.ars a).outer, (w.ars a).inner) ops) → _ := fun he hb => by
      have := ih (step compute w op) (by rw [he]; exact h1) (by rw [he]; exact h2)
      rw [he, ← hb] at this
      exact this
    cases op with
    | setLeft h b =>
      refine keep ?_ rfl
      simp only [step, setLeft]; split
      · exact (setRightD_spec w _ _).2.2.2.2.2.2
      · exact (setLeftD_spec w _ _).2.2.2.2.2.2
    | setRight h b =>
      refine keep ?_ rfl
      simp only [step, setRight]; split
      · exact (setLeftD_spec w _ _).2.2.2.2.2.2
      · exact (setRightD_spec w _ _).2.2.2.2.2.2
    | setCenterline h c => exact keep rfl rfl
    | resetCache h => exact keep (resetCache_bounds w h.data 0).2.2.2.2.2.2 rfl
    | askCenterline h => exact keep (by simp only [step, centerline]; split <;> rfl) rfl
    | editPoints d p => exact keep rfl rfl
    | setOuter a' b =>
      have := ih (setOuter w a' b)
      by_cases e : a = a'
      · subst e
        simpa [setOuter, World.setAr, resetCacheA, boundsAfter, run, step] using
          this (by simp [setOuter, World.setAr, resetCacheA]) (by simp [setOuter, World.setAr, resetCacheA])
      · simpa [setOuter, World.setAr, resetCacheA, boundsAfter, run, step, e, Ne.symm e] using
          this (by simpa [setOuter, World.setAr, resetCacheA, e] using h1)
            (by simpa [setOuter, World.setAr, resetCacheA, e] using h2)
    | setInner a' b =>
      have := ih (setInner w a' b)
      by_cases e : a = a'
      · subst e
        simpa [setInner, World.setAr, resetCacheA, boundsAfter, run, step] using
          this (by simp [setInner, World.setAr, resetCacheA]) (by simp [setInner, World.setAr, resetCacheA])
      · simpa [setInner, World.setAr, resetCacheA, boundsAfter, run, step, e, Ne.symm e] using
          this (by simpa [setInner, World.setAr, resetCacheA, e] using h1)
            (by simpa [setInner, World.setAr, resetCacheA, e] using h2)
    | newArea a' o' i' =>
      have := ih (w.setAr a' (mkArea o' i' []))
      by_cases e : a = a'
      · subst e
        simpa [mkArea, World.setAr, resetCacheA, boundsAfter, run, step] using
          this (by simp [mkArea, World.setAr, resetCacheA]) (by simp [mkArea, World.setAr, resetCacheA])
      · simpa [mkArea, World.setAr, resetCacheA, boundsAfter, run, step, e, Ne.symm e] using
          this (by simpa [mkArea, World.setAr, resetCacheA, e] using h1)
            (by simpa [mkArea, World.setAr, resetCacheA, e] using h2)

/-! A history: ask, then set another left bound through the inverted handle, then a centerline with id. -/
example :
    let w : World Nat := ⟨fun d => [d, d + 10], fun _ => 5, fun _ => ⟨⟨1, false⟩, ⟨2, false⟩, [], none⟩,
      fun _ => ⟨[], [], [], [], []⟩⟩
    let ops : List (Op Nat) := [.askCenterline ⟨0, false⟩, .setLeft ⟨0, true⟩ ⟨3, true⟩]
    (w.lls 0).center.isNone ∧
    (centerline (fun a b => a ++ b) (run (fun a b => a ++ b) w ops) ⟨0, true⟩).1 = [13, 3, 11, 1] ∧
    (centerline (fun a b => a ++ b) (run (fun a b => a ++ b) w (ops ++ [.setCenterline ⟨0, true⟩ ⟨4, false⟩,
      .setRight ⟨0, false⟩ ⟨1, true⟩])) ⟨0, false⟩).1 = [14, 4] := by decide

example :
    let w : World Nat := ⟨fun d => [d, d + 10], fun _ => 5, fun _ => ⟨⟨1, false⟩, ⟨2, false⟩, [], none⟩,
      fun _ => ⟨[], [], [], [], []⟩⟩
    noEdits [Op.askCenterline (P := Nat) ⟨0, false⟩, .setLeft ⟨0, true⟩ ⟨3, true⟩] ∧
    ((run (fun a b => a ++ b) w [.newArea 1 [⟨1, false⟩] [], .setOuter 1 [⟨2, false⟩, ⟨3, true⟩]]).ars 1).outerPoly =
      [⟨2, false⟩, ⟨3, true⟩] := by
  refine ⟨?_, by decide⟩
  intro op hop
  simp only [List.mem_cons, List.not_mem_nil, or_false] at hop
  rcases hop with rfl | rfl <;> intros <;> simp

end Verif.Lanelet
