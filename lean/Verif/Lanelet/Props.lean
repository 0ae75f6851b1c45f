import Verif.Lanelet.Model

/-!
C13 (inversion of lanelets) and C14 (caches are never stale).
-/
namespace Verif.Lanelet
open Verif.LineStr

variable {P : Type}

@[simp] theorem invert_invert (ls : LS) : invert (invert ls) = ls := by cases ls; simp [invert]
@[simp] theorem invertL_invertL (h : LH) : invertL (invertL h) = h := by cases h; simp [invertL]
theorem invert_inj {a b : LS} : invert a = invert b ↔ a = b :=
  ⟨fun h => by have := congrArg invert h; simpa using this, fun h => by rw [h]⟩

theorem points_invert (w : World P) (ls : LS) : points w (invert ls) = (points w ls).reverse := by
  cases ls with
  | mk d i => cases i <;> simp [points, invert]

/-! ### C13 -/

/-- An inverted lanelet has the bounds of the original swapped and in reverse; inverting twice gives the original; the
inverted lanelet is a different lanelet; its centerline is the reversed one and its polygon the same. -/
theorem invert_spec (compute : List P → List P → List P) (w : World P) (h : LH) :
    leftBound w (invertL h) = invert (rightBound w h) ∧ rightBound w (invertL h) = invert (leftBound w h) ∧
    points w (leftBound w (invertL h)) = (points w (rightBound w h)).reverse ∧
    points w (rightBound w (invertL h)) = (points w (leftBound w h)).reverse ∧
    invertL (invertL h) = h ∧ invertL h ≠ h ∧
    (centerline compute w (invertL h)).1 = (centerline compute w h).1.reverse ∧
    polygon w (invertL h) = polygon w h := by
  have h1 : leftBound w (invertL h) = invert (rightBound w h) := by
    cases h with
    | mk d i => cases i <;> simp [leftBound, rightBound, invertL]
  have h2 : rightBound w (invertL h) = invert (leftBound w h) := by
    cases h with
    | mk d i => cases i <;> simp [leftBound, rightBound, invertL]
  refine ⟨h1, h2, by rw [h1, points_invert], by rw [h2, points_invert], by simp, ?_, ?_, rfl⟩
  · cases h with
    | mk d i => cases i <;> simp [invertL]
  · cases h with
    | mk d i => cases i <;> simp [centerline, invertL]

theorem resetCache_bounds (w : World P) (d d' : Nat) :
    ((resetCache w d).lls d').left = (w.lls d').left ∧ ((resetCache w d).lls d').right = (w.lls d').right ∧
    ((resetCache w d).lls d').regs = (w.lls d').regs ∧ (d' ≠ d → (resetCache w d).lls d' = w.lls d') ∧
    (resetCache w d).pts = w.pts ∧ (resetCache w d).ids = w.ids ∧ (resetCache w d).ars = w.ars := by
  unfold resetCache
  split
  · simp
  · by_cases e : d' = d <;> simp [World.setLL, e]

theorem setLeftD_spec (w : World P) (d : Nat) (b : LS) :
    ((setLeftD w d b).lls d).left = b ∧ ((setLeftD w d b).lls d).right = (w.lls d).right ∧
    ((setLeftD w d b).lls d).regs = (w.lls d).regs ∧ (∀ d', d' ≠ d → (setLeftD w d b).lls d' = w.lls d') ∧
    (setLeftD w d b).pts = w.pts ∧ (setLeftD w d b).ids = w.ids ∧ (setLeftD w d b).ars = w.ars := by
  unfold setLeftD
  split
  · have hr := fun d' => resetCache_bounds w d d'
    refine ⟨by simp [World.setLL], ?_, ?_, ?_, (hr d).2.2.2.2.1, (hr d).2.2.2.2.2.1, (hr d).2.2.2.2.2.2⟩
    · simp [World.setLL, (hr d).2.1]
    · simp [World.setLL, (hr d).2.2.1]
    · intro d' hd
      simp only [World.setLL, if_neg hd]
      exact (hr d').2.2.2.1 hd
  · rename_i h
    simp only [ne_eq, Decidable.not_not] at h
    simp [h]

theorem setRightD_spec (w : World P) (d : Nat) (b : LS) :
    ((setRightD w d b).lls d).right = b ∧ ((setRightD w d b).lls d).left = (w.lls d).left ∧
    ((setRightD w d b).lls d).regs = (w.lls d).regs ∧ (∀ d', d' ≠ d → (setRightD w d b).lls d' = w.lls d') ∧
    (setRightD w d b).pts = w.pts ∧ (setRightD w d b).ids = w.ids ∧ (setRightD w d b).ars = w.ars := by
  unfold setRightD
  split
  · have hr := fun d' => resetCache_bounds w d d'
    refine ⟨by simp [World.setLL], ?_, ?_, ?_, (hr d).2.2.2.2.1, (hr d).2.2.2.2.2.1, (hr d).2.2.2.2.2.2⟩
    · simp [World.setLL, (hr d).1]
    · simp [World.setLL, (hr d).2.2.1]
    · intro d' hd
      simp only [World.setLL, if_neg hd]
      exact (hr d').2.2.2.1 hd
  · rename_i h
    simp only [ne_eq, Decidable.not_not] at h
    simp [h]

/-- Setting a bound through a handle, inverted or not: this handle has the new bound on that side and its other side is
unchanged; the opposite handle has it on the other side; other lanelets keep their bounds. -/
theorem setBound_spec (w : World P) (h : LH) (b : LS) :
    (leftBound (setLeft w h b) h = b ∧ rightBound (setLeft w h b) h = rightBound w h ∧
      rightBound (setLeft w h b) (invertL h) = invert b ∧
      leftBound (setLeft w h b) (invertL h) = leftBound w (invertL h) ∧
      ∀ h' : LH, h'.data ≠ h.data → leftBound (setLeft w h b) h' = leftBound w h' ∧
        rightBound (setLeft w h b) h' = rightBound w h') ∧
    (rightBound (setRight w h b) h = b ∧ leftBound (setRight w h b) h = leftBound w h ∧
      leftBound (setRight w h b) (invertL h) = invert b ∧
      rightBound (setRight w h b) (invertL h) = rightBound w (invertL h) ∧
      ∀ h' : LH, h'.data ≠ h.data → leftBound (setRight w h b) h' = leftBound w h' ∧
        rightBound (setRight w h b) h' = rightBound w h') := by
  obtain ⟨d, i⟩ := h
  cases i
  · obtain ⟨a1, a2, -, a4, -⟩ := setLeftD_spec w d b
    obtain ⟨b1, b2, -, b4, -⟩ := setRightD_spec w d b
    refine ⟨⟨?_, ?_, ?_, ?_, ?_⟩, ?_, ?_, ?_, ?_, ?_⟩
    all_goals first
      | (intro h' hh; simp [leftBound, rightBound, setLeft, a4 _ hh]; done)
      | (intro h' hh; simp [leftBound, rightBound, setRight, b4 _ hh]; done)
      | simp [leftBound, rightBound, setLeft, setRight, invertL, a1, a2, b1, b2]
  · obtain ⟨a1, a2, -, a4, -⟩ := setLeftD_spec w d (invert b)
    obtain ⟨b1, b2, -, b4, -⟩ := setRightD_spec w d (invert b)
    refine ⟨⟨?_, ?_, ?_, ?_, ?_⟩, ?_, ?_, ?_, ?_, ?_⟩
    all_goals first
      | (intro h' hh; simp [leftBound, rightBound, setLeft, b4 _ hh]; done)
      | (intro h' hh; simp [leftBound, rightBound, setRight, a4 _ hh]; done)
      | simp [leftBound, rightBound, setLeft, setRight, invertL, a1, a2, b1, b2]

/-- Setting a centerline through a handle: the handle shows it in its own order, the inverted handle in reverse. -/
theorem setCenterline_spec (compute : List P → List P → List P) (w : World P) (h : LH) (c : LS) :
    (centerline compute (setCenterline w h c) h).1 = points w c ∧
    (centerline compute (setCenterline w h c) (invertL h)).1 = (points w c).reverse := by
  have : (centerline compute (setCenterline w h c) h).1 = points w c := by
    cases h with
    | mk d i =>
      cases i
      · simp [centerline, setCenterline, World.setLL, points]
      · have : (points w (invert c)).reverse = points w c := by rw [points_invert, List.reverse_reverse]
        simpa [centerline, setCenterline, World.setLL, points] using this
  exact ⟨this, by rw [(invert_spec compute _ h).2.2.2.2.2.2.1, this]⟩

/-- `a` is left of `b` iff the right bound of `a` is the left bound of `b`: the same linestring in the same direction.
Seen from the inverted lanelets the roles are exchanged. rightOf is the converse. -/
theorem leftOf_spec (w : World P) (a b : LH) :
    (leftOf w a b = true ↔ rightBound w a = leftBound w b) ∧
    leftOf w (invertL b) (invertL a) = leftOf w a b ∧ rightOf w b a = leftOf w a b := by
  refine ⟨by simp [leftOf], ?_, rfl⟩
  unfold leftOf
  rw [(invert_spec (fun a _ => a) w b).2.1, (invert_spec (fun a _ => a) w a).1, Bool.eq_iff_iff]
  simp only [beq_iff_eq, invert_inj]
  exact eq_comm

/-- `next` follows `prev` iff both bounds of `prev` end where the bounds of `next` start; for the inverted lanelets the
roles are exchanged. -/
theorem follows_spec [DecidableEq P] (w : World P) (prev next : LH) :
    (follows w prev next = true ↔
      ∃ l r, (points w (leftBound w prev)).getLast? = some l ∧ (points w (leftBound w next)).head? = some l ∧
        (points w (rightBound w prev)).getLast? = some r ∧ (points w (rightBound w next)).head? = some r) ∧
    follows w (invertL next) (invertL prev) = follows w prev next := by
  have key : ∀ a b : LH, (follows w a b = true ↔
      ∃ l r, (points w (leftBound w a)).getLast? = some l ∧ (points w (leftBound w b)).head? = some l ∧
        (points w (rightBound w a)).getLast? = some r ∧ (points w (rightBound w b)).head? = some r) := by
    intro a b
    unfold follows
    simp only [Bool.and_eq_true, Bool.not_eq_true', List.isEmpty_eq_false_iff, decide_eq_true_eq]
    constructor
    · rintro ⟨⟨⟨⟨⟨h1, h2⟩, -⟩, -⟩, h5⟩, h6⟩
      exact ⟨_, _, List.getLast?_eq_some_getLast h1, h5 ▸ List.getLast?_eq_some_getLast h1,
        List.getLast?_eq_some_getLast h2, h6 ▸ List.getLast?_eq_some_getLast h2⟩
    · rintro ⟨l, r, h1, h2, h3, h4⟩
      refine ⟨⟨⟨⟨⟨?_, ?_⟩, ?_⟩, ?_⟩, by rw [h1, h2]⟩, by rw [h3, h4]⟩
      · intro e; rw [e] at h1; cases h1
      · intro e; rw [e] at h3; cases h3
      · intro e; rw [e] at h2; cases h2
      · intro e; rw [e] at h4; cases h4
  refine ⟨key prev next, ?_⟩
  rw [Bool.eq_iff_iff, key, key]
  obtain ⟨-, -, a1, a2, -⟩ := invert_spec (fun a _ => a) w prev
  obtain ⟨-, -, b1, b2, -⟩ := invert_spec (fun a _ => a) w next
  simp only [a1, a2, b1, b2, List.getLast?_reverse, List.head?_reverse]
  constructor
  · rintro ⟨l, r, h1, h2, h3, h4⟩; exact ⟨r, l, h4, h3, h2, h1⟩
  · rintro ⟨l, r, h1, h2, h3, h4⟩; exact ⟨r, l, h4, h3, h2, h1⟩

/-- The common line of two lanelets: a bound of the first one; found iff the other one (or, if allowed, the inverted
other one) is its left or right neighbour. -/
theorem commonLine_spec (w : World P) (ll other : LH) (allowInverted : Bool) :
    (∀ l, commonLine w ll other allowInverted = some l →
      (l = leftBound w ll ∧ (leftOf w other ll ∨ (allowInverted ∧ leftOf w (invertL other) ll))) ∨
      (l = rightBound w ll ∧ (rightOf w other ll ∨ (allowInverted ∧ rightOf w (invertL other) ll)))) ∧
    (commonLine w ll other allowInverted = none ↔
      ¬ leftOf w other ll ∧ ¬ rightOf w other ll ∧
        (allowInverted = true → ¬ leftOf w (invertL other) ll ∧ ¬ rightOf w (invertL other) ll)) := by
  unfold commonLine
  cases leftOf w other ll <;> cases rightOf w other ll <;> cases allowInverted <;>
    cases leftOf w (invertL other) ll <;> cases rightOf w (invertL other) ll <;> simp

/-- Lanelets and areas: the area is left of the lanelet iff its boundary has the lanelet's left bound in opposite
direction, right iff it has the right bound in the same direction; inverting the lanelet exchanges left and right; the
common line is then the bound of the lanelet. -/
theorem areaSides_spec (w : World P) (ll : LH) (ar : Nat) :
    (areaLeftOf w ll ar = true ↔ invert (leftBound w ll) ∈ (w.ars ar).outer) ∧
    (areaRightOf w ll ar = true ↔ rightBound w ll ∈ (w.ars ar).outer) ∧
    areaRightOf w (invertL ll) ar = areaLeftOf w ll ar ∧
    commonLineLeft w ll ar = (if areaLeftOf w ll ar then some (leftBound w ll) else none) ∧
    commonLineRight w ll ar = (if areaRightOf w ll ar then some (rightBound w ll) else none) := by
  have hL : ∀ ll, (areaLeftOf w ll ar = true ↔ invert (leftBound w ll) ∈ (w.ars ar).outer) := by
    intro ll
    unfold areaLeftOf
    simp only [List.any_eq_true, beq_iff_eq]
    constructor
    · rintro ⟨b, hb, e⟩; rw [← e]; simpa using hb
    · intro h; exact ⟨_, h, by simp⟩
  have hR : ∀ ll, (areaRightOf w ll ar = true ↔ rightBound w ll ∈ (w.ars ar).outer) := by
    intro ll
    unfold areaRightOf
    rw [hL, (invert_spec (fun a _ => a) w ll).1]; simp
  have hcR : ∀ ll, commonLineRight w ll ar = (if areaRightOf w ll ar then some (rightBound w ll) else none) := by
    intro ll
    unfold commonLineRight
    by_cases h : areaRightOf w ll ar = true
    · rw [if_pos h]
      have hm := (hR ll).mp h
      cases hf : (w.ars ar).outer.find? fun b => b == rightBound w ll with
      | none => have := (List.find?_eq_none.mp hf) _ hm; simp at this
      | some x => have := List.find?_some hf; simp only [beq_iff_eq] at this; rw [this]
    · rw [if_neg h]
      rw [List.find?_eq_none]
      intro x hx e
      simp only [beq_iff_eq] at e
      exact h ((hR ll).mpr (e ▸ hx))
  refine ⟨hL ll, hR ll, ?_, ?_, hcR ll⟩
  · unfold areaRightOf; simp
  · unfold commonLineLeft
    rw [hcR]
    have : areaRightOf w (invertL ll) ar = areaLeftOf w ll ar := by unfold areaRightOf; simp
    rw [this, (invert_spec (fun a _ => a) w ll).2.1]
    split <;> simp

/-- The common line of two areas: a linestring of the first boundary whose inverse belongs to the second. -/
theorem commonLineAreas_spec (w : World P) (a b : Nat) :
    (∀ l, commonLineAreas w a b = some l → l ∈ (w.ars a).outer ∧ invert l ∈ (w.ars b).outer) ∧
    (commonLineAreas w a b = none ↔ ∀ l ∈ (w.ars a).outer, invert l ∉ (w.ars b).outer) := by
  have key : ∀ l, ((w.ars b).outer.find? fun b2 => b2 == invert l).isSome = true ↔ invert l ∈ (w.ars b).outer := by
    intro l
    rw [List.find?_isSome]
    simp
  constructor
  · intro l h
    exact ⟨List.mem_of_find?_eq_some h, (key l).mp (by simpa using List.find?_some h)⟩
  · unfold commonLineAreas
    rw [List.find?_eq_none]
    constructor
    · intro h l hl hm; exact h l hl ((key l).mpr hm)
    · intro h l hl hm; exact h l hl ((key l).mp hm)

/-- follows(lanelet, area) if nothing is empty: some linestring of the boundary connects the two end points of the
lanelet, in one of the two directions. -/
theorem areaFollows_spec [DecidableEq P] (w : World P) (ll : LH) (ar : Nat) {p1 p2 : P}
    (h1 : (points w (leftBound w ll)).getLast? = some p1) (h2 : (points w (rightBound w ll)).getLast? = some p2)
    (hne : ∀ ls ∈ (w.ars ar).outer, points w ls ≠ []) :
    ∃ r, areaFollows w ll ar = some r ∧ followsArea w ar (invertL ll) = some r ∧
      (r = true ↔ ∃ ls ∈ (w.ars ar).outer,
        ((points w ls).head? = some p1 ∧ (points w ls).getLast? = some p2) ∨
        ((points w ls).head? = some p2 ∧ (points w ls).getLast? = some p1)) := by
  let f : Bool → LS → Option Bool := fun found ls => if found then some true else do
    let f ← (points w ls).head?
    let b ← (points w ls).getLast?
    return (decide (f = p1) && decide (b = p2)) || (decide (f = p2) && decide (b = p1))
  have key : ∀ (l : List LS), (∀ ls ∈ l, points w ls ≠ []) → ∀ found, ∃ r, l.foldlM f found = some r ∧
      (r = true ↔ found = true ∨ ∃ ls ∈ l,
        ((points w ls).head? = some p1 ∧ (points w ls).getLast? = some p2) ∨
        ((points w ls).head? = some p2 ∧ (points w ls).getLast? = some p1)) := by
    intro l
    induction l with
    | nil => intro _ found; exact ⟨found, rfl, by simp⟩
    | cons x l ih =>
      intro hne found
      have hx : points w x ≠ [] := hne x (by simp)
      cases found
      · obtain ⟨a, ha⟩ : ∃ a, (points w x).head? = some a := by
          cases hp : points w x with
          | nil => exact absurd hp hx
          | cons a _ => exact ⟨a, rfl⟩
        have hb := List.getLast?_eq_some_getLast hx
        let v := (decide (a = p1) && decide ((points w x).getLast hx = p2)) ||
          (decide (a = p2) && decide ((points w x).getLast hx = p1))
        have hf : f false x = some v := by simp [f, ha, hb, v]
        obtain ⟨r, hr, hiff⟩ := ih (fun ls h => hne ls (by simp [h])) v
        refine ⟨r, by rw [List.foldlM_cons, hf]; exact hr, ?_⟩
        rw [hiff]
        have hv : v = true ↔ ((points w x).head? = some p1 ∧ (points w x).getLast? = some p2) ∨
            ((points w x).head? = some p2 ∧ (points w x).getLast? = some p1) := by
          simp only [v, ha, hb, Bool.or_eq_true, Bool.and_eq_true, decide_eq_true_eq, Option.some.injEq]
        rw [hv]
        simp
      · obtain ⟨r, hr, hiff⟩ := ih (fun ls h => hne ls (by simp [h])) true
        exact ⟨r, by rw [List.foldlM_cons]; exact hr, by rw [hiff]; simp⟩
  obtain ⟨r, hr, hiff⟩ := key (w.ars ar).outer hne false
  have hA : areaFollows w ll ar = some r := by
    simp only [areaFollows, h1, h2, Option.bind_eq_bind, Option.bind_some]
    exact hr
  exact ⟨r, hA, by unfold followsArea; rw [invertL_invertL]; exact hA, by simpa using hiff⟩

/-- add/removeRegulatoryElement: a null pointer is an error; adding appends; removing takes out exactly the first
occurrence and says whether there was one; other lanelets keep theirs. -/
theorem regs_spec (w : World P) (h : LH) (r : Nat) :
    addReg w h none = .error () ∧
    (∃ w', addReg w h (some r) = .ok w' ∧ (w'.lls h.data).regs = (w.lls h.data).regs ++ [r] ∧
      leftBound w' = leftBound w ∧ rightBound w' = rightBound w ∧
      ∀ d, d ≠ h.data → w'.lls d = w.lls d) ∧
    ((removeReg w h r).1 = true ↔ r ∈ (w.lls h.data).regs) ∧
    ((removeReg w h r).2.lls h.data).regs = (w.lls h.data).regs.erase r ∧
    ∀ d, d ≠ h.data → (removeReg w h r).2.lls d = w.lls d := by
  refine ⟨rfl, ⟨_, rfl, by simp [World.setLL], ?_, ?_, ?_⟩, ?_, ?_, ?_⟩
  · funext h'; simp only [leftBound, World.setLL]; by_cases e : h'.data = h.data <;> simp [e]
  · funext h'; simp only [rightBound, World.setLL]; by_cases e : h'.data = h.data <;> simp [e]
  · intro d hd; simp [World.setLL, hd]
  · unfold removeReg; split <;> simp_all
  · unfold removeReg
    split
    · simp [World.setLL]
    · rename_i hn; rw [List.erase_of_not_mem hn]
  · intro d hd; unfold removeReg; split <;> simp [World.setLL, hd]

/-- C13: two handles compare equal exactly if they are views on the same lanelet in the same direction; so a lanelet never equals
its own inverse. -/
theorem equalL_iff (a b : LH) : (equalL a b = true ↔ a.data = b.data ∧ a.inv = b.inv) ∧ equalL a (invertL a) = false ∧
    equalL a (invertL (invertL a)) = true := by
  simp [equalL, invertL]

end Verif.Lanelet
