import Mathlib.Algebra.Order.Field.Basic
import Mathlib.Tactic.Linarith
import Mathlib.Data.Fin.VecNotation
import Verif.BBox.Model

/-!
C50: bounding boxes.
-/
set_option linter.unusedSectionVars false

namespace Verif.BBox
variable {n : Nat} {F : Type} [LinearOrder F]

/-- the points of a box -/
def In (p : Pt n F) (b : Box n F) : Prop := ∀ i, b.min i ≤ p i ∧ p i ≤ b.max i

/-- all coordinates are finite numbers -/
def Fin' (lo hi : F) (p : Pt n F) : Prop := ∀ i, lo ≤ p i ∧ p i ≤ hi

/-- a box is the smallest box around the points described by `S`: it holds them all, and every box that does holds all of it -/
def Smallest (S : Pt n F → Prop) (b : Box n F) : Prop :=
  (∀ p, S p → In p b) ∧ ∀ b' : Box n F, (∀ p, S p → In p b') → ∀ p, In p b → In p b'

/-- C50: contains -/
theorem contains_iff (b : Box n F) (p : Pt n F) : b.contains p = true ↔ In p b := by
  simp [Box.contains, In, forall_and]

/-- C50: a box is empty exactly if it has no points. -/
theorem isEmpty_iff (b : Box n F) : b.isEmpty = true ↔ ¬ ∃ p, In p b := by
  simp only [Box.isEmpty, decide_eq_true_eq]
  constructor
  · rintro ⟨i, hi⟩ ⟨p, hp⟩
    exact absurd ((hp i).1.trans (hp i).2) (not_le.mpr hi)
  · intro h
    by_contra hc
    refine h ⟨b.min, fun i => ⟨le_refl _, ?_⟩⟩
    by_contra hi
    exact hc ⟨i, not_le.mp hi⟩

/-- C50: for boxes with points, intersects means that there is a common point. -/
theorem intersects_iff (a b : Box n F) (ha : a.isEmpty = false) (hb : b.isEmpty = false) :
    a.intersects b = true ↔ ∃ p, In p a ∧ In p b := by
  have ha' : ∀ i, a.min i ≤ a.max i := by simpa [Box.isEmpty] using ha
  have hb' : ∀ i, b.min i ≤ b.max i := by simpa [Box.isEmpty] using hb
  simp only [Box.intersects, decide_eq_true_eq]
  constructor
  · rintro ⟨h1, h2⟩
    exact ⟨fun i => max (a.min i) (b.min i), fun i => ⟨le_max_left _ _, max_le (ha' i) (h2 i)⟩,
      fun i => ⟨le_max_right _ _, max_le (h1 i) (hb' i)⟩⟩
  · rintro ⟨p, h1, h2⟩
    exact ⟨fun i => (h1 i).1.trans (h2 i).2, fun i => (h2 i).1.trans (h1 i).2⟩

/-- C50: intersects does not depend on the order and has no false negatives, even for empty boxes. -/
theorem intersects_comm (a b : Box n F) : a.intersects b = b.intersects a := by
  simp [Box.intersects, and_comm]

theorem intersects_of_common (a b : Box n F) (p : Pt n F) (h1 : In p a) (h2 : In p b) : a.intersects b = true := by
  simp only [Box.intersects, decide_eq_true_eq]
  exact ⟨fun i => (h1 i).1.trans (h2 i).2, fun i => (h2 i).1.trans (h1 i).2⟩

/-- C50: a box with points is contained exactly if all its points are. -/
theorem containsBox_iff (a b : Box n F) (hb : b.isEmpty = false) :
    a.containsBox b = true ↔ ∀ p, In p b → In p a := by
  have hb' : ∀ i, b.min i ≤ b.max i := by simpa [Box.isEmpty] using hb
  simp only [Box.containsBox, decide_eq_true_eq]
  constructor
  · rintro ⟨h1, h2⟩ p hp i
    exact ⟨(h1 i).trans (hp i).1, (hp i).2.trans (h2 i)⟩
  · intro h
    exact ⟨fun i => (h b.min (fun i => ⟨le_refl _, hb' i⟩) i).1, fun i => (h b.max (fun i => ⟨hb' i, le_refl _⟩) i).2⟩

/-- C50: clamp and intersection give the common points. -/
theorem clamp_iff (a b : Box n F) (p : Pt n F) : In p (a.clamp b) ↔ In p a ∧ In p b := by
  simp only [In, Box.clamp, max_le_iff, le_min_iff]
  constructor
  · intro h; exact ⟨fun i => ⟨(h i).1.1, (h i).2.1⟩, fun i => ⟨(h i).1.2, (h i).2.2⟩⟩
  · rintro ⟨h1, h2⟩ i; exact ⟨⟨(h1 i).1, (h2 i).1⟩, ⟨(h1 i).2, (h2 i).2⟩⟩

/-- C50: the null box is empty (in at least one dimension) and neutral for extend. -/
theorem null_spec (lo hi : F) (hlh : lo < hi) (hn : 0 < n) :
    (null lo hi : Box n F).isEmpty = true ∧
    (∀ b : Box n F, Fin' lo hi b.min → Fin' lo hi b.max → (null lo hi).extendBox b = b ∧ b.extendBox (null lo hi) = b) ∧
    ∀ p : Pt n F, Fin' lo hi p → (null lo hi).extend p = ⟨p, p⟩ := by
  refine ⟨?_, ?_, ?_⟩
  · simp only [Box.isEmpty, decide_eq_true_eq]
    exact ⟨⟨0, hn⟩, hlh⟩
  · intro b h1 h2
    constructor
    · simp only [Box.extendBox, null]
      congr 1
      · funext i; exact min_eq_right (h1 i).2
      · funext i; exact max_eq_right (h2 i).1
    · simp only [Box.extendBox, null]
      congr 1
      · funext i; exact min_eq_left (h1 i).2
      · funext i; exact max_eq_left (h2 i).1
  · intro p hp
    simp only [Box.extend, null]
    congr 1
    · funext i; exact min_eq_right (hp i).2
    · funext i; exact max_eq_right (hp i).1

/-- C50: extending is commutative, associative, idempotent and monotone. -/
theorem extendBox_laws (a b c : Box n F) :
    a.extendBox b = b.extendBox a ∧ (a.extendBox b).extendBox c = a.extendBox (b.extendBox c) ∧ a.extendBox a = a ∧
    (∀ p, In p a → In p (a.extendBox b)) ∧ (∀ p, In p b → In p (a.extendBox b)) ∧
    (a.containsBox b = true → (a.extendBox c).containsBox (b.extendBox c) = true) ∧
    ∀ p : Pt n F, a.extend p = a.extendBox ⟨p, p⟩ := by
  refine ⟨?_, ?_, ?_, ?_, ?_, ?_, fun _ => rfl⟩
  · simp only [Box.extendBox, min_comm, max_comm]
  · simp only [Box.extendBox, min_assoc, max_assoc]
  · simp only [Box.extendBox, min_self, max_self]
  · intro p hp i
    exact ⟨(min_le_left _ _).trans (hp i).1, (hp i).2.trans (le_max_left _ _)⟩
  · intro p hp i
    exact ⟨(min_le_right _ _).trans (hp i).1, (hp i).2.trans (le_max_right _ _)⟩
  · simp only [Box.containsBox, decide_eq_true_eq]
    rintro ⟨h1, h2⟩
    exact ⟨fun i => min_le_min_right _ (h1 i), fun i => max_le_max_right _ (h2 i)⟩

/-- C50: the corners with numbers 0 to 2^n-1 are corners of the box, all of them, and inside. -/
theorem corner_spec (b : Box n F) (hb : b.isEmpty = false) (k : Nat) :
    In (b.corner k) b ∧ b.corner 0 = b.min ∧ b.corner (2 ^ n - 1) = b.max ∧
    ∀ pickMax : Fin n → Bool, ∃ c < 2 ^ n, ∀ i, b.corner c i = if pickMax i then b.max i else b.min i := by
  have hb' : ∀ i, b.min i ≤ b.max i := by simpa [Box.isEmpty] using hb
  refine ⟨?_, ?_, ?_, ?_⟩
  · intro i
    unfold Box.corner
    split
    · exact ⟨hb' i, le_refl _⟩
    · exact ⟨le_refl _, hb' i⟩
  · funext i; simp [Box.corner]
  · funext i
    have : (2 ^ n - 1).testBit i = true := by rw [Nat.testBit_two_pow_sub_one]; simp
    simp [Box.corner, this]
  · intro f
    refine ⟨Nat.ofBits f, Nat.ofBits_lt_two_pow f, fun i => ?_⟩
    simp [Box.corner]

/-! ### boxes of primitives -/

/-- the invariant of the loops: a least upper bound in the order of boxes -/
structure Lub (lo hi : F) (S : Pt n F → Prop) (b : Box n F) : Prop where
  upper : ∀ p, S p → In p b
  least : ∀ i, (b.min i = hi ∨ ∃ p, S p ∧ p i = b.min i) ∧ (b.max i = lo ∨ ∃ p, S p ∧ p i = b.max i)
  none : (¬ ∃ p, S p) → b = null lo hi

theorem lub_null (lo hi : F) : Lub lo hi (fun _ : Pt n F => False) (null lo hi) :=
  ⟨fun _ h => h.elim, fun _ => ⟨.inl rfl, .inl rfl⟩, fun _ => rfl⟩

theorem lub_point (lo hi : F) (p : Pt n F) : Lub lo hi (· = p) ⟨p, p⟩ := by
  refine ⟨?_, fun i => ⟨.inr ⟨p, rfl, rfl⟩, .inr ⟨p, rfl, rfl⟩⟩, fun h => absurd ⟨p, rfl⟩ h⟩
  rintro q rfl i
  exact ⟨le_refl _, le_refl _⟩

theorem lub_congr {lo hi : F} {S T : Pt n F → Prop} {b : Box n F} (h : ∀ p, S p ↔ T p) (hb : Lub lo hi S b) : Lub lo hi T b := by
  obtain rfl : S = T := funext fun p => propext (h p)
  exact hb

theorem lub_extend {lo hi : F} {S T : Pt n F → Prop} {a b : Box n F} (hS : ∀ p, S p → Fin' lo hi p)
    (hT : ∀ p, T p → Fin' lo hi p) (ha : Lub lo hi S a) (hb : Lub lo hi T b) :
    Lub lo hi (fun p => S p ∨ T p) (a.extendBox b) := by
  refine ⟨?_, ?_, ?_⟩
  · rintro p (h | h)
    · exact (extendBox_laws a b a).2.2.2.1 p (ha.upper p h)
    · exact (extendBox_laws a b a).2.2.2.2.1 p (hb.upper p h)
  · intro i
    constructor
    · simp only [Box.extendBox]
      rcases min_choice (a.min i) (b.min i) with e | e <;> rw [e]
      · rcases (ha.least i).1 with h | ⟨p, h, h'⟩
        · exact .inl h
        · exact .inr ⟨p, .inl h, h'⟩
      · rcases (hb.least i).1 with h | ⟨p, h, h'⟩
        · exact .inl h
        · exact .inr ⟨p, .inr h, h'⟩
    · simp only [Box.extendBox]
      rcases max_choice (a.max i) (b.max i) with e | e <;> rw [e]
      · rcases (ha.least i).2 with h | ⟨p, h, h'⟩
        · exact .inl h
        · exact .inr ⟨p, .inl h, h'⟩
      · rcases (hb.least i).2 with h | ⟨p, h, h'⟩
        · exact .inl h
        · exact .inr ⟨p, .inr h, h'⟩
  · intro h
    rw [ha.none fun ⟨p, hp⟩ => h ⟨p, .inl hp⟩, hb.none fun ⟨p, hp⟩ => h ⟨p, .inr hp⟩]
    simp [Box.extendBox, null]

theorem lub_smallest {lo hi : F} (hlh : lo < hi) (hn : 0 < n) {S : Pt n F → Prop} {b : Box n F} (hS : ∀ p, S p → Fin' lo hi p)
    (h : Lub lo hi S b) : Smallest S b ∧ (b.isEmpty = true ↔ ¬ ∃ p, S p) := by
  refine ⟨⟨h.upper, ?_⟩, ?_⟩
  · intro b' hb' q hq i
    by_cases hne : ∃ p, S p
    · obtain ⟨p0, hp0⟩ := hne
      have hp0' := h.upper p0 hp0 i
      constructor
      · rcases (h.least i).1 with e | ⟨p, hp, e⟩
        · have : p0 i = hi := le_antisymm (hS p0 hp0 i).2 (e ▸ hp0'.1)
          exact ((hb' p0 hp0 i).1.trans (this.le.trans e.ge)).trans (hq i).1
        · exact ((hb' p hp i).1.trans e.le).trans (hq i).1
      · rcases (h.least i).2 with e | ⟨p, hp, e⟩
        · have : p0 i = lo := le_antisymm (e ▸ hp0'.2) (hS p0 hp0 i).1
          exact (hq i).2.trans (e.le.trans (this.ge.trans (hb' p0 hp0 i).2))
        · exact (hq i).2.trans (e.ge.trans (hb' p hp i).2)
    · rw [h.none hne] at hq
      exact absurd ((hq i).1.trans (hq i).2) (not_le.mpr hlh)
  · rw [isEmpty_iff]
    constructor
    · rintro he ⟨p, hp⟩; exact he ⟨p, h.upper p hp⟩
    · rintro hne ⟨p, hp⟩
      rw [h.none hne] at hp
      exact absurd ((hp ⟨0, hn⟩).1.trans (hp ⟨0, hn⟩).2) (not_le.mpr hlh)

theorem lub_points (lo hi : F) (pts : List (Pt n F)) (hp : ∀ p ∈ pts, Fin' lo hi p) :
    Lub lo hi (· ∈ pts) (ofPoints lo hi pts) := by
  have key : ∀ (pts : List (Pt n F)) (S : Pt n F → Prop) (b : Box n F), (∀ p ∈ pts, Fin' lo hi p) → (∀ p, S p → Fin' lo hi p) →
      Lub lo hi S b → Lub lo hi (fun p => S p ∨ p ∈ pts) (pts.foldl Box.extend b) := by
    intro pts
    induction pts with
    | nil => intro S b _ _ hb; exact lub_congr (by simp) hb
    | cons x pts ih =>
      intro S b h1 h2 hb
      have hx := h1 x (List.mem_cons_self ..)
      have hxS : ∀ p, p = x → Fin' lo hi p := by rintro p rfl; exact hx
      have hb' : Lub lo hi (fun p => S p ∨ p = x) (b.extend x) := by
        rw [(extendBox_laws b b b).2.2.2.2.2.2 x]
        exact lub_extend h2 hxS hb (lub_point lo hi x)
      refine lub_congr ?_ (ih _ _ (fun p hp => h1 p (List.mem_cons_of_mem _ hp)) ?_ hb')
      · intro p; simp [or_assoc]
      · rintro p (h | h)
        · exact h2 p h
        · exact hxS p h
  exact lub_congr (by simp) (key pts (fun _ => False) _ hp (fun _ h => h.elim) (lub_null lo hi))

/-- C50: the box of a linestring or polygon contains all points and is the smallest such box; it is empty exactly if there are
no points. -/
theorem ofPoints_spec (lo hi : F) (hlh : lo < hi) (hn : 0 < n) (pts : List (Pt n F)) (hp : ∀ p ∈ pts, Fin' lo hi p) :
    Smallest (· ∈ pts) (ofPoints lo hi pts) ∧ ((ofPoints lo hi pts).isEmpty = true ↔ pts = []) := by
  obtain ⟨h1, h2⟩ := lub_smallest hlh hn hp (lub_points lo hi pts hp)
  refine ⟨h1, h2.trans ?_⟩
  rw [List.eq_nil_iff_forall_not_mem]
  simp

theorem lub_lanelet (lo hi : F) (l r : List (Pt n F)) (hl : ∀ p ∈ l, Fin' lo hi p) (hr : ∀ p ∈ r, Fin' lo hi p) :
    Lub lo hi (fun p => p ∈ l ∨ p ∈ r) (ofLanelet lo hi l r) :=
  lub_extend hl hr (lub_points lo hi l hl) (lub_points lo hi r hr)

/-- C50: the box of a lanelet contains both bounds and is the smallest such box. -/
theorem ofLanelet_spec (lo hi : F) (hlh : lo < hi) (hn : 0 < n) (l r : List (Pt n F)) (hl : ∀ p ∈ l, Fin' lo hi p)
    (hr : ∀ p ∈ r, Fin' lo hi p) :
    Smallest (fun p => p ∈ l ∨ p ∈ r) (ofLanelet lo hi l r) ∧ ((ofLanelet lo hi l r).isEmpty = true ↔ l = [] ∧ r = []) := by
  have hS : ∀ p, p ∈ l ∨ p ∈ r → Fin' lo hi p := by rintro p (h | h); exacts [hl p h, hr p h]
  obtain ⟨h1, h2⟩ := lub_smallest hlh hn hS (lub_lanelet lo hi l r hl hr)
  refine ⟨h1, h2.trans ?_⟩
  rw [List.eq_nil_iff_forall_not_mem, List.eq_nil_iff_forall_not_mem]
  constructor
  · intro h; exact ⟨fun p hp => h ⟨p, .inl hp⟩, fun p hp => h ⟨p, .inr hp⟩⟩
  · rintro ⟨h1, h2⟩ ⟨p, h | h⟩
    · exact h1 p h
    · exact h2 p h

/-- the points of a parameter of a regulatory element; expired lanelets and areas have none -/
def paramPts : Param n F → List (Pt n F)
  | .point p => [p]
  | .line pts => pts
  | .polygon pts => pts
  | .lanelet none => []
  | .lanelet (some (l, r)) => l ++ r
  | .area none => []
  | .area (some o) => o

theorem lub_visit (lo hi : F) (S : Pt n F → Prop) (b : Box n F) (x : Param n F) (hS : ∀ p, S p → Fin' lo hi p)
    (hx : ∀ p ∈ paramPts x, Fin' lo hi p) (hb : Lub lo hi S b) :
    Lub lo hi (fun p => S p ∨ p ∈ paramPts x) (visit lo hi b x) := by
  cases x with
  | point q =>
    have hq : ∀ p, p = q → Fin' lo hi p := by rintro p rfl; exact hx p (by simp [paramPts])
    exact lub_congr (by simp [paramPts]) (lub_extend hS hq hb (lub_point lo hi q))
  | line pts => exact lub_extend hS hx hb (lub_points lo hi pts hx)
  | polygon pts => exact lub_extend hS hx hb (lub_points lo hi pts hx)
  | lanelet o =>
    cases o with
    | none => exact lub_congr (by simp [paramPts]) hb
    | some lr =>
      obtain ⟨l, r⟩ := lr
      have hl : ∀ p ∈ l, Fin' lo hi p := fun p hp => hx p (by simp [paramPts, hp])
      have hr : ∀ p ∈ r, Fin' lo hi p := fun p hp => hx p (by simp [paramPts, hp])
      have hlr : ∀ p, p ∈ l ∨ p ∈ r → Fin' lo hi p := by rintro p (h | h); exacts [hl p h, hr p h]
      exact lub_congr (by simp [paramPts]) (lub_extend hS hlr hb (lub_lanelet lo hi l r hl hr))
  | area o =>
    cases o with
    | none => exact lub_congr (by simp [paramPts]) hb
    | some o => exact lub_extend hS hx hb (lub_points lo hi o hx)

/-- C50: the box of a regulatory element contains all its parameters that are not expired and is the smallest such box. -/
theorem ofRegElem_spec (lo hi : F) (hlh : lo < hi) (hn : 0 < n) (params : List (Param n F))
    (hp : ∀ x ∈ params, ∀ p ∈ paramPts x, Fin' lo hi p) :
    Smallest (fun p => ∃ x ∈ params, p ∈ paramPts x) (ofRegElem lo hi params) ∧
    ((ofRegElem lo hi params).isEmpty = true ↔ ∀ x ∈ params, paramPts x = []) := by
  have key : ∀ (params : List (Param n F)) (S : Pt n F → Prop) (b : Box n F),
      (∀ x ∈ params, ∀ p ∈ paramPts x, Fin' lo hi p) → (∀ p, S p → Fin' lo hi p) → Lub lo hi S b →
      Lub lo hi (fun p => S p ∨ ∃ x ∈ params, p ∈ paramPts x) (params.foldl (visit lo hi) b) := by
    intro params
    induction params with
    | nil => intro S b _ _ hb; exact lub_congr (by simp) hb
    | cons x params ih =>
      intro S b h1 h2 hb
      have hx := h1 x (List.mem_cons_self ..)
      refine lub_congr ?_ (ih _ _ (fun y hy => h1 y (List.mem_cons_of_mem _ hy)) ?_ (lub_visit lo hi S b x h2 hx hb))
      · intro p; simp [or_assoc]
      · rintro p (h | h)
        · exact h2 p h
        · exact hx p h
  have hl := lub_congr (T := fun p => ∃ x ∈ params, p ∈ paramPts x) (by simp)
    (key params (fun _ => False) _ hp (fun _ h => h.elim) (lub_null lo hi))
  obtain ⟨h1, h2⟩ := lub_smallest hlh hn (by rintro p ⟨x, hx, hpx⟩; exact hp x hx p hpx) hl
  refine ⟨h1, h2.trans ?_⟩
  constructor
  · intro h x hx
    rw [List.eq_nil_iff_forall_not_mem]
    exact fun p hpx => h ⟨p, x, hx, hpx⟩
  · rintro h ⟨p, x, hx, hpx⟩
    rw [h x hx] at hpx
    simp at hpx

/-- not an expired lanelet or area -/
def Live : Param n F → Prop
  | .lanelet none => False
  | .area none => False
  | _ => True

/-- The distance to a regulatory element is the smallest distance to one of its parameters that are not expired; infinite
exactly if there are none. -/
theorem distanceRegElem_spec (dist : Param n F → F) (params : List (Param n F)) :
    (distanceRegElem dist params = none ↔ ∀ x ∈ params, ¬ Live x) ∧
    ∀ d, distanceRegElem dist params = some d →
      (∃ x ∈ params, Live x ∧ d = dist x) ∧ ∀ x ∈ params, Live x → d ≤ dist x := by
  have key : ∀ (params : List (Param n F)) (done : List (Param n F)) (d : Option F),
      ((d = none ↔ ∀ x ∈ done, ¬ Live x) ∧ ∀ v, d = some v →
        (∃ x ∈ done, Live x ∧ v = dist x) ∧ ∀ x ∈ done, Live x → v ≤ dist x) →
      let r := params.foldl (visitDist dist) d
      (r = none ↔ ∀ x ∈ done ++ params, ¬ Live x) ∧ ∀ v, r = some v →
        (∃ x ∈ done ++ params, Live x ∧ v = dist x) ∧ ∀ x ∈ done ++ params, Live x → v ≤ dist x := by
    intro params
    induction params with
    | nil => intro done d h; simpa using h
    | cons x params ih =>
      intro done d h
      have step : ∀ d', ((d' = none ↔ ∀ y ∈ done ++ [x], ¬ Live y) ∧ ∀ v, d' = some v →
          (∃ y ∈ done ++ [x], Live y ∧ v = dist y) ∧ ∀ y ∈ done ++ [x], Live y → v ≤ dist y) →
          let r := params.foldl (visitDist dist) d'
          (r = none ↔ ∀ y ∈ done ++ x :: params, ¬ Live y) ∧ ∀ v, r = some v →
            (∃ y ∈ done ++ x :: params, Live y ∧ v = dist y) ∧ ∀ y ∈ done ++ x :: params, Live y → v ≤ dist y := by
        intro d' hd'
        have := ih (done ++ [x]) d' hd'
        simpa using this
      have hdead : ¬ Live x → ((d = none ↔ ∀ y ∈ done ++ [x], ¬ Live y) ∧ ∀ v, d = some v →
          (∃ y ∈ done ++ [x], Live y ∧ v = dist y) ∧ ∀ y ∈ done ++ [x], Live y → v ≤ dist y) := by
        intro hx
        refine ⟨h.1.trans ?_, ?_⟩
        · simp [or_imp, forall_and, hx]
        · intro v hv
          obtain ⟨⟨y, h1, h2⟩, h3⟩ := h.2 v hv
          refine ⟨⟨y, by simp [h1], h2⟩, ?_⟩
          intro z hz hl
          rcases List.mem_append.mp hz with hz | hz
          · exact h3 z hz hl
          · rw [List.mem_singleton.mp hz] at hl; exact absurd hl hx
      have hlive : Live x → ∀ w, w = nearer dist d x →
          ((w = none ↔ ∀ y ∈ done ++ [x], ¬ Live y) ∧ ∀ v, w = some v →
          (∃ y ∈ done ++ [x], Live y ∧ v = dist y) ∧ ∀ y ∈ done ++ [x], Live y → v ≤ dist y) := by
        intro hx w hw
        refine ⟨by cases d <;> simp [hw, nearer, or_imp, forall_and, hx], ?_⟩
        rintro v hv
        rw [hw] at hv
        cases d with
        | none =>
          have hn := h.1.mp rfl
          obtain rfl := Option.some.inj hv
          refine ⟨⟨x, by simp, hx, rfl⟩, ?_⟩
          intro z hz hl
          rcases List.mem_append.mp hz with hz | hz
          · exact absurd hl (hn z hz)
          · rw [List.mem_singleton.mp hz]
        | some d =>
          replace hw := (Option.some.inj hv).symm
          obtain ⟨⟨y, h1, h2, h2'⟩, h3⟩ := h.2 d rfl
          constructor
          · rcases min_choice d (dist x) with e | e
            · exact ⟨y, by simp [h1], h2, by rw [hw, e, h2']⟩
            · exact ⟨x, by simp, hx, by rw [hw, e]⟩
          · intro z hz hl
            rw [hw]
            rcases List.mem_append.mp hz with hz | hz
            · exact (min_le_left _ _).trans (h3 z hz hl)
            · rw [List.mem_singleton.mp hz]; exact min_le_right _ _
      rw [List.foldl_cons]
      cases x with
      | lanelet o =>
        cases o with
        | none => exact step _ (hdead (by simp [Live]))
        | some lr => exact step _ (hlive (by simp [Live]) _ rfl)
      | area o =>
        cases o with
        | none => exact step _ (hdead (by simp [Live]))
        | some lr => exact step _ (hlive (by simp [Live]) _ rfl)
      | point p => exact step _ (hlive (by simp [Live]) _ rfl)
      | line p => exact step _ (hlive (by simp [Live]) _ rfl)
      | polygon p => exact step _ (hlive (by simp [Live]) _ rfl)
  have := key params [] none (by simp)
  simpa [distanceRegElem] using this

/-- C50: a box is convex: with two points it contains the segment between them, so the box of the points of a bound contains
all its segments, and that of a lanelet or polygon everything in between. -/
theorem segment_in {F : Type} [Field F] [LinearOrder F] [IsStrictOrderedRing F] (b : Box n F) (p q : Pt n F) (hp : In p b)
    (hq : In q b) (t : F) (h0 : 0 ≤ t) (h1 : t ≤ 1) : In (fun i => (1 - t) * p i + t * q i) b := by
  intro i
  obtain ⟨p1, p2⟩ := hp i
  obtain ⟨q1, q2⟩ := hq i
  have t1 : 0 ≤ 1 - t := by linarith
  constructor
  · have := mul_le_mul_of_nonneg_left p1 t1
    have := mul_le_mul_of_nonneg_left q1 h0
    simp only
    linarith
  · have := mul_le_mul_of_nonneg_left p2 t1
    have := mul_le_mul_of_nonneg_left q2 h0
    simp only
    linarith

/-! ### concrete cases -/

/-- three points in the plane -/
def exPts : List (Pt 2 Int) := [![1, 5], ![3, 2], ![2, 4]]

example : (∀ p ∈ exPts, Fin' (-100) 100 p) ∧ (ofPoints (-100) 100 exPts).min = ![1, 2] ∧
    (ofPoints (-100) 100 exPts).max = ![3, 5] := by
  refine ⟨?_, ?_, ?_⟩
  · unfold Fin' exPts; decide
  · decide
  · decide

example : (⟨![0, 0], ![2, 2]⟩ : Box 2 Int).intersects ⟨![2, 1], ![3, 5]⟩ = true ∧
    (⟨![0, 0], ![2, 2]⟩ : Box 2 Int).isEmpty = false := by decide

/-- C50 (fails for empty boxes): an empty box may be reported to intersect, and not to be contained. -/
theorem empty_box_counterexample :
    (⟨![0, 0], ![10, 10]⟩ : Box 2 Int).intersects ⟨![5, 5], ![3, 3]⟩ = true ∧
    (⟨![5, 5], ![3, 3]⟩ : Box 2 Int).isEmpty = true ∧
    (⟨![0, 0], ![1, 1]⟩ : Box 2 Int).containsBox ⟨![5, 5], ![3, 3]⟩ = false := by decide

end Verif.BBox
