import Verif.BBox.Props
import Verif.LineStr.Model
import Verif.LMap.Nearest
import Mathlib.Algebra.Order.Ring.Int
import Mathlib.Tactic.ByContra

/-!
The index of a layer and later changes of the primitives: lanelet2_core/src/LaneletMap.cpp 221-326 (UsageLookup, Tree), 382-417 (add),
419-431 (findUsages), 499-511 (search), 965-983 (findNearest). The index is filled when a primitive is added. Changing the primitive through any of its handles
does not reach the index.

One layer is modelled, with points, linestrings, polygons, lanelets and areas as primitives, identified by their data: two different
primitives with the same id are not modelled (see Verif.LMap for those), and neither are changes of ids. Regulatory elements are keys of
lookups only; the layer that has them as elements is left out. `LaneletMap::add` does nothing for primitives that the layer already has
(LaneletMap.cpp 571, 597, 649, 663, 677); submaps have no such check (685-716), see Verif.LMap.StaleSub. The r-tree is the list of its entries, a
query over it gives all entries that fulfil the predicate. Coordinates are of any linear order.
-/
namespace Verif.LMap.Stale
open Verif.BBox Verif.LineStr

variable {F : Type} [LinearOrder F]

/-- The geometry of all primitives: positions of points (Point.h 114-121; point2d always gives the current
position), points of linestrings and polygons (LineString.h 183), bounds and regulatory elements of lanelets (Lanelet.h 77-79) and areas
(Area.h 102-104) -/
structure World (F : Type) where
  /-- the position of a point -/
  pos : Nat → Pt 2 F
  /-- the points of a linestring -/
  pts : Nat → List Nat
  /-- the left bound of a lanelet -/
  left : Nat → LS
  /-- the right bound of a lanelet -/
  right : Nat → LS
  /-- the regulatory elements of a lanelet -/
  rules : Nat → List Nat
  /-- the points of a polygon -/
  corners : Nat → List Nat
  /-- the outer bound of an area -/
  outer : Nat → List LS
  /-- the inner bounds of an area -/
  inner : Nat → List (List LS)
  /-- the regulatory elements of an area -/
  areaRules : Nat → List Nat

/-- Primitives of a layer, LaneletMap.h 266, 286, 305-307 -/
inductive Prim where
  | point (p : Nat)
  | line (l : Nat)
  | polygon (l : Nat)
  | lanelet (x : Nat)
  | area (x : Nat)
  deriving DecidableEq

/-- Keys of the usage lookups: points for linestrings and polygons, linestring handles and regulatory elements for lanelets and areas;
LaneletMap.cpp 228, 256-257, 268-269. The two lookups of lanelets and of areas are one list here. -/
inductive Key where
  | point (p : Nat)
  | line (l : LS)
  | rule (r : Nat)
  deriving DecidableEq

/-- Tree::treeNode, LaneletMap.cpp 281, 314: the box of the primitive as it is now; of a point it is the point -/
def box (lo hi : F) (w : World F) : Prim → Box 2 F
  | .point p => ⟨w.pos p, w.pos p⟩
  | .line l => ofPoints lo hi ((w.pts l).map w.pos)
  | .polygon l => ofPoints lo hi ((w.corners l).map w.pos)
  | .lanelet x => ofLanelet lo hi ((w.pts (w.left x).data).map w.pos) ((w.pts (w.right x).data).map w.pos)
  | .area x => ofArea lo hi (((w.outer x).flatMap fun l => w.pts l.data).map w.pos)

/-- UsageLookup::add, LaneletMap.cpp 223-227, 244-255, 261-267, 274 (for linestrings and polygons the loop 384-386): what the primitive refers to
now -/
def owned (w : World F) : Prim → List Key
  | .point _ => []
  | .line l => (w.pts l).map .point
  | .polygon l => (w.corners l).map .point
  | .lanelet x => .line (w.left x) :: .line (w.right x) :: (w.rules x).map .rule
  | .area x => (w.outer x).map .line ++ (w.inner x).flatMap (fun ring => ring.map .line) ++ (w.areaRules x).map .rule

/-- A layer: its elements, the entries of its tree, its usage lookup; LaneletMap.h 249-252, LaneletMap.cpp 306-307 -/
structure Layer (F : Type) where
  /-- the elements -/
  elements : List Prim
  /-- the entries of the tree -/
  tree : List (Box 2 F × Prim)
  /-- the usage lookup -/
  usage : List (Key × Prim)

/-- What a program does: adding a primitive; moving a point (Point.h 251, 257-260, 297-306), changing the points of a linestring or polygon by
push_back, insert, erase, operator[] and so on (LineString.h 413-496), setting the bounds of a lanelet (Lanelet.h 262-269), here both at once and in
the direction of the data, adding or removing regulatory elements of a lanelet or area (Lanelet.h 286-302, Area.h 240-256), setting the bounds of
an area (Area.h 228, 231) -/
inductive Op (F : Type) where
  | add (x : Prim)
  | move (p : Nat) (q : Pt 2 F)
  | setPoints (l : Nat) (ps : List Nat)
  | setBounds (x : Nat) (left right : LS)
  | setRules (x : Nat) (rs : List Nat)
  | setCorners (l : Nat) (ps : List Nat)
  | setOuter (x : Nat) (ls : List LS)
  | setInner (x : Nat) (rings : List (List LS))
  | setAreaRules (x : Nat) (rs : List Nat)

/-- The geometry after an operation, Point.h 251-260, LineString.h 413-496, Lanelet.h 262-269, 286-302, Area.h 85-93, 240-256 -/
def World.apply (w : World F) : Op F → World F
  | .add _ => w
  | .move p q => { w with pos := fun r => if r = p then q else w.pos r }
  | .setPoints l ps => { w with pts := fun k => if k = l then ps else w.pts k }
  | .setBounds x a b => { w with left := fun y => if y = x then a else w.left y, right := fun y => if y = x then b else w.right y }
  | .setRules x rs => { w with rules := fun y => if y = x then rs else w.rules y }
  | .setCorners l ps => { w with corners := fun k => if k = l then ps else w.corners k }
  | .setOuter x ls => { w with outer := fun y => if y = x then ls else w.outer y }
  | .setInner x rings => { w with inner := fun y => if y = x then rings else w.inner y }
  | .setAreaRules x rs => { w with areaRules := fun y => if y = x then rs else w.areaRules y }

omit [LinearOrder F] in
/-- Each operation changes what it names and nothing else. -/
theorem apply_frame (w : World F) (o : Op F) :
    (∀ r, (w.apply o).pos r ≠ w.pos r → o = .move r ((w.apply o).pos r)) ∧
    (∀ k, (w.apply o).pts k ≠ w.pts k → o = .setPoints k ((w.apply o).pts k)) ∧
    (∀ k, (w.apply o).corners k ≠ w.corners k → o = .setCorners k ((w.apply o).corners k)) ∧
    (∀ y, (w.apply o).left y ≠ w.left y ∨ (w.apply o).right y ≠ w.right y → o = .setBounds y ((w.apply o).left y) ((w.apply o).right y)) ∧
    (∀ y, (w.apply o).rules y ≠ w.rules y → o = .setRules y ((w.apply o).rules y)) ∧
    (∀ y, (w.apply o).outer y ≠ w.outer y → o = .setOuter y ((w.apply o).outer y)) ∧
    (∀ y, (w.apply o).inner y ≠ w.inner y → o = .setInner y ((w.apply o).inner y)) ∧
    (∀ y, (w.apply o).areaRules y ≠ w.areaRules y → o = .setAreaRules y ((w.apply o).areaRules y)) := by
  cases o <;> simp only [World.apply, ne_eq, not_true_eq_false, or_false, false_implies, implies_true, and_true, true_and] <;>
    intro y h <;> split at h <;> simp_all

/-- PrimitiveLayer::add, LaneletMap.cpp 382-389, 398-410, 391-396, with Tree::insert (294-299, 322) and the check in LaneletMap::add (571, 597, 649, 663, 677). Other
operations do not reach the layer. -/
def Layer.apply (lo hi : F) (w : World F) (y : Layer F) : Op F → Layer F
  | .add x =>
    if x ∈ y.elements then y
    else ⟨x :: y.elements, if (box lo hi w x).isEmpty then y.tree else (box lo hi w x, x) :: y.tree,
      (owned w x).map (·, x) ++ y.usage⟩
  | _ => y

/-- A program: its operations one after the other; stands for any code that uses the functions cited at `Op` -/
def run (lo hi : F) : List (Op F) → World F → Layer F → World F × Layer F
  | [], w, y => (w, y)
  | o :: os, w, y => run lo hi os (w.apply o) (y.apply lo hi w o)

/-- search, LaneletMap.cpp 499-511 -/
def Layer.search (y : Layer F) (area : Box 2 F) : List Prim := (y.tree.filter fun e => e.1.intersects area).map (·.2)

/-- findUsages, LaneletMap.cpp 165-169, 419-431, 433-461 -/
def Layer.findUsages (y : Layer F) (k : Key) : List Prim := (y.usage.filter fun e => e.1 == k).map (·.2)

/-! ### Specification -/

/-- Specification. A primitive refers to this point, itself or by its linestrings; of areas only the outer bound counts. -/
def UsesPoint (w : World F) (p : Nat) : Prim → Prop
  | .point q => q = p
  | .line l => p ∈ w.pts l
  | .polygon l => p ∈ w.corners l
  | .lanelet x => p ∈ w.pts (w.left x).data ∨ p ∈ w.pts (w.right x).data
  | .area x => ∃ l ∈ w.outer x, p ∈ w.pts l.data

/-- Specification. A primitive is this linestring or has it as (outer) bound. -/
def UsesLine (w : World F) (l : Nat) : Prim → Prop
  | .point _ => False
  | .line k => k = l
  | .polygon _ => False
  | .lanelet x => (w.left x).data = l ∨ (w.right x).data = l
  | .area x => ∃ b ∈ w.outer x, b.data = l

/-- Specification. A primitive directly refers to this point, linestring or regulatory element. -/
def UsesKey (w : World F) (k : Key) : Prim → Prop
  | .point _ => False
  | .line l => ∃ p, k = .point p ∧ p ∈ w.pts l
  | .polygon l => ∃ p, k = .point p ∧ p ∈ w.corners l
  | .lanelet x => k = .line (w.left x) ∨ k = .line (w.right x) ∨ ∃ r, k = .rule r ∧ r ∈ w.rules x
  | .area x => (∃ l, k = .line l ∧ (l ∈ w.outer x ∨ ∃ ring ∈ w.inner x, l ∈ ring)) ∨ ∃ r, k = .rule r ∧ r ∈ w.areaRules x

/-- Specification. The smallest box around the points of a primitive, if there are any, meets the area: along each axis one of its points is
not behind the area and one is not before it. -/
def Meets (w : World F) (area : Box 2 F) (x : Prim) : Prop :=
  ∀ i, (∃ p, UsesPoint w p x ∧ w.pos p i ≤ area.max i) ∧ ∃ p, UsesPoint w p x ∧ area.min i ≤ w.pos p i

/-- Specification. All coordinates are numbers between the smallest and the largest. -/
def Finite (lo hi : F) (w : World F) (os : List (Op F)) : Prop :=
  (∀ p, Fin' lo hi (w.pos p)) ∧ ∀ p q, Op.move p q ∈ os → Fin' lo hi q

/-- Specification. An operation changes where a primitive is. -/
def Moves (w : World F) (x : Prim) : Op F → Prop
  | .add _ => False
  | .move p _ => UsesPoint w p x
  | .setPoints l _ => UsesLine w l x
  | .setBounds y _ _ => x = .lanelet y
  | .setRules _ _ => False
  | .setCorners l _ => x = .polygon l
  | .setOuter y _ => x = .area y
  | .setInner _ _ => False
  | .setAreaRules _ _ => False

/-- Specification. An operation changes what a primitive directly refers to. -/
def Reseats (x : Prim) : Op F → Prop
  | .add _ => False
  | .move _ _ => False
  | .setPoints l _ => x = .line l
  | .setBounds y _ _ => x = .lanelet y
  | .setRules y _ => x = .lanelet y
  | .setCorners l _ => x = .polygon l
  | .setOuter y _ => x = .area y
  | .setInner y _ => x = .area y
  | .setAreaRules y _ => x = .area y

/-- Specification. The geometry after operations. -/
def after (w : World F) (os : List (Op F)) : World F := os.foldl World.apply w

/-- Specification. The primitive is added for the first time by the operation behind `a`. -/
def AddedAfter (os : List (Op F)) (x : Prim) (a : List (Op F)) : Prop := ∃ b, os = a ++ .add x :: b ∧ Op.add x ∉ a

/-- Specification. No operation after a primitive was added changes where it is. -/
def Calm (w : World F) (os : List (Op F)) : Prop := ∀ x a o b c, os = a ++ .add x :: b ++ o :: c → ¬ Moves (after w (a ++ .add x :: b)) x o

/-- Specification. No operation after a primitive was added changes what it directly refers to. -/
def Settled (os : List (Op F)) : Prop := ∀ x a o b c, os = a ++ .add x :: b ++ o :: c → ¬ Reseats x o

/-- Specification. The layer before anything was added. -/
def empty : Layer F := ⟨[], [], []⟩

/-! ### Proofs -/

theorem run_fst (lo hi : F) (os : List (Op F)) (w : World F) (y : Layer F) : (run lo hi os w y).1 = after w os := by
  induction os generalizing w y with
  | nil => rfl
  | cons o os ih => exact ih _ _

theorem run_append (lo hi : F) (os ps : List (Op F)) (w : World F) (y : Layer F) :
    run lo hi (os ++ ps) w y = run lo hi ps (after w os) (run lo hi os w y).2 := by
  induction os generalizing w y with
  | nil => rfl
  | cons o os ih => exact ih _ _

omit [LinearOrder F] in
theorem after_append (w : World F) (os ps : List (Op F)) : after w (os ++ ps) = after (after w os) ps := List.foldl_append ..

omit [LinearOrder F] in
theorem addedAfter_snoc (os : List (Op F)) (o : Op F) (x : Prim) (a : List (Op F)) :
    AddedAfter (os ++ [o]) x a ↔ AddedAfter os x a ∨ (a = os ∧ o = .add x ∧ Op.add x ∉ os) := by
  constructor
  · rintro ⟨b, hb, ha⟩
    rcases List.eq_nil_or_concat b with rfl | ⟨b', o', rfl⟩
    · obtain ⟨h1, h2⟩ := List.append_inj' hb rfl
      right
      subst h1
      exact ⟨rfl, by simpa using h2, ha⟩
    · left
      refine ⟨b', ?_, ha⟩
      have : os ++ [o] = (a ++ .add x :: b') ++ [o'] := by rw [hb]; simp
      exact (List.append_inj' this rfl).1
  · rintro (⟨b, rfl, ha⟩ | ⟨rfl, rfl, ha⟩)
    · exact ⟨b ++ [o], by simp, ha⟩
    · exact ⟨[], rfl, ha⟩

omit [LinearOrder F] in
theorem mem_of_addedAfter {os : List (Op F)} {x : Prim} {a : List (Op F)} (h : AddedAfter os x a) : Op.add x ∈ os := by
  obtain ⟨b, rfl, _⟩ := h; simp

/-- The state of the layer in terms of the program: each element is indexed as it was when it was added. -/
theorem run_snd (lo hi : F) (w : World F) (os : List (Op F)) :
    (∀ x, x ∈ (run lo hi os w empty).2.elements ↔ Op.add x ∈ os) ∧
    (∀ b x, (b, x) ∈ (run lo hi os w empty).2.tree ↔ b.isEmpty = false ∧ ∃ a, AddedAfter os x a ∧ b = box lo hi (after w a) x) ∧
    ∀ k x, (k, x) ∈ (run lo hi os w empty).2.usage ↔ ∃ a, AddedAfter os x a ∧ k ∈ owned (after w a) x := by
  induction os using List.reverseRecOn with
  | nil => simp [run, empty, AddedAfter]
  | append_singleton os o ih =>
    obtain ⟨h1, h2, h3⟩ := ih
    rw [run_append]
    have same : ∀ y : Layer F, y = (run lo hi os w empty).2 → (∀ x, o = .add x → Op.add x ∈ os) →
        (∀ x, x ∈ y.elements ↔ Op.add x ∈ os ++ [o]) ∧
        (∀ b x, (b, x) ∈ y.tree ↔ b.isEmpty = false ∧ ∃ a, AddedAfter (os ++ [o]) x a ∧ b = box lo hi (after w a) x) ∧
        ∀ k x, (k, x) ∈ y.usage ↔ ∃ a, AddedAfter (os ++ [o]) x a ∧ k ∈ owned (after w a) x := by
      rintro y rfl ho
      have hadd : ∀ x a, AddedAfter (os ++ [o]) x a ↔ AddedAfter os x a := by
        intro x a
        rw [addedAfter_snoc]
        constructor
        · rintro (h | ⟨_, h5, h6⟩)
          · exact h
          · exact absurd (ho x h5) h6
        · exact .inl
      refine ⟨fun x => ?_, fun b x => ?_, fun k x => ?_⟩
      · rw [h1, List.mem_append]
        constructor
        · exact .inl
        · rintro (h | h)
          · exact h
          · exact ho x (List.mem_singleton.1 h).symm
      · rw [h2]; simp only [hadd]
      · rw [h3]; simp only [hadd]
    cases o with
    | move p q => exact same _ rfl (by intro x h; cases h)
    | setPoints l ps => exact same _ rfl (by intro x h; cases h)
    | setBounds z l r => exact same _ rfl (by intro x h; cases h)
    | setRules z rs => exact same _ rfl (by intro x h; cases h)
    | setCorners l ps => exact same _ rfl (by intro x h; cases h)
    | setOuter z ls => exact same _ rfl (by intro x h; cases h)
    | setInner z rings => exact same _ rfl (by intro x h; cases h)
    | setAreaRules z rs => exact same _ rfl (by intro x h; cases h)
    | add z =>
      show (∀ x, x ∈ (Layer.apply lo hi (after w os) (run lo hi os w empty).2 (.add z)).elements ↔ _) ∧ _
      by_cases hz : z ∈ (run lo hi os w empty).2.elements
      · have hl : (run lo hi [.add z] (after w os) (run lo hi os w empty).2).2 = (run lo hi os w empty).2 := by
          simp [run, Layer.apply, hz]
        have hl' : Layer.apply lo hi (after w os) (run lo hi os w empty).2 (.add z) = (run lo hi os w empty).2 := by
          simp [Layer.apply, hz]
        rw [hl, hl']
        exact same _ rfl (by intro x h; cases h; exact (h1 z).1 hz)
      · have hz' : Op.add z ∉ os := fun h => hz ((h1 z).2 h)
        have hl : (run lo hi [.add z] (after w os) (run lo hi os w empty).2).2 =
            Layer.apply lo hi (after w os) (run lo hi os w empty).2 (.add z) := rfl
        rw [hl]
        simp only [Layer.apply, if_neg hz]
        have hz2 : ∀ a, ¬ AddedAfter os z a := fun a h => hz' (mem_of_addedAfter h)
        refine ⟨fun x => ?_, fun b x => ?_, fun k x => ?_⟩
        · simp only [List.mem_cons, h1, List.mem_append, List.not_mem_nil, or_false, Op.add.injEq]
          exact Or.comm
        · by_cases hx : x = z
          · subst hx
            have hr : (∃ a, AddedAfter (os ++ [.add x]) x a ∧ b = box lo hi (after w a) x) ↔ b = box lo hi (after w os) x := by
              constructor
              · rintro ⟨a, ha, hb⟩
                rcases (addedAfter_snoc ..).1 ha with h | ⟨rfl, _, _⟩
                · exact absurd h (hz2 a)
                · exact hb
              · intro hb; exact ⟨os, (addedAfter_snoc ..).2 (.inr ⟨rfl, rfl, hz'⟩), hb⟩
            rw [hr]
            have hno : (b, x) ∉ (run lo hi os w empty).2.tree := fun h => by
              obtain ⟨_, a, ha, _⟩ := (h2 b x).1 h
              exact hz2 a ha
            split
            · rename_i he
              constructor
              · intro h; exact absurd h hno
              · rintro ⟨h5, rfl⟩; rw [he] at h5; cases h5
            · rename_i he
              simp only [List.mem_cons, Prod.mk.injEq, and_true]
              constructor
              · rintro (rfl | h)
                · exact ⟨by simpa using he, rfl⟩
                · exact absurd h hno
              · rintro ⟨_, rfl⟩; exact .inl rfl
          · have hadd : ∀ a, AddedAfter (os ++ [.add z]) x a ↔ AddedAfter os x a := by
              intro a
              rw [addedAfter_snoc]
              constructor
              · rintro (h | ⟨_, h5, _⟩)
                · exact h
                · cases h5; exact absurd rfl hx
              · exact .inl
            simp only [hadd]
            rw [← h2]
            split
            · rfl
            · simp only [List.mem_cons, Prod.mk.injEq, hx, and_false, false_or]
        · simp only [List.mem_append, List.mem_map, Prod.mk.injEq]
          by_cases hx : x = z
          · subst hx
            have hno : (k, x) ∉ (run lo hi os w empty).2.usage := fun h => by
              obtain ⟨a, ha, _⟩ := (h3 k x).1 h
              exact hz2 a ha
            constructor
            · rintro (⟨j, hj, rfl, _⟩ | h)
              · exact ⟨os, (addedAfter_snoc ..).2 (.inr ⟨rfl, rfl, hz'⟩), hj⟩
              · exact absurd h hno
            · rintro ⟨a, ha, hk⟩
              rcases (addedAfter_snoc ..).1 ha with h | ⟨rfl, _, _⟩
              · exact absurd h (hz2 a)
              · exact .inl ⟨k, hk, rfl, rfl⟩
          · rw [h3]
            constructor
            · rintro (⟨j, hj, _, h⟩ | ⟨a, ha, hk⟩)
              · exact absurd h.symm hx
              · exact ⟨a, (addedAfter_snoc ..).2 (.inl ha), hk⟩
            · rintro ⟨a, ha, hk⟩
              rcases (addedAfter_snoc ..).1 ha with h | ⟨_, h5, _⟩
              · exact .inr ⟨a, h, hk⟩
              · cases h5; exact absurd rfl hx

theorem search_boxes (lo hi : F) (w : World F) (os : List (Op F)) (area : Box 2 F) (x : Prim) :
    x ∈ (run lo hi os w empty).2.search area ↔
      ∃ a, AddedAfter os x a ∧ (box lo hi (after w a) x).isEmpty = false ∧ (box lo hi (after w a) x).intersects area = true := by
  simp only [Layer.search, List.mem_map, List.mem_filter, Prod.exists, exists_eq_right]
  constructor
  · rintro ⟨b, h1, h2⟩
    obtain ⟨h3, a, h4, rfl⟩ := ((run_snd lo hi w os).2.1 b x).1 h1
    exact ⟨a, h4, h3, h2⟩
  · rintro ⟨a, h1, h2, h3⟩
    exact ⟨_, ((run_snd lo hi w os).2.1 _ x).2 ⟨h2, a, h1, rfl⟩, h3⟩

omit [LinearOrder F] in
theorem mem_owned (w : World F) (k : Key) (x : Prim) : k ∈ owned w x ↔ UsesKey w k x := by
  cases x with
  | point p => simp [owned, UsesKey]
  | line l =>
    simp only [owned, UsesKey, List.mem_map]
    constructor
    · rintro ⟨p, hp, rfl⟩; exact ⟨p, rfl, hp⟩
    · rintro ⟨p, rfl, hp⟩; exact ⟨p, hp, rfl⟩
  | polygon l =>
    simp only [owned, UsesKey, List.mem_map]
    constructor
    · rintro ⟨p, hp, rfl⟩; exact ⟨p, rfl, hp⟩
    · rintro ⟨p, rfl, hp⟩; exact ⟨p, hp, rfl⟩
  | lanelet y =>
    simp only [owned, UsesKey, List.mem_cons, List.mem_map]
    constructor
    · rintro (h | h | ⟨r, hr, rfl⟩)
      · exact .inl h
      · exact .inr (.inl h)
      · exact .inr (.inr ⟨r, rfl, hr⟩)
    · rintro (h | h | ⟨r, rfl, hr⟩)
      · exact .inl h
      · exact .inr (.inl h)
      · exact .inr (.inr ⟨r, hr, rfl⟩)
  | area y =>
    simp only [owned, UsesKey, List.mem_append, List.mem_map, List.mem_flatMap]
    constructor
    · rintro ((⟨l, hl, rfl⟩ | ⟨ring, hr, l, hl, rfl⟩) | ⟨r, hr, rfl⟩)
      · exact .inl ⟨l, rfl, .inl hl⟩
      · exact .inl ⟨l, rfl, .inr ⟨ring, hr, hl⟩⟩
      · exact .inr ⟨r, rfl, hr⟩
    · rintro (⟨l, rfl, hl | ⟨ring, hr, hl⟩⟩ | ⟨r, rfl, hr⟩)
      · exact .inl (.inl ⟨l, hl, rfl⟩)
      · exact .inl (.inr ⟨ring, hr, l, hl, rfl⟩)
      · exact .inr ⟨r, hr, rfl⟩

theorem meets_of_lub {lo hi : F} (w : World F) (hw : ∀ p, Fin' lo hi (w.pos p)) (hlh : lo < hi) (x : Prim) (b area : Box 2 F)
    (hb : Lub lo hi (fun q => ∃ p, UsesPoint w p x ∧ w.pos p = q) b) :
    (b.isEmpty = false ∧ b.intersects area = true) ↔ Meets w area x := by
  have hfin : ∀ q, (∃ p, UsesPoint w p x ∧ w.pos p = q) → Fin' lo hi q := by
    rintro _ ⟨p, _, rfl⟩; exact hw p
  have hemp := (lub_smallest hlh (by decide) hfin hb).2
  simp only [Box.intersects, decide_eq_true_eq]
  constructor
  · rintro ⟨he, h1, h2⟩ i
    have hne : ∃ q p, UsesPoint w p x ∧ w.pos p = q := by
      by_contra hc
      rw [hemp.2 hc] at he
      cases he
    obtain ⟨q, p, hp, rfl⟩ := hne
    have hup := hb.upper _ ⟨p, hp, rfl⟩ i
    constructor
    · rcases (hb.least i).1 with h | ⟨_, ⟨p', hp', rfl⟩, h⟩
      · exact ⟨p, hp, ((hw p i).2.trans h.ge).trans (h1 i)⟩
      · exact ⟨p', hp', h.le.trans (h1 i)⟩
    · rcases (hb.least i).2 with h | ⟨_, ⟨p', hp', rfl⟩, h⟩
      · exact ⟨p, hp, (h2 i).trans (h.le.trans (hw p i).1)⟩
      · exact ⟨p', hp', (h2 i).trans h.ge⟩
  · intro h
    refine ⟨?_, fun i => ?_, fun i => ?_⟩
    · obtain ⟨p, hp, _⟩ := (h 0).1
      rw [Bool.eq_false_iff]
      intro hc
      exact hemp.1 hc ⟨_, p, hp, rfl⟩
    · obtain ⟨p, hp, h1⟩ := (h i).1
      exact ((hb.upper _ ⟨p, hp, rfl⟩ i).1).trans h1
    · obtain ⟨p, hp, h1⟩ := (h i).2
      exact h1.trans (hb.upper _ ⟨p, hp, rfl⟩ i).2

theorem box_lub {lo hi : F} (w : World F) (hw : ∀ p, Fin' lo hi (w.pos p)) (x : Prim) :
    Lub lo hi (fun q => ∃ p, UsesPoint w p x ∧ w.pos p = q) (box lo hi w x) := by
  have hm : ∀ l : List Nat, ∀ q ∈ l.map w.pos, Fin' lo hi q := by
    intro l q hq
    obtain ⟨p, _, rfl⟩ := List.mem_map.1 hq
    exact hw p
  cases x with
  | point p => exact lub_congr (fun q => by simp [UsesPoint, eq_comm]) (lub_point lo hi (w.pos p))
  | line l => exact lub_congr (fun q => by simp [UsesPoint]) (lub_points lo hi _ (hm (w.pts l)))
  | polygon l => exact lub_congr (fun q => by simp [UsesPoint]) (lub_points lo hi _ (hm (w.corners l)))
  | area y =>
    refine lub_congr (fun q => ?_) (lub_points lo hi _ (hm ((w.outer y).flatMap fun l => w.pts l.data)))
    simp only [UsesPoint, List.mem_map, List.mem_flatMap]
  | lanelet y =>
    refine lub_congr (fun q => ?_) (lub_lanelet lo hi _ _ (hm (w.pts (w.left y).data)) (hm (w.pts (w.right y).data)))
    simp only [UsesPoint, List.mem_map]
    constructor
    · rintro (⟨p, h1, h2⟩ | ⟨p, h1, h2⟩)
      · exact ⟨p, .inl h1, h2⟩
      · exact ⟨p, .inr h1, h2⟩
    · rintro ⟨p, h1 | h1, h2⟩
      · exact .inl ⟨p, h1, h2⟩
      · exact .inr ⟨p, h1, h2⟩

theorem box_meets {lo hi : F} (w : World F) (hw : ∀ p, Fin' lo hi (w.pos p)) (hlh : lo < hi) (x : Prim) (area : Box 2 F) :
    ((box lo hi w x).isEmpty = false ∧ (box lo hi w x).intersects area = true) ↔ Meets w area x :=
  meets_of_lub w hw hlh x _ area (box_lub w hw x)

omit [LinearOrder F] in
theorem after_pos (P : Pt 2 F → Prop) (w : World F) (os : List (Op F)) (h1 : ∀ p, P (w.pos p))
    (h2 : ∀ p q, Op.move p q ∈ os → P q) (p : Nat) : P ((after w os).pos p) := by
  induction os generalizing w with
  | nil => exact h1 p
  | cons o os ih =>
    refine ih (w.apply o) (fun r => ?_) (fun r q h => h2 r q (by simp [h]))
    cases o with
    | move r' q =>
      simp only [World.apply]
      split
      · exact h2 r' q (by simp)
      · exact h1 r
    | _ => exact h1 r

theorem finite_prefix {lo hi : F} {w : World F} {os : List (Op F)} (h : Finite lo hi w os) {a b : List (Op F)} (e : os = a ++ b) (p : Nat) :
    Fin' lo hi ((after w a).pos p) :=
  after_pos (Fin' lo hi) w a h.1 (fun p q hm => h.2 p q (by rw [e]; simp [hm])) p

/-- C99. What search gives for every program: the primitives whose points were around the area when they were added. -/
theorem search_when_added (lo hi : F) (hlh : lo < hi) (w : World F) (os : List (Op F)) (hf : Finite lo hi w os) (area : Box 2 F) (x : Prim) :
    x ∈ (run lo hi os w empty).2.search area ↔ ∃ a, AddedAfter os x a ∧ Meets (after w a) area x := by
  rw [search_boxes]
  constructor
  · rintro ⟨a, ⟨b, e, h⟩, h1⟩
    exact ⟨a, ⟨b, e, h⟩, (box_meets _ (finite_prefix hf e) hlh x area).1 h1⟩
  · rintro ⟨a, ⟨b, e, h⟩, h1⟩
    exact ⟨a, ⟨b, e, h⟩, (box_meets _ (finite_prefix hf e) hlh x area).2 h1⟩

/-- C99. What findUsages gives for every program: the primitives that referred to the key when they were added. -/
theorem findUsages_when_added (lo hi : F) (w : World F) (os : List (Op F)) (k : Key) (x : Prim) :
    x ∈ (run lo hi os w empty).2.findUsages k ↔ ∃ a, AddedAfter os x a ∧ UsesKey (after w a) k x := by
  simp only [← mem_owned]
  simp only [Layer.findUsages, List.mem_map, List.mem_filter, Prod.exists, exists_eq_right, beq_iff_eq]
  rw [← (run_snd lo hi w os).2.2]

theorem box_apply (lo hi : F) (w : World F) (o : Op F) (x : Prim) (h : ¬ Moves w x o) : box lo hi (w.apply o) x = box lo hi w x := by
  have map_congr : ∀ (p : Nat) (q : Pt 2 F) (l : List Nat), p ∉ l →
      l.map (fun r => if r = p then q else w.pos r) = l.map w.pos := by
    intro p q l hp
    apply List.map_congr_left
    intro r hr
    rw [if_neg]
    rintro rfl; exact hp hr
  cases o with
  | add z => rfl
  | move p q =>
    cases x with
    | point r =>
      have : r ≠ p := h
      simp [box, World.apply, this]
    | line l =>
      simp only [box, World.apply]
      rw [map_congr p q _ h]
    | polygon l =>
      simp only [box, World.apply]
      rw [map_congr p q _ h]
    | lanelet z =>
      simp only [Moves, UsesPoint, not_or] at h
      simp only [box, World.apply]
      rw [map_congr p q _ h.1, map_congr p q _ h.2]
    | area z =>
      simp only [box, World.apply]
      rw [map_congr p q _ (by simpa [Moves, UsesPoint] using h)]
  | setPoints l ps =>
    cases x with
    | point r => rfl
    | line k =>
      have : k ≠ l := h
      simp [box, World.apply, this]
    | polygon k => rfl
    | lanelet z =>
      simp only [Moves, UsesLine, not_or] at h
      simp [box, World.apply, h.1, h.2]
    | area z =>
      have h' : ∀ b ∈ w.outer z, b.data ≠ l := fun b hb e => h ⟨b, hb, e⟩
      simp only [box, World.apply]
      congr 2
      have : ∀ os : List LS, (∀ b ∈ os, b.data ≠ l) →
          (os.flatMap fun b => if b.data = l then ps else w.pts b.data) = os.flatMap fun b => w.pts b.data := by
        intro os
        induction os with
        | nil => intro _; rfl
        | cons b os ih =>
          intro hb
          rw [List.flatMap_cons, List.flatMap_cons, if_neg (hb b (by simp)), ih fun c hc => hb c (by simp [hc])]
      exact this _ h'
  | setBounds z l r =>
    cases x with
    | lanelet y =>
      have : y ≠ z := fun e => h (by rw [e]; rfl)
      simp [box, World.apply, this]
    | _ => rfl
  | setCorners l ps =>
    cases x with
    | polygon k =>
      have : k ≠ l := fun e => h (by rw [e]; rfl)
      simp [box, World.apply, this]
    | _ => rfl
  | setOuter z ls =>
    cases x with
    | area y =>
      have : y ≠ z := fun e => h (by rw [e]; rfl)
      simp [box, World.apply, this]
    | _ => rfl
  | setRules z rs => cases x <;> rfl
  | setInner z rings => cases x <;> rfl
  | setAreaRules z rs => cases x <;> rfl

omit [LinearOrder F] in
theorem owned_apply (w : World F) (o : Op F) (x : Prim) (h : ¬ Reseats x o) : owned (w.apply o) x = owned w x := by
  cases o with
  | add z => rfl
  | move p q => cases x <;> rfl
  | setPoints l ps =>
    cases x with
    | line k =>
      have : k ≠ l := fun e => h (by rw [e]; rfl)
      simp [owned, World.apply, this]
    | _ => rfl
  | setCorners l ps =>
    cases x with
    | polygon k =>
      have : k ≠ l := fun e => h (by rw [e]; rfl)
      simp [owned, World.apply, this]
    | _ => rfl
  | setBounds z l r =>
    cases x with
    | lanelet y =>
      have : y ≠ z := fun e => h (by rw [e]; rfl)
      simp [owned, World.apply, this]
    | _ => rfl
  | setRules z rs =>
    cases x with
    | lanelet y =>
      have : y ≠ z := fun e => h (by rw [e]; rfl)
      simp [owned, World.apply, this]
    | _ => rfl
  | setOuter z ls =>
    cases x with
    | area y =>
      have : y ≠ z := fun e => h (by rw [e]; rfl)
      simp [owned, World.apply, this]
    | _ => rfl
  | setInner z rings =>
    cases x with
    | area y =>
      have : y ≠ z := fun e => h (by rw [e]; rfl)
      simp [owned, World.apply, this]
    | _ => rfl
  | setAreaRules z rs =>
    cases x with
    | area y =>
      have : y ≠ z := fun e => h (by rw [e]; rfl)
      simp [owned, World.apply, this]
    | _ => rfl

omit [LinearOrder F] in
theorem after_keeps {G : Type} (g : World F → G) (w : World F) (b : List (Op F))
    (h : ∀ b1 o b2, b = b1 ++ o :: b2 → g ((after w b1).apply o) = g (after w b1)) : g (after w b) = g w := by
  induction b using List.reverseRecOn with
  | nil => rfl
  | append_singleton b o ih =>
    rw [after_append]
    have h1 : g ((after w b).apply o) = g (after w b) := h b o [] (by simp)
    have h2 := ih fun b1 o' b2 e => h b1 o' (b2 ++ [o]) (by rw [e]; simp)
    exact h1.trans h2

theorem calm_box (lo hi : F) (w : World F) (os : List (Op F)) (h : Calm w os) (x : Prim) (a : List (Op F)) (ha : AddedAfter os x a) :
    box lo hi (after w os) x = box lo hi (after w a) x := by
  obtain ⟨b, rfl, _⟩ := ha
  have h1 := after_keeps (fun v => box lo hi v x) (after w (a ++ [.add x])) b (by
    rintro b1 o b2 rfl
    refine box_apply lo hi _ o x ?_
    have := h x a o b1 b2 (by simp)
    rw [← after_append]
    simpa using this)
  rw [← after_append] at h1
  simp only [List.append_assoc, List.singleton_append] at h1
  rw [h1, after_append]
  rfl

/-- C99. As long as nothing that was added is moved, search gives exactly the elements of the layer whose points are around the area
now. -/
theorem search_exact (lo hi : F) (hlh : lo < hi) (w : World F) (os : List (Op F)) (hf : Finite lo hi w os) (h : Calm w os)
    (area : Box 2 F) (x : Prim) :
    x ∈ (run lo hi os w empty).2.search area ↔ x ∈ (run lo hi os w empty).2.elements ∧ Meets (after w os) area x := by
  rw [← box_meets _ (finite_prefix hf (List.append_nil os).symm) hlh x area]
  have key := fun a => calm_box lo hi w os h x a
  rw [search_boxes, (run_snd lo hi w os).1]
  constructor
  · rintro ⟨a, ha, h1, h2⟩
    rw [key a ha]
    exact ⟨mem_of_addedAfter ha, h1, h2⟩
  · rintro ⟨hm, h1, h2⟩
    obtain ⟨a, b, rfl, ha⟩ := List.eq_append_cons_of_mem hm
    have had : AddedAfter (a ++ .add x :: b) x a := ⟨b, rfl, ha⟩
    rw [key a had] at h1 h2
    exact ⟨a, had, h1, h2⟩

/-- C99. As long as nothing that was added is moved, findNearest gives nearest elements by their current geometry among the elements of the layer
that have points. The distance to a box around all points of an element must not be larger than the distance to the element. -/
theorem findNearest_exact {K : Type} [LinearOrder K] (lo hi : F) (hlh : lo < hi) (w : World F) (os : List (Op F)) (hf : Finite lo hi w os)
    (h : Calm w os) (n : Nat) (hn : 1 ≤ n) (boxDist : Box 2 F → K) (dist : Prim → K)
    (hdist : ∀ x b, (∃ p, UsesPoint (after w os) p x) → (∀ p, UsesPoint (after w os) p x → In ((after w os).pos p) b) → boxDist b ≤ dist x)
    (order : List (Box 2 F × Prim)) (hperm : order.Perm (run lo hi os w empty).2.tree)
    (hsorted : order.Pairwise fun a b => boxDist a.1 ≤ boxDist b.1) :
    (∃ r, Verif.Nearest.findNearest n (fun e => boxDist e.1) (fun e => dist e.2) order = some r ∧
      Verif.Nearest.IsNearest n (fun e => dist e.2) (run lo hi os w empty).2.tree r) ∧
    ∀ x, (∃ b, (b, x) ∈ (run lo hi os w empty).2.tree) ↔
      x ∈ (run lo hi os w empty).2.elements ∧ ∃ p, UsesPoint (after w os) p x := by
  have hlub := fun x => box_lub (after w os) (finite_prefix hf (List.append_nil os).symm) x
  have hfin : ∀ x q, (∃ p, UsesPoint (after w os) p x ∧ (after w os).pos p = q) → Fin' lo hi q := by
    rintro x _ ⟨p, _, rfl⟩; exact finite_prefix hf (List.append_nil os).symm p
  have hemp := fun x => (lub_smallest hlh (by decide) (hfin x) (hlub x)).2
  constructor
  · refine Verif.Nearest.findNearest_spec n hn _ _ _ order ?_ hperm hsorted
    rintro ⟨b, x⟩ he
    obtain ⟨h1, a, ha, rfl⟩ := ((run_snd lo hi w os).2.1 b x).1 he
    rw [← calm_box lo hi w os h x a ha] at h1 ⊢
    refine hdist _ _ ?_ fun p hp => (hlub x).upper _ ⟨p, hp, rfl⟩
    by_contra hc
    rw [(hemp x).2 (by rintro ⟨_, p, hp, _⟩; exact hc ⟨p, hp⟩)] at h1
    cases h1
  · intro x
    rw [(run_snd lo hi w os).1]
    constructor
    · rintro ⟨b, hb⟩
      obtain ⟨h1, a, ha, rfl⟩ := ((run_snd lo hi w os).2.1 b x).1 hb
      refine ⟨mem_of_addedAfter ha, ?_⟩
      rw [← calm_box lo hi w os h x a ha] at h1
      by_contra hc
      rw [(hemp x).2 (by rintro ⟨_, p, hp, _⟩; exact hc ⟨p, hp⟩)] at h1
      cases h1
    · rintro ⟨hm, p, hp⟩
      obtain ⟨a, b, rfl, ha⟩ := List.eq_append_cons_of_mem hm
      have had : AddedAfter (a ++ .add x :: b) x a := ⟨b, rfl, ha⟩
      refine ⟨_, ((run_snd lo hi w _).2.1 _ x).2 ⟨?_, a, had, rfl⟩⟩
      rw [← calm_box lo hi w _ h x a had, Bool.eq_false_iff]
      intro hc
      exact (hemp x).1 hc ⟨_, p, hp, rfl⟩

/-- C99. As long as no linestring, polygon, lanelet or area that was added gets other points, bounds or regulatory elements, findUsages is exact.
Moving points does no harm. -/
theorem findUsages_exact (lo hi : F) (w : World F) (os : List (Op F)) (h : Settled os) (k : Key) (x : Prim) :
    x ∈ (run lo hi os w empty).2.findUsages k ↔ x ∈ (run lo hi os w empty).2.elements ∧ UsesKey (after w os) k x := by
  rw [← mem_owned]
  have key : ∀ a, AddedAfter os x a → owned (after w os) x = owned (after w a) x := by
    rintro a ⟨b, rfl, _⟩
    have h1 := after_keeps (fun v => owned v x) (after w (a ++ [.add x])) b (by
      rintro b1 o b2 rfl
      exact owned_apply _ o x (h x a o b1 b2 (by simp)))
    rw [← after_append] at h1
    simp only [List.append_assoc, List.singleton_append] at h1
    rw [h1, after_append]
    rfl
  rw [findUsages_when_added, (run_snd lo hi w os).1]
  simp only [← mem_owned]
  constructor
  · rintro ⟨a, ha, h1⟩
    rw [key a ha]
    exact ⟨mem_of_addedAfter ha, h1⟩
  · rintro ⟨hm, h1⟩
    obtain ⟨a, b, rfl, ha⟩ := List.eq_append_cons_of_mem hm
    have had : AddedAfter (a ++ .add x :: b) x a := ⟨b, rfl, ha⟩
    rw [key a had] at h1
    exact ⟨a, had, h1⟩

/-- C99, disagreement. Whatever happens to primitives after they were added, search and findUsages keep giving the same. -/
theorem changes_counterexample (lo hi : F) (w : World F) (os ps : List (Op F)) (hps : ∀ x, Op.add x ∉ ps) :
    (∀ area, (run lo hi (os ++ ps) w empty).2.search area = (run lo hi os w empty).2.search area) ∧
    ∀ k, (run lo hi (os ++ ps) w empty).2.findUsages k = (run lo hi os w empty).2.findUsages k := by
  have : (run lo hi (os ++ ps) w empty).2 = (run lo hi os w empty).2 := by
    rw [run_append]
    generalize (run lo hi os w empty).2 = y
    generalize after w os = v
    induction ps generalizing v with
    | nil => rfl
    | cons p ps ih =>
      have hp : y.apply lo hi v p = y := by
        cases p with
        | add x => exact absurd (by simp) (hps x)
        | move p q => rfl
        | setPoints l ps => rfl
        | setBounds z l r => rfl
        | setRules z rs => rfl
        | setCorners l ps => rfl
        | setOuter z ls => rfl
        | setInner z rings => rfl
        | setAreaRules z rs => rfl
      simp only [run, hp]
      exact ih (fun x hx => hps x (by simp [hx])) _
  simp only [this, implies_true, and_self]

/-- C99, disagreement. A point that was added and then moved to `q` is found where it was and not where it is: at every other area around
`q` nothing is found. -/
theorem moved_point_counterexample (lo hi : F) (w : World F) (p : Nat) (q : Pt 2 F) (area : Box 2 F)
    (harea : ¬ In (w.pos p) area) (hq : In q area) :
    Prim.point p ∉ (run lo hi [.add (.point p), .move p q] w empty).2.search area ∧
    Meets (run lo hi [.add (.point p), .move p q] w empty).1 area (.point p) ∧
    Prim.point p ∈ (run lo hi [.add (.point p), .move p q] w empty).2.search ⟨w.pos p, w.pos p⟩ := by
  have hne : (⟨w.pos p, w.pos p⟩ : Box 2 F).isEmpty = false := by simp [Box.isEmpty]
  have hself : (⟨w.pos p, w.pos p⟩ : Box 2 F).intersects ⟨w.pos p, w.pos p⟩ = true := by simp [Box.intersects]
  have htree : (run lo hi [.add (.point p), .move p q] w empty).2.tree = [(⟨w.pos p, w.pos p⟩, .point p)] := by
    simp [run, Layer.apply, World.apply, empty, box, hne]
  refine ⟨?_, ?_, ?_⟩
  · simp only [Layer.search, htree]
    have : (⟨w.pos p, w.pos p⟩ : Box 2 F).intersects area = false := by
      rw [Bool.eq_false_iff]
      intro h
      simp only [Box.intersects, decide_eq_true_eq] at h
      exact harea fun i => ⟨h.2 i, h.1 i⟩
    simp [this]
  · intro i
    simp only [run, World.apply, UsesPoint]
    exact ⟨⟨p, rfl, by simpa using (hq i).2⟩, ⟨p, rfl, by simpa using (hq i).1⟩⟩
  · simp [Layer.search, htree, hself]

/-- C99, disagreement. findUsages still knows the old bounds of a lanelet after other bounds are set, and not the new ones. -/
theorem set_bounds_counterexample (lo hi : F) (w : World F) (x : Nat) (l r : LS) (k : LS) :
    (Prim.lanelet x ∈ (run lo hi [.add (.lanelet x), .setBounds x l r] w empty).2.findUsages (.line k) ↔ k = w.left x ∨ k = w.right x) ∧
    (UsesKey (run lo hi [.add (.lanelet x), .setBounds x l r] w empty).1 (.line k) (.lanelet x) ↔ k = l ∨ k = r) := by
  constructor
  · have hc := (changes_counterexample lo hi w [.add (.lanelet x)] [.setBounds x l r] (by simp)).2
    simp only [List.singleton_append] at hc
    rw [hc, findUsages_when_added]
    constructor
    · rintro ⟨a, ⟨b, e, _⟩, h⟩
      obtain rfl : a = [] := by
        cases a with
        | nil => rfl
        | cons o a => simp at e
      simpa [UsesKey, after] using h
    · intro h
      exact ⟨[], ⟨[], rfl, by simp⟩, by simpa [UsesKey, after] using h⟩
  · simp [run, World.apply, UsesKey]

/-- C99, disagreement. A regulatory element that a lanelet or area of the layer gets later is not known to findUsages, and one that is removed from
them is still found. -/
theorem set_rules_counterexample (lo hi : F) (w : World F) (x : Nat) (rs : List Nat) (r : Nat) :
    (Prim.lanelet x ∈ (run lo hi [.add (.lanelet x), .setRules x rs] w empty).2.findUsages (.rule r) ↔ r ∈ w.rules x) ∧
    (UsesKey (run lo hi [.add (.lanelet x), .setRules x rs] w empty).1 (.rule r) (.lanelet x) ↔ r ∈ rs) ∧
    (Prim.area x ∈ (run lo hi [.add (.area x), .setAreaRules x rs] w empty).2.findUsages (.rule r) ↔ r ∈ w.areaRules x) ∧
    (UsesKey (run lo hi [.add (.area x), .setAreaRules x rs] w empty).1 (.rule r) (.area x) ↔ r ∈ rs) := by
  refine ⟨?_, ?_, ?_, ?_⟩
  · have hc := (changes_counterexample lo hi w [.add (.lanelet x)] [.setRules x rs] (by simp)).2
    simp only [List.singleton_append] at hc
    rw [hc, findUsages_when_added]
    constructor
    · rintro ⟨a, ⟨b, e, _⟩, h⟩
      obtain rfl : a = [] := by
        cases a with
        | nil => rfl
        | cons o a => simp at e
      simpa [UsesKey, after] using h
    · intro h
      exact ⟨[], ⟨[], rfl, by simp⟩, by simpa [UsesKey, after] using h⟩
  · simp [run, World.apply, UsesKey]
  · have hc := (changes_counterexample lo hi w [.add (.area x)] [.setAreaRules x rs] (by simp)).2
    simp only [List.singleton_append] at hc
    rw [hc, findUsages_when_added]
    constructor
    · rintro ⟨a, ⟨b, e, _⟩, h⟩
      obtain rfl : a = [] := by
        cases a with
        | nil => rfl
        | cons o a => simp at e
      simpa [UsesKey, after] using h
    · intro h
      exact ⟨[], ⟨[], rfl, by simp⟩, by simpa [UsesKey, after] using h⟩
  · simp [run, World.apply, UsesKey]

/-- C99, disagreement. findNearest takes the order of the search from the old boxes and the distances from the new geometry: of two points
at 100 and 5 it gives the second one as nearest to the origin, although the first one was moved to 1. -/
theorem findNearest_counterexample :
    let w : World Int := ⟨fun p => if p = 0 then ![100, 0] else ![5, 0], fun _ => [], fun _ => ⟨0, false⟩, fun _ => ⟨0, false⟩,
      fun _ => [], fun _ => [], fun _ => [], fun _ => [], fun _ => []⟩
    let s := run (-1000) 1000 [.add (.point 0), .add (.point 1), .move 0 ![1, 0]] w empty
    let boxDist : Box 2 Int × Prim → Int := fun e => e.1.min 0
    let dist : Box 2 Int × Prim → Int := fun e => (box (-1000) 1000 s.1 e.2).min 0
    (Verif.Nearest.findNearest 1 boxDist dist s.2.tree).map (fun r => r.map fun e => (e.1, e.2.2)) = some [(5, .point 1)] ∧
      (s.2.tree.map fun e => (boxDist e, dist e, e.2)) = [(5, 5, .point 1), (100, 1, .point 0)] := by
  decide

/-! ### Examples -/

/-- Example. A point at (1, 2), a linestring to (3, 4), a lanelet with it on both sides, an area with one hole -/
def exWorld : World Int := ⟨fun p => if p = 0 then ![1, 2] else ![3, 4], fun _ => [0, 1], fun _ => ⟨0, false⟩, fun _ => ⟨1, true⟩,
  fun _ => [5], fun _ => [0, 1, 2], fun _ => [⟨0, false⟩, ⟨1, true⟩], fun _ => [[⟨2, false⟩]], fun _ => [5, 6]⟩

-- point 7 is moved, but only before the linestring with it is added
example : (run (-1000) 1000 [.setPoints 0 [0, 7], .move 7 ![9, 9], .add (.line 0), .add (.lanelet 0), .add (.line 0)] exWorld empty).2.search
    ⟨![8, 8], ![20, 20]⟩ = [.lanelet 0, .line 0] := by decide

example : (run (-1000) 1000 [.add (.area 0), .add (.lanelet 0), .add (.polygon 3), .setInner 0 [], .setRules 0 [7]] exWorld empty).2.findUsages
    (.rule 5) = [.lanelet 0, .area 0] ∧
    (run (-1000) 1000 [.add (.area 0), .setInner 0 [], .setRules 0 [7]] exWorld empty).2.findUsages (.line ⟨2, false⟩) = [.area 0] := by
  decide

example : Finite (-1000) 1000 exWorld [.setPoints 0 [0, 7], .move 7 ![9, 9], .add (.line 0), .add (.lanelet 0), .add (.line 0)] := by
  refine ⟨fun p i => ?_, fun p q h i => ?_⟩
  · by_cases hp : p = 0 <;> simp only [exWorld, hp, if_true, if_false] <;> revert i <;> decide
  · simp only [List.mem_cons, reduceCtorEq, Op.move.injEq, false_or, List.not_mem_nil, or_false] at h
    obtain ⟨_, rfl⟩ := h
    revert i
    decide

-- a point that is not part of the linestring is moved after the linestring was added
example : Calm exWorld [.add (.line 0), .move 7 ![9, 9], .add (.point 7)] := by
  intro x a o b c h
  match a with
  | [] =>
    simp only [List.nil_append, List.cons_append, List.cons.injEq, Op.add.injEq] at h
    obtain ⟨rfl, h⟩ := h
    match b with
    | [] =>
      simp only [List.nil_append, List.cons.injEq] at h
      obtain ⟨rfl, _⟩ := h
      simp [Moves, UsesPoint, after, World.apply, exWorld]
    | [_] =>
      simp only [List.cons_append, List.nil_append, List.cons.injEq] at h
      obtain ⟨_, rfl, _⟩ := h
      exact id
    | _ :: _ :: _ => simp at h
  | [_] => simp at h
  | [_, _] => simp at h
  | _ :: _ :: _ :: _ => simp at h

-- two points at 100 and 5, measured along the first axis from the origin
example :
    let w : World Int := ⟨fun p => if p = 0 then ![100, 0] else ![5, 0], fun _ => [], fun _ => ⟨0, false⟩, fun _ => ⟨0, false⟩,
      fun _ => [], fun _ => [], fun _ => [], fun _ => [], fun _ => []⟩
    let os : List (Op Int) := [.add (.point 0), .add (.point 1)]
    let dist : Prim → Int := fun x => match x with | .point p => w.pos p 0 | _ => 0
    ∀ x b, (∃ p, UsesPoint (after w os) p x) → (∀ p, UsesPoint (after w os) p x → In ((after w os).pos p) b) → b.min 0 ≤ dist x := by
  intro w os dist x b h1 h2
  cases x with
  | point p => exact (h2 p rfl 0).1
  | line l => obtain ⟨p, hp⟩ := h1; cases hp
  | polygon l => obtain ⟨p, hp⟩ := h1; cases hp
  | lanelet l => obtain ⟨p, hp | hp⟩ := h1 <;> cases hp
  | area l => obtain ⟨p, _, hp, _⟩ := h1; cases hp

-- the bounds of a lanelet are set before it is added, and a point of them is moved afterwards
example : Settled ([.setBounds 0 ⟨1, false⟩ ⟨2, false⟩, .add (.lanelet 0), .move 0 ![9, 9]] : List (Op Int)) := by
  intro x a o b c h
  match a with
  | [] => simp at h
  | [_] =>
    simp only [List.cons_append, List.nil_append, List.cons.injEq, Op.add.injEq] at h
    obtain ⟨_, rfl, h⟩ := h
    match b with
    | [] =>
      simp only [List.nil_append, List.cons.injEq] at h
      obtain ⟨rfl, _⟩ := h
      exact id
    | _ :: _ => simp at h
  | [_, _] => simp at h
  | _ :: _ :: _ :: _ => simp at h

-- a point at (1, 2) that is moved to (9, 9)
example : Prim.point 0 ∉ (run (-1000) 1000 [.add (.point 0), .move 0 ![9, 9]] exWorld empty).2.search ⟨![8, 8], ![20, 20]⟩ :=
  (moved_point_counterexample (-1000) 1000 exWorld 0 ![9, 9] ⟨![8, 8], ![20, 20]⟩ (by unfold In; decide)
    (by unfold In; decide)).1

end Verif.LMap.Stale
