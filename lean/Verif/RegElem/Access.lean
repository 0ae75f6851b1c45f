import Verif.RegElem.Model
import Verif.Compound.Props
import Mathlib.Data.String.Basic
import Mathlib.Tactic.Tauto

/-!
Looking up parameters of regulatory elements by id: lanelet2_core/include/lanelet2_core/primitives/RegulatoryElement.h,
lanelet2_core/src/RegulatoryElement.cpp, and the functions `has` of lanelets, areas and linestrings.
-/
namespace Verif.RegElem.Access
open Verif.RegElem (Param Lanelet Line)

/-! ### model -/

/-- The objects behind the handles, by the address of their data: PrimitiveData (Primitive.h 31-48), LineStringData
(LineString.h 216-242), LaneletData (Lanelet.h 30-110), AreaData (Area.h 38-109). Points are given by their ids. -/
structure Store where
  /-- the data of lanelets and areas that was destroyed: weak pointers to it are expired -/
  dead : Nat → Bool
  /-- the id of an object; 0 is InvalId, Forward.h 199 -/
  id : Nat → Int
  /-- the ids of the points of a linestring or polygon in the order of its data -/
  points : Nat → List Int
  /-- the left bound of a lanelet (of the data, not of an inverted handle) -/
  left : Nat → Line
  /-- the right bound of a lanelet -/
  right : Nat → Line
  /-- the outer bound of an area -/
  outer : Nat → List Line
  /-- the bounds of the holes of an area -/
  inner : Nat → List (List Line)
  /-- the ids of the regulatory elements of a lanelet or area -/
  regs : Nat → List Int

/-- The RuleParameterMap in the order of its iterators (RegulatoryElement.h 127, HybridMap.h 125-128): by role. -/
abbrev Table := List (String × List Param)

/-- begin to end of a linestring, LineString.h 269-311 -/
def linePoints (s : Store) (l : Line) : List Int := if l.2 then (s.points l.1).reverse else s.points l.1

/-- has for linestrings and polygons, LineString.h 789-792 -/
def hasLine (s : Store) (l : Line) (i : Int) : Bool := (linePoints s l).any fun p => p == i

/-- ConstLanelet::leftBound, Lanelet.h 160, 164-166: an inverted lanelet has the inverted right bound on its left. -/
def leftBound (s : Store) (l : Lanelet) : Line := if l.2 then ((s.right l.1).1, !(s.right l.1).2) else s.left l.1
/-- ConstLanelet::rightBound, Lanelet.h 151 -/
def rightBound (s : Store) (l : Lanelet) : Line := if l.2 then ((s.left l.1).1, !(s.left l.1).2) else s.right l.1

/-- has for lanelets, Lanelet.cpp 307-311 -/
def hasLanelet (s : Store) (l : Lanelet) (i : Int) : Bool :=
  hasLine s (leftBound s l) i || hasLine s (rightBound s l) i || (s.regs l.1).any fun r => r == i

/-- has for areas, Area.h 324, with has for compound polygons, CompoundLineString.h 354-357; the points of a compound polygon are those of
Verif.Compound. -/
def hasArea (s : Store) (a : Nat) (i : Int) : Bool :=
  ((Compound.CLS.points ⟨(s.outer a).map (linePoints s), false⟩).getD []).any fun p => p == i

/-- applyVisitor, RegulatoryElement.cpp 146-153: the state of the visitor, the role it is told and the parameter. -/
def applyVisitor {σ : Type} (visit : σ → String → Param → σ) (init : σ) (t : Table) : σ :=
  t.foldl (fun st e => e.2.foldl (fun st x => visit st e.1 x) st) init

/-- the operators of HasIdVisitor, RegulatoryElement.cpp 14-30 -/
def hasIdVisit (s : Store) (i : Int) (found : Bool) : Param → Bool
  | .point d => found || s.id d == i
  | .line l => found || (s.id l.1 == i || hasLine s l i)
  | .poly p => found || (s.id p.1 == i || hasLine s p i)
  | .lanelet l => if s.dead l.1 then found else found || (s.id l.1 == i || hasLanelet s l i)
  | .area a => if s.dead a then found else found || (s.id a == i || hasArea s a i)

/-- utils::has for regulatory elements, RegulatoryElement.cpp 164-168 -/
def has (s : Store) (t : Table) (i : Int) : Bool := applyVisitor (fun found _ x => hasIdVisit s i found x) false t

/-- GetIdVisitor, RegulatoryElement.cpp 38-66: 0 for expired lanelets and areas -/
def getId (s : Store) : Param → Int
  | .point d => s.id d
  | .line l => s.id l.1
  | .poly p => s.id p.1
  | .lanelet l => if s.dead l.1 then 0 else s.id l.1
  | .area a => if s.dead a then 0 else s.id a

/-- The types T of find<T>: RegulatoryElement.h 406-419 (points, linestrings, polygons), 433-457 (lanelets, areas) -/
inductive Kind where
  | point | line | poly | lanelet | area
  deriving DecidableEq

/-- boost::get<T>(&elem) != nullptr; RegulatoryElement.h 412, 437, 450 -/
def ofKind : Kind → Param → Bool
  | .point, .point _ => true
  | .line, .line _ => true
  | .poly, .poly _ => true
  | .lanelet, .lanelet _ => true
  | .area, .area _ => true
  | _, _ => false

/-- the conditions in the loops of find<T>: RegulatoryElement.h 413, 438, 451 -/
def matches_ (s : Store) (k : Kind) (i : Int) (x : Param) : Bool :=
  match x with
  | .lanelet l => ofKind k x && !s.dead l.1 && s.id l.1 == i
  | .area a => ofKind k x && !s.dead a && s.id a == i
  | .point d => ofKind k x && s.id d == i
  | .line l => ofKind k x && s.id l.1 == i
  | .poly p => ofKind k x && s.id p.1 == i

/-- the two nested loops that return the first match: RegulatoryElement.h 410-418, 423-430, 435-443, 448-456 -/
def firstMatch (p : Param → Bool) : Table → Option Param
  | [] => none
  | e :: t => match e.2.find? p with
    | some x => some x
    | none => firstMatch p t

/-- find<T>(id), RegulatoryElement.h 406-419, 433-457 -/
def find (s : Store) (k : Kind) (t : Table) (i : Int) : Option Param := firstMatch (matches_ s k i) t

/-- find<ConstRuleParameter>(id), RegulatoryElement.h 421-431 -/
def findAny (s : Store) (t : Table) (i : Int) : Option Param := firstMatch (fun x => getId s x == i) t

/-- getVariant<T> with utils::strong for lanelets and areas: Utilities.h 315-326, 346-356; RegulatoryElement.h 461-493 -/
def getVariant (s : Store) (k : Kind) (l : List Param) : List Param :=
  l.filter fun x => ofKind k x && (match x with | .lanelet l => !s.dead l.1 | .area a => !s.dead a | _ => true)

/-- getParameters<T>(role), RegulatoryElement.h 201-221, 461-493. The lookup by RoleName is that of the same map, see Verif.HMap. -/
def getParameters (s : Store) (k : Kind) (t : Table) (r : String) : List Param :=
  match t.find? fun e => e.1 == r with
  | none => []
  | some e => getVariant s k e.2

/-- insert of the map: keeps the old value, HybridMap.h 130-136 -/
def insertRole (t : Table) (e : String × List Param) : Table := if t.any (fun e' => e'.1 == e.1) then t else t ++ [e]

/-- getParameters() without role, RegulatoryElement.cpp 137-144; toConst (68-83, 170-173) keeps the handle. -/
def allParameters (t : Table) : Table := t.foldl insertRole []

/-- roles(), RegulatoryElement.h 224-226 -/
def roles (t : Table) : List String := t.map (·.1)

/-- addParameter of generic regulatory elements, RegulatoryElement.h 396-404: the roles stay sorted in the map. -/
def addParameter : Table → String → Param → Table
  | [], r, x => [(r, [x])]
  | e :: t, r, x => if r = e.1 then (e.1, e.2 ++ [x]) :: t else if r < e.1 then (r, [x]) :: e :: t else e :: addParameter t r x

/-! ### specification -/

/-- Specification. The element has the parameter x in the role r. -/
def Held (t : Table) (r : String) (x : Param) : Prop := ∃ l, (r, l) ∈ t ∧ x ∈ l

/-- Specification. The object still exists: points, linestrings and polygons are owned, lanelets and areas are not. -/
def Exists (s : Store) : Param → Prop
  | .lanelet l => s.dead l.1 = false
  | .area a => s.dead a = false
  | _ => True

/-- Specification. The address of the data of an object. -/
def addr : Param → Nat
  | .point d => d
  | .line l => l.1
  | .poly p => p.1
  | .lanelet l => l.1
  | .area a => a

/-- Specification. The type of an object. -/
def kind : Param → Kind
  | .point _ => .point
  | .line _ => .line
  | .poly _ => .poly
  | .lanelet _ => .lanelet
  | .area _ => .area

/-- Specification. The parts of an object for which `has` looks: points of linestrings and polygons, points of the bounds of a lanelet and
its regulatory elements, points of the outer bound of an area. -/
inductive Part (s : Store) : Param → Int → Prop
  | line (l : Line) {i : Int} : i ∈ s.points l.1 → Part s (.line l) i
  | poly (l : Line) {i : Int} : i ∈ s.points l.1 → Part s (.poly l) i
  | left (l : Lanelet) {i : Int} : i ∈ s.points (s.left l.1).1 → Part s (.lanelet l) i
  | right (l : Lanelet) {i : Int} : i ∈ s.points (s.right l.1).1 → Part s (.lanelet l) i
  | reg (l : Lanelet) {i : Int} : i ∈ s.regs l.1 → Part s (.lanelet l) i
  | outer (a : Nat) (b : Line) {i : Int} : b ∈ s.outer a → i ∈ s.points b.1 → Part s (.area a) i

/-- Specification. All members as the documentation has them ("does not look for the id of the element, only its members … only ids of
regulatory elements itself", Lanelet.h 361-363, Area.h 319-322): in addition to `Part` the bounds themselves, the holes and the regulatory
elements of areas. -/
inductive Member (s : Store) : Param → Int → Prop
  | part {x : Param} {i : Int} : Part s x i → Member s x i
  | left (l : Lanelet) : Member s (.lanelet l) (s.id (s.left l.1).1)
  | right (l : Lanelet) : Member s (.lanelet l) (s.id (s.right l.1).1)
  | outer (a : Nat) (b : Line) : b ∈ s.outer a → Member s (.area a) (s.id b.1)
  | hole (a : Nat) (h : List Line) (b : Line) : h ∈ s.inner a → b ∈ h → Member s (.area a) (s.id b.1)
  | holePoint (a : Nat) (h : List Line) (b : Line) {i : Int} : h ∈ s.inner a → b ∈ h → i ∈ s.points b.1 → Member s (.area a) i
  | areaReg (a : Nat) {i : Int} : i ∈ s.regs a → Member s (.area a) i

/-! ### theorems -/

theorem firstMatch_some {p : Param → Bool} : ∀ {t : Table} {x : Param}, firstMatch p t = some x →
    p x = true ∧ ∃ t1 r l1 l2 t2, t = t1 ++ (r, l1 ++ x :: l2) :: t2 ∧ (∀ e ∈ t1, ∀ y ∈ e.2, p y = false) ∧ ∀ y ∈ l1, p y = false
  | [], _, h => by simp [firstMatch] at h
  | e :: t, x, h => by
    rw [firstMatch] at h
    cases hf : e.2.find? p with
    | some y =>
      rw [hf] at h
      have hy : y = x := by simpa using h
      subst hy
      obtain ⟨hp, l1, l2, hl, h1⟩ := List.find?_eq_some_iff_append.1 hf
      refine ⟨hp, [], e.1, l1, l2, t, ?_, by simp, fun z hz => by simpa using h1 z hz⟩
      rw [← hl]; rfl
    | none =>
      rw [hf] at h
      obtain ⟨hp, t1, r, l1, l2, t2, ht, h1, h2⟩ := firstMatch_some (t := t) h
      refine ⟨hp, e :: t1, r, l1, l2, t2, by rw [ht]; rfl, ?_, h2⟩
      intro e' he' y hy
      rcases List.mem_cons.1 he' with rfl | he'
      · have := List.find?_eq_none.1 hf y hy
        simpa using this
      · exact h1 e' he' y hy

theorem firstMatch_none {p : Param → Bool} : ∀ {t : Table}, firstMatch p t = none ↔ ∀ r x, Held t r x → p x = false
  | [] => by simp [firstMatch, Held]
  | e :: t => by
    rw [firstMatch]
    cases hf : e.2.find? p with
    | some y =>
      simp only [reduceCtorEq, false_iff]
      intro h
      have := h e.1 y ⟨e.2, by simp, List.mem_of_find?_eq_some hf⟩
      rw [List.find?_some hf] at this
      exact Bool.noConfusion this
    | none =>
      simp only
      rw [firstMatch_none]
      constructor
      · rintro h r x ⟨l, hl, hx⟩
        rcases List.mem_cons.1 hl with rfl | hl
        · have := List.find?_eq_none.1 hf x hx
          simpa using this
        · exact h r x ⟨l, hl, hx⟩
      · rintro h r x ⟨l, hl, hx⟩
        exact h r x ⟨l, List.mem_cons_of_mem _ hl, hx⟩

theorem matches_iff {s : Store} {k : Kind} {i : Int} {x : Param} :
    matches_ s k i x = true ↔ kind x = k ∧ Exists s x ∧ s.id (addr x) = i := by
  cases x <;> cases k <;> simp [matches_, kind, Exists, addr, ofKind]

/-- **C66.** find<T> returns a parameter of the requested type and id that still exists, the first one in the order of the roles; it returns
nothing only if there is none. -/
theorem find_spec (s : Store) (k : Kind) (t : Table) (i : Int) :
    (∀ x, find s k t i = some x → (∃ r, Held t r x) ∧ kind x = k ∧ Exists s x ∧ s.id (addr x) = i ∧
      ∃ t1 r l1 l2 t2, t = t1 ++ (r, l1 ++ x :: l2) :: t2 ∧
        (∀ e ∈ t1, ∀ y ∈ e.2, ¬ (kind y = k ∧ Exists s y ∧ s.id (addr y) = i)) ∧
        ∀ y ∈ l1, ¬ (kind y = k ∧ Exists s y ∧ s.id (addr y) = i)) ∧
    (find s k t i = none ↔ ∀ r x, Held t r x → kind x = k → Exists s x → s.id (addr x) ≠ i) := by
  refine ⟨fun x hx => ?_, ?_⟩
  · obtain ⟨hp, t1, r, l1, l2, t2, ht, h1, h2⟩ := firstMatch_some hx
    obtain ⟨a, b, c⟩ := matches_iff.1 hp
    refine ⟨⟨r, l1 ++ x :: l2, by rw [ht]; simp, by simp⟩, a, b, c, t1, r, l1, l2, t2, ht, ?_, ?_⟩
    · intro e he y hy hm
      have := h1 e he y hy
      rw [matches_iff.2 hm] at this
      exact Bool.noConfusion this
    · intro y hy hm
      have := h2 y hy
      rw [matches_iff.2 hm] at this
      exact Bool.noConfusion this
  · rw [find, firstMatch_none]
    constructor
    · intro h r x hx hk he hid
      have := h r x hx
      rw [matches_iff.2 ⟨hk, he, hid⟩] at this
      exact Bool.noConfusion this
    · intro h r x hx
      by_contra hc
      obtain ⟨a, b, c⟩ := matches_iff.1 (by simpa using hc)
      exact h r x hx a b c

/-- **C66.** If the ids of the parameters of one type are distinct, find<T> gives back the very parameter. -/
theorem find_unique (s : Store) (k : Kind) (t : Table) {r : String} {x : Param} (hx : Held t r x) (hk : kind x = k) (he : Exists s x)
    (hid : ∀ r' y, Held t r' y → kind y = k → Exists s y → s.id (addr y) = s.id (addr x) → y = x) :
    find s k t (s.id (addr x)) = some x := by
  obtain ⟨h1, h2⟩ := find_spec s k t (s.id (addr x))
  cases hf : find s k t (s.id (addr x)) with
  | none => exact absurd rfl (h2.1 hf r x hx hk he)
  | some y =>
    obtain ⟨⟨r', hr'⟩, a, b, c, -⟩ := h1 y hf
    rw [hid r' y hr' a b c]

theorem getId_eq {s : Store} {i : Int} (hi : i ≠ 0) {x : Param} : getId s x = i ↔ Exists s x ∧ s.id (addr x) = i := by
  cases x with
  | lanelet l => cases h : s.dead l.1 <;> simp [getId, Exists, addr, h, hi.symm]
  | area a => cases h : s.dead a <;> simp [getId, Exists, addr, h, hi.symm]
  | _ => simp [getId, Exists, addr]

/-- **C66.** find<ConstRuleParameter> for a valid id returns a parameter of any type with this id that still exists, and nothing only if
there is none. -/
theorem findAny_spec (s : Store) (t : Table) {i : Int} (hi : i ≠ 0) :
    (∀ x, findAny s t i = some x → (∃ r, Held t r x) ∧ Exists s x ∧ s.id (addr x) = i) ∧
    (findAny s t i = none ↔ ∀ r x, Held t r x → Exists s x → s.id (addr x) ≠ i) := by
  refine ⟨fun x hx => ?_, ?_⟩
  · obtain ⟨hp, t1, r, l1, l2, t2, ht, h1, h2⟩ := firstMatch_some hx
    obtain ⟨b, c⟩ := (getId_eq hi).1 (by simpa using hp)
    exact ⟨⟨r, l1 ++ x :: l2, by rw [ht]; simp, by simp⟩, b, c⟩
  · rw [findAny, firstMatch_none]
    constructor
    · intro h r x hx he hid
      have := h r x hx
      rw [beq_eq_false_iff_ne] at this
      exact this ((getId_eq hi).2 ⟨he, hid⟩)
    · intro h r x hx
      rw [beq_eq_false_iff_ne]
      intro hc
      obtain ⟨b, c⟩ := (getId_eq hi).1 hc
      exact h r x hx b c

/-- **C66, where it fails.** Asked for the id 0 (InvalId), which no object of a map has, find<ConstRuleParameter> returns a lanelet that does
not exist any more. -/
theorem findAny_expired_counterexample : ∃ (s : Store) (t : Table) (x : Param),
    (∀ r y, Held t r y → s.id (addr y) ≠ 0) ∧ findAny s t 0 = some x ∧ ¬ Exists s x := by
  refine ⟨⟨fun _ => true, fun _ => 7, fun _ => [], fun _ => (0, false), fun _ => (0, false), fun _ => [], fun _ => [], fun _ => []⟩,
    [("yield", [.lanelet (3, false)])], .lanelet (3, false), ?_, rfl, by simp [Exists]⟩
  intro r y _
  simp

theorem linePoints_mem (s : Store) (l : Line) (i : Int) : i ∈ linePoints s l ↔ i ∈ s.points l.1 := by
  rw [linePoints]; split <;> simp

theorem hasLine_iff (s : Store) (l : Line) (i : Int) : hasLine s l i = true ↔ i ∈ s.points l.1 := by
  rw [hasLine, ← linePoints_mem]; simp [List.any_eq_true]

theorem hasLanelet_iff (s : Store) (l : Lanelet) (i : Int) : hasLanelet s l i = true ↔ Part s (.lanelet l) i := by
  simp only [hasLanelet, Bool.or_eq_true, hasLine_iff, List.any_eq_true, beq_iff_eq, exists_eq_right]
  constructor
  · rintro ((h | h) | h)
    · rw [leftBound] at h
      split at h
      · exact .right l h
      · exact .left l h
    · rw [rightBound] at h
      split at h
      · exact .left l h
      · exact .right l h
    · exact .reg l h
  · intro h
    cases h with
    | left _ h => rw [leftBound, rightBound]; split <;> simp [h]
    | right _ h => rw [leftBound, rightBound]; split <;> simp [h]
    | reg _ h => exact .inr h

theorem noRep_mem {α : Type} [DecidableEq α] (x : α) : ∀ l : List α, x ∈ Compound.noRep l ↔ x ∈ l
  | [] => by simp [Compound.noRep]
  | [a] => by simp [Compound.noRep]
  | a :: b :: l => by
    have ih := noRep_mem x (b :: l)
    rw [Compound.noRep]
    split
    · rename_i h
      rw [ih]; subst h; simp
    · rw [List.mem_cons, ih, List.mem_cons, List.mem_cons]
      simp only [List.mem_cons]

theorem hasArea_iff (s : Store) (a : Nat) (i : Int) : hasArea s a i = true ↔ Part s (.area a) i := by
  rw [hasArea, Compound.compound_points]
  simp only [Option.getD_some, Compound.view, Bool.false_eq_true, if_false, List.any_eq_true, beq_iff_eq, exists_eq_right, noRep_mem,
    List.mem_flatten, List.mem_map, exists_exists_and_eq_and, linePoints_mem]
  constructor
  · rintro ⟨b, hb, hi⟩; exact .outer a b hb hi
  · intro h; cases h with | outer _ b hb hi => exact ⟨b, hb, hi⟩

theorem hasIdVisit_iff (s : Store) (i : Int) (found : Bool) (x : Param) :
    hasIdVisit s i found x = true ↔ found = true ∨ Exists s x ∧ (s.id (addr x) = i ∨ Part s x i) := by
  cases x with
  | point d =>
    have : ¬ Part s (.point d) i := by rintro ⟨⟩
    simp [hasIdVisit, Exists, addr, this]
  | line l =>
    have : Part s (.line l) i ↔ i ∈ s.points l.1 := ⟨fun h => by cases h; assumption, .line l⟩
    simp [hasIdVisit, Exists, addr, this, hasLine_iff]
  | poly l =>
    have : Part s (.poly l) i ↔ i ∈ s.points l.1 := ⟨fun h => by cases h; assumption, .poly l⟩
    simp [hasIdVisit, Exists, addr, this, hasLine_iff]
  | lanelet l =>
    simp only [hasIdVisit, Exists, addr]
    split
    · rename_i h; simp [h]
    · rename_i h; simp [h, hasLanelet_iff]
  | area a =>
    simp only [hasIdVisit, Exists, addr]
    split
    · rename_i h; simp [h]
    · rename_i h; simp [h, hasArea_iff]

theorem visitRow_iff (s : Store) (i : Int) : ∀ (l : List Param) (found : Bool),
    l.foldl (fun st x => hasIdVisit s i st x) found = true ↔
      found = true ∨ ∃ x ∈ l, Exists s x ∧ (s.id (addr x) = i ∨ Part s x i)
  | [], found => by simp
  | x :: l, found => by
    rw [List.foldl_cons, visitRow_iff s i l, hasIdVisit_iff]
    simp only [List.mem_cons, exists_eq_or_imp, or_assoc]

theorem has_fold (s : Store) (i : Int) : ∀ (t : Table) (found : Bool),
    applyVisitor (fun found _ x => hasIdVisit s i found x) found t = true ↔
      found = true ∨ ∃ r x, Held t r x ∧ Exists s x ∧ (s.id (addr x) = i ∨ Part s x i)
  | [], found => by simp [applyVisitor, Held]
  | e :: t, found => by
    have hstep : applyVisitor (fun found _ x => hasIdVisit s i found x) found (e :: t) =
        applyVisitor (fun found _ x => hasIdVisit s i found x) (e.2.foldl (fun st x => hasIdVisit s i st x) found) t := rfl
    rw [hstep, has_fold s i t, visitRow_iff, or_assoc]
    refine or_congr_right ?_
    constructor
    · rintro (⟨x, hx, h⟩ | ⟨r, x, ⟨l, hl, hx⟩, h⟩)
      · exact ⟨e.1, x, ⟨e.2, by simp, hx⟩, h⟩
      · exact ⟨r, x, ⟨l, List.mem_cons_of_mem _ hl, hx⟩, h⟩
    · rintro ⟨r, x, ⟨l, hl, hx⟩, h⟩
      rcases List.mem_cons.1 hl with rfl | hl
      · exact .inl ⟨x, hx, h⟩
      · exact .inr ⟨r, x, ⟨l, hl, hx⟩, h⟩

/-- **C66.** `has` tells exactly whether a parameter that still exists has the id itself or as one of the parts looked for. -/
theorem has_iff (s : Store) (t : Table) (i : Int) :
    has s t i = true ↔ ∃ r x, Held t r x ∧ Exists s x ∧ (s.id (addr x) = i ∨ Part s x i) := by
  rw [has, has_fold]; simp

/-- **C66.** Whatever `has` finds is a parameter or a member of one. -/
theorem has_sound {s : Store} {t : Table} {i : Int} (h : has s t i = true) :
    ∃ r x, Held t r x ∧ Exists s x ∧ (s.id (addr x) = i ∨ Member s x i) := by
  obtain ⟨r, x, h1, h2, h3⟩ := (has_iff s t i).1 h
  exact ⟨r, x, h1, h2, h3.imp_right .part⟩

/-- **C66.** `find` and `has` agree: what can be found by its id is contained. -/
theorem has_of_find {s : Store} {k : Kind} {t : Table} {i : Int} {x : Param} (h : find s k t i = some x) : has s t i = true := by
  obtain ⟨⟨r, hr⟩, -, he, hid, -⟩ := (find_spec s k t i).1 x h
  exact (has_iff s t i).2 ⟨r, x, hr, he, .inl hid⟩

/-- Example. Lanelet 20 (id 2) with bounds 10 (id 5, points 101, 102) and 11 (id 6, points 103, 104) and the regulatory element 9; area 30
(id 3) with the outer bound 12 (id 7, point 105), a hole 13 (id 8, point 106) and the regulatory element 9; linestring 14 (id 4, point
107). -/
def exStore : Store where
  dead := fun _ => false
  id := fun d => match d with | 20 => 2 | 30 => 3 | 10 => 5 | 11 => 6 | 12 => 7 | 13 => 8 | 14 => 4 | _ => 1
  points := fun d => match d with | 10 => [101, 102] | 11 => [103, 104] | 12 => [105] | 13 => [106] | 14 => [107] | _ => []
  left := fun _ => (10, false)
  right := fun _ => (11, false)
  outer := fun _ => [(12, false)]
  inner := fun _ => [[(13, false)]]
  regs := fun _ => [9]

/-- Example. A linestring, a lanelet and an area as parameters. -/
def exTable : Table := [("ref_line", [.line (14, true)]), ("yield", [.lanelet (20, true), .area 30])]

/-- **C66, where it fails.** `has` does not find the bounds of a lanelet, the bounds and holes of an area nor the regulatory elements of an
area, although they are members. -/
theorem has_members_counterexample :
    (∃ i, Member exStore (.lanelet (20, true)) i ∧ has exStore exTable i = false) ∧
    (∃ b ∈ exStore.outer 30, has exStore exTable (exStore.id b.1) = false) ∧
    (∃ h ∈ exStore.inner 30, ∃ b ∈ h, has exStore exTable (exStore.id b.1) = false ∧ ∃ p ∈ exStore.points b.1, has exStore exTable p = false) ∧
    (∃ t i, t = [("yield", [Param.area 30])] ∧ i ∈ exStore.regs 30 ∧ has exStore t i = false) := by
  have hout : ∀ i, hasArea exStore 30 i = (decide (i = 105)) := by
    intro i
    rw [Bool.eq_iff_iff, hasArea_iff, decide_eq_true_iff]
    constructor
    · intro h
      cases h with
      | outer _ b hb hi => simp [exStore] at hb; subst hb; simpa [exStore] using hi
    · rintro rfl; exact .outer 30 (12, false) (by simp [exStore]) (by simp [exStore])
  have hno : ∀ i, i = 5 ∨ i = 7 ∨ i = 8 ∨ i = 106 → has exStore exTable i = false := by
    intro i hi
    have h105 : i ≠ 105 := by rcases hi with rfl | rfl | rfl | rfl <;> decide
    simp only [has, applyVisitor, exTable, List.foldl_cons, List.foldl_nil, hasIdVisit, hout, h105, decide_false]
    rcases hi with rfl | rfl | rfl | rfl <;> rfl
  refine ⟨⟨5, .left (20, true), hno 5 (by simp)⟩, ⟨(12, false), by simp [exStore], hno 7 (by simp)⟩,
    ⟨[(13, false)], by simp [exStore], (13, false), by simp, hno 8 (by simp), 106, by simp [exStore], hno 106 (by simp)⟩,
    [("yield", [Param.area 30])], 9, rfl, by simp [exStore], ?_⟩
  simp only [has, applyVisitor, List.foldl_cons, List.foldl_nil, hasIdVisit, hout]
  rfl

example : has exStore exTable 102 = true ∧ has exStore exTable 107 = true ∧ find exStore .lanelet exTable 2 = some (.lanelet (20, true)) ∧
    find exStore .line exTable 2 = none ∧ findAny exStore exTable 3 = some (.area 30) := by
  refine ⟨?_, ?_, rfl, rfl, rfl⟩
  · exact (has_iff _ _ _).2 ⟨"yield", .lanelet (20, true), ⟨[.lanelet (20, true), .area 30], by simp [exTable], by simp⟩, rfl, .inr (.left _ (by simp [exStore]))⟩
  · exact (has_iff _ _ _).2 ⟨"ref_line", .line (14, true), ⟨[.line (14, true)], by simp [exTable], by simp⟩, trivial, .inr (.line _ (by simp [exStore]))⟩

/-- **C66.** A visitor is applied to every parameter of every role exactly once, is told the right role, and sees the parameters of a role in
their order. -/
theorem applyVisitor_spec (t : Table) (ht : (t.map (·.1)).Nodup) :
    let log := applyVisitor (fun (st : List (String × Param)) r x => st ++ [(r, x)]) [] t
    (∀ r l, (r, l) ∈ t → (log.filter fun e => e.1 == r).map (·.2) = l) ∧ (∀ e ∈ log, Held t e.1 e.2) := by
  have hrow : ∀ (r : String) (l : List Param) (st : List (String × Param)),
      l.foldl (fun st x => st ++ [(r, x)]) st = st ++ l.map fun x => (r, x) := by
    intro r l
    induction l with
    | nil => simp
    | cons x l ih => intro st; rw [List.foldl_cons, ih]; simp
  have hlog : ∀ (t : Table) (st : List (String × Param)),
      applyVisitor (fun st r x => st ++ [(r, x)]) st t = st ++ t.flatMap fun e => e.2.map fun x => (e.1, x) := by
    intro t
    induction t with
    | nil => simp [applyVisitor]
    | cons e t ih =>
      intro st
      have : applyVisitor (fun (st : List (String × Param)) r x => st ++ [(r, x)]) st (e :: t) =
        applyVisitor (fun st r x => st ++ [(r, x)]) (e.2.foldl (fun st x => st ++ [(e.1, x)]) st) t := rfl
      rw [this, ih, hrow]; simp
  intro log
  have hl : log = t.flatMap fun e => e.2.map fun x => (e.1, x) := by simpa using hlog t []
  rw [hl]
  constructor
  · clear hl
    clear log
    induction t with
    | nil => simp
    | cons e t ih =>
      intro r l h
      rw [List.map_cons, List.nodup_cons] at ht
      rw [List.flatMap_cons, List.filter_append, List.map_append]
      rcases List.mem_cons.1 h with rfl | h
      · have h1 : ((l.map fun x => (r, x)).filter fun e => e.1 == r) = l.map fun x => (r, x) := by
          rw [List.filter_eq_self]; intro a ha; obtain ⟨x, -, rfl⟩ := List.mem_map.1 ha; simp
        have h2 : ((t.flatMap fun e => e.2.map fun x => (e.1, x)).filter fun e => e.1 == r) = [] := by
          rw [List.filter_eq_nil_iff]
          intro a ha
          obtain ⟨e, he, ha⟩ := List.mem_flatMap.1 ha
          obtain ⟨x, -, rfl⟩ := List.mem_map.1 ha
          intro hc
          exact ht.1 (List.mem_map.2 ⟨e, he, by simpa using hc⟩)
        simp only [h1, h2]
        simp [List.map_map, Function.comp_def]
      · have h1 : ((e.2.map fun x => (e.1, x)).filter fun e => e.1 == r) = [] := by
          rw [List.filter_eq_nil_iff]
          intro a ha
          obtain ⟨x, -, rfl⟩ := List.mem_map.1 ha
          intro hc
          exact ht.1 (by rw [(by simpa using hc : e.1 = r)]; exact List.mem_map_of_mem (f := (·.1)) h)
        rw [h1, ih ht.2 r l h]; simp
  · intro e he
    obtain ⟨e', he', ha⟩ := List.mem_flatMap.1 he
    obtain ⟨x, hx, rfl⟩ := List.mem_map.1 ha
    exact ⟨e'.2, he', hx⟩

/-- **C66.** getParameters<T>(role) returns the parameters of this role that are of the type and still exist, in their order, and nothing for
other roles. -/
theorem getParameters_spec (s : Store) (k : Kind) (t : Table) (ht : (t.map (·.1)).Nodup) (r : String) :
    (∀ l, (r, l) ∈ t → (getParameters s k t r).Sublist l ∧
      (∀ x, kind x = k → Exists s x → (getParameters s k t r).count x = l.count x) ∧
      ∀ x ∈ getParameters s k t r, kind x = k ∧ Exists s x) ∧
    (r ∉ t.map (·.1) → getParameters s k t r = []) := by
  have hp : ∀ x : Param, (ofKind k x && (match x with | .lanelet l => !s.dead l.1 | .area a => !s.dead a | _ => true)) = true ↔
      kind x = k ∧ Exists s x := by
    intro x; cases x <;> cases k <;> simp [kind, Exists, ofKind]
  constructor
  · intro l hl
    have hfind : (t.find? fun e => e.1 == r) = some (r, l) := by
      cases hf : t.find? fun e => e.1 == r with
      | none => exact absurd (List.find?_eq_none.1 hf (r, l) hl) (by simp)
      | some e =>
        have he := List.mem_of_find?_eq_some hf
        have hr : e.1 = r := by simpa using List.find?_some hf
        rw [List.inj_on_of_nodup_map ht he hl hr]
    rw [getParameters, hfind]
    exact ⟨List.filter_sublist, fun x hk he => List.count_filter ((hp x).2 ⟨hk, he⟩), fun x hx => (hp x).1 (List.mem_filter.1 hx).2⟩
  · intro h
    rw [getParameters]
    cases hf : t.find? fun e => e.1 == r with
    | none => rfl
    | some e =>
      have he := List.mem_of_find?_eq_some hf
      have hr : e.1 = r := by simpa using List.find?_some hf
      exact absurd (List.mem_map.2 ⟨e, he, hr⟩) h

/-- **C66.** getParameters() is a copy with the same roles and parameters. -/
theorem allParameters_spec (t : Table) (ht : (t.map (·.1)).Nodup) : allParameters t = t := by
  have : ∀ (u v : Table), ((v ++ u).map (·.1)).Nodup → u.foldl insertRole v = v ++ u := by
    intro u
    induction u with
    | nil => simp
    | cons e u ih =>
      intro v hv
      have hne : v.any (fun e' => e'.1 == e.1) = false := by
        rw [List.any_eq_false]
        intro e' he' hc
        rw [List.map_append, List.nodup_append] at hv
        exact hv.2.2 e'.1 (List.mem_map_of_mem he') e.1 (by simp) (by simpa using hc)
      rw [List.foldl_cons, insertRole, hne]
      simp only [Bool.false_eq_true, if_false]
      rw [ih (v ++ [e]) (by simpa using hv)]
      simp
  simpa [allParameters] using this t [] (by simpa using ht)

/-- **C66.** addParameter appends to the parameters of the role and changes no other role. -/
theorem addParameter_spec (r : String) (x : Param) : ∀ (t : Table), (t.map (·.1)).Pairwise (· < ·) →
    ((addParameter t r x).map (·.1)).Pairwise (· < ·) ∧
    (∀ q, q ∈ (addParameter t r x).map (·.1) ↔ q = r ∨ q ∈ t.map (·.1)) ∧
    (∀ l, (r, l) ∈ addParameter t r x ↔ (r ∉ t.map (·.1) ∧ l = [x]) ∨ ∃ l', (r, l') ∈ t ∧ l = l' ++ [x]) ∧
    ∀ q l, q ≠ r → ((q, l) ∈ addParameter t r x ↔ (q, l) ∈ t)
  | [], _ => by
    refine ⟨by simp [addParameter], by simp [addParameter], by simp [addParameter], fun q l hq => by simp [addParameter, hq]⟩
  | e :: t, h => by
    rw [List.map_cons, List.pairwise_cons] at h
    obtain ⟨ih1, ih2, ih3, ih4⟩ := addParameter_spec r x t h.2
    rw [addParameter]
    split
    · rename_i hr
      have hnot : r ∉ t.map (·.1) := fun hc => lt_irrefl r (by have := h.1 r hc; rwa [← hr] at this)
      have hnot' : ∀ l, (r, l) ∉ t := fun l hc => hnot (List.mem_map.2 ⟨_, hc, rfl⟩)
      refine ⟨by rw [List.map_cons, List.pairwise_cons]; exact h, ?_, ?_, ?_⟩
      · intro q; simp only [List.map_cons, List.mem_cons, ← hr]; tauto
      · intro l
        simp only [List.mem_cons, Prod.mk.injEq, hnot', or_false, List.map_cons, ← hr, true_or, not_true, false_and, false_or, true_and]
        constructor
        · rintro rfl; exact ⟨e.2, by rw [hr], rfl⟩
        · rintro ⟨l', h', rfl⟩
          have : l' = e.2 := by rw [← h']
          rw [this]
      · intro q l hq
        simp only [List.mem_cons, Prod.mk.injEq, ← hr, hq, false_and, false_or]
        constructor
        · exact .inr
        · rintro (h' | h')
          · exact absurd (by rw [← h'] at hr; exact hr.symm) hq
          · exact h'
    · rename_i hr
      split
      · rename_i hlt
        have hnot : r ∉ (e :: t).map (·.1) := by
          rw [List.map_cons, List.mem_cons, not_or]
          exact ⟨hr, fun hc => lt_asymm hlt (h.1 r hc)⟩
        have hnot' : ∀ l, (r, l) ∉ e :: t := fun l hc => hnot (List.mem_map.2 ⟨_, hc, rfl⟩)
        refine ⟨?_, by intro q; simp, ?_, ?_⟩
        · rw [List.map_cons, List.pairwise_cons, List.map_cons, List.pairwise_cons]
          refine ⟨?_, h⟩
          intro q hq
          rcases List.mem_cons.1 hq with rfl | hq
          · exact hlt
          · exact lt_trans hlt (h.1 q hq)
        · intro l
          rw [List.mem_cons]
          have hn : ∀ l', (r, l') ∈ e :: t → False := hnot'
          constructor
          · rintro (h' | h')
            · exact .inl ⟨hnot, by simpa using h'⟩
            · exact (hn _ h').elim
          · rintro (⟨-, h'⟩ | ⟨l', h', -⟩)
            · exact .inl (by rw [h'])
            · exact (hn _ h').elim
        · intro q l hq
          rw [List.mem_cons (a := (q, l)) (b := (r, [x]))]
          simp [hq]
      · rename_i hlt
        have hgt : e.1 < r := lt_of_le_of_ne (not_lt.1 hlt) (fun hc => hr hc.symm)
        refine ⟨?_, ?_, ?_, ?_⟩
        · rw [List.map_cons, List.pairwise_cons]
          refine ⟨fun q hq => ?_, ih1⟩
          rcases (ih2 q).1 hq with rfl | hq
          · exact hgt
          · exact h.1 q hq
        · intro q; rw [List.map_cons, List.mem_cons, ih2, List.map_cons, List.mem_cons]; tauto
        · intro l
          have hne : ∀ l, (r, l) ≠ e := fun l hc => hr (by rw [← hc])
          rw [List.mem_cons, ih3]
          simp only [hne, false_or, List.map_cons, List.mem_cons, hr]
        · intro q l hq
          rw [List.mem_cons, List.mem_cons, ih4 q l hq]

example : addParameter (addParameter (addParameter [] "yield" (.lanelet (1, false))) "ref_line" (.line (2, false))) "yield" (.area 3) =
    [("ref_line", [.line (2, false)]), ("yield", [.lanelet (1, false), .area 3])] := by decide

end Verif.RegElem.Access
