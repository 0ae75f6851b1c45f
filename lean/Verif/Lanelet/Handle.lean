import Verif.Lanelet.Model
import Verif.Compound.Props
import Mathlib.Data.List.Basic

/-!
Model of the equality and the hash of handles: lanelet2_core/include/lanelet2_core/primitives/Primitive.h, LineString.h, CompoundLineString.h,
Lanelet.h, Area.h, LaneletOrArea.h and LineStringOrPolygon.h, and of hash containers with handles as keys (std::unordered_set as far as its
interface determines it, trusted). Const and mutable handles and 2D and 3D views of the same data are compared by the same functions and not
distinguished.
-/
namespace Verif.Handle
open Verif.LineStr Verif.Lanelet

/-- A handle: shared data, for linestrings, polygons and lanelets also the direction. Linestrings and polygons have the same kind of data
(LineString.h 139, 220, Polygon.h 82, 122) and can share it. -/
inductive H where
  | point (d : Nat)
  | line (l : LS)
  | polygon (l : LS)
  | lanelet (l : LH)
  | area (d : Nat)
  deriving DecidableEq

/-- The data object behind a handle -/
inductive Datum where
  | point (d : Nat)
  | line (d : Nat)
  | lanelet (d : Nat)
  | area (d : Nat)
  deriving DecidableEq

/-- constData, Primitive.h 178 -/
def H.datum : H → Datum
  | .point d => .point d
  | .line l => .line l.data
  | .polygon l => .line l.data
  | .lanelet l => .lanelet l.data
  | .area d => .area d

/-- operator== of linestrings and polygons, LineString.h 714-716 -/
def equalLS (a b : LS) : Bool := a.data == b.data && a.inv == b.inv

/-- operator==: Primitive.h 85 (points), LineString.h 714-716 (linestrings and polygons in any combination), Lanelet.h 369-371 and
Area.h 327. Other combinations do not compile, here they are false. -/
def equal : H → H → Bool
  | .point a, .point b => a == b
  | .line a, .line b => equalLS a b
  | .line a, .polygon b => equalLS a b
  | .polygon a, .line b => equalLS a b
  | .polygon a, .polygon b => equalLS a b
  | .lanelet a, .lanelet b => equalL a b
  | .area a, .area b => a == b
  | _, _ => false

/-- which of boost::variant, LaneletOrArea.h 33-36 and LineStringOrPolygon.h 34-37 -/
def H.which : H → Nat
  | .polygon _ => 1
  | .area _ => 1
  | _ => 0

/-- equals of ConstLaneletOrArea, LaneletOrArea.h 87, and of LineStringOrPolygon3d, LineStringOrPolygon.h 79: that of boost::variant, the same
alternative and equal -/
def variantEqual (a b : H) : Bool := a.which == b.which && equal a b

/-- operator== of weak lanelets, Lanelet.h 373-375; `alive` tells which data still exists -/
def weakEqual (alive : Nat → Bool) (a b : LH) : Bool := alive a.data && alive b.data && equalL a b

/-- operator== of a linestring and a vector of points, LineString.h 723-725 -/
def equalVector {P : Type} [DecidableEq P] (w : World P) (a : LS) (v : List P) : Bool :=
  (points w a).length == v.length && ((points w a).zip v).all fun e => e.1 == e.2

/-- lineStrings of a compound linestring, CompoundLineString.h 235-239 -/
def lineStrings (ls : List LS) (inverted : Bool) : List LS := if inverted then (ls.map invert).reverse else ls

/-- operator== of compound linestrings, CompoundLineString.h 361-363 -/
def equalCompound (ls ms : List LS) (i j : Bool) : Bool :=
  let a := lineStrings ls i
  let b := lineStrings ms j
  a.length == b.length && (a.zip b).all fun e => equalLS e.1 e.2

/-- std::hash of an id: the id as size_t (trusted, the value does not matter) -/
def hashId (i : Int) : Nat := (i % 18446744073709551616).toNat

/-- HashBase, Primitive.h 327-330, for all handles: Point.h 342-348, LineString.h 800-810, Polygon.h 435-441, Lanelet.h 394-396, Area.h 371-373,
LaneletOrArea.h 142 -/
def hash (ids : Datum → Int) (h : H) : Nat := hashId (ids h.datum)

/-! ### Hash containers (std::unordered_set, trusted) -/

/-- A hash set: the number of buckets and the elements, each in the bucket that was computed when it was put there -/
structure HSet (K : Type) where
  n : Nat
  items : List (Nat × K)

/-- find and count of std::unordered_set with keys of Primitive.h 327-330: elements of the bucket of the key are compared with it. (If the hash of
an element changed, the behaviour is undefined; to be looked for in one bucket is what happens.) -/
def HSet.has {K : Type} (hash : K → Nat) (eq : K → K → Bool) (s : HSet K) (k : K) : Bool :=
  s.items.any fun e => e.1 == hash k % s.n && eq e.2 k

/-- insert of std::unordered_set with keys of Primitive.h 327-330 -/
def HSet.insert {K : Type} (hash : K → Nat) (eq : K → K → Bool) (s : HSet K) (k : K) : HSet K :=
  if s.has hash eq k then s else ⟨s.n, (hash k % s.n, k) :: s.items⟩

/-- erase of std::unordered_set with keys of Primitive.h 327-330 -/
def HSet.erase {K : Type} (hash : K → Nat) (eq : K → K → Bool) (s : HSet K) (k : K) : HSet K :=
  ⟨s.n, s.items.filter fun e => !(e.1 == hash k % s.n && eq e.2 k)⟩

/-- rehash of std::unordered_set, also done by insert when the set grows, with keys of Primitive.h 327-330 -/
def HSet.rehash {K : Type} (hash : K → Nat) (s : HSet K) (n : Nat) : HSet K := ⟨n, s.items.map fun e => (hash e.2 % n, e.2)⟩

/-- What a program does with a set of handles and the ids of the data: setId (Primitive.h 270, also used by LaneletMap::add for elements without
id, LaneletMap.cpp 570, 596, 648, 662 and 676) -/
inductive Op where
  | insert (h : H)
  | erase (h : H)
  | rehash (n : Nat)
  | setId (d : Datum) (i : Int)

/-- the ids of the data and the set -/
structure St where
  ids : Datum → Int
  set : HSet H

/-- one step, Primitive.h 270 and 327-330 -/
def step (s : St) : Op → St
  | .insert h => ⟨s.ids, s.set.insert (hash s.ids) equal h⟩
  | .erase h => ⟨s.ids, s.set.erase (hash s.ids) equal h⟩
  | .rehash n => ⟨s.ids, s.set.rehash (hash s.ids) n⟩
  | .setId d i => ⟨fun d' => if d' = d then i else s.ids d', s.set⟩

/-- all steps -/
def run (s : St) (ops : List Op) : St := ops.foldl step s

/-- a lookup, Primitive.h 327-330 -/
def lookup (s : St) (h : H) : Bool := s.set.has (hash s.ids) equal h

/-! ### The specification -/

/-- Specification. What a handle shows of a world: the coordinates of a point, the points of a linestring or polygon, the bounds of a lanelet, the
boundary of an area. `coord` are the coordinates of points. -/
inductive Shown (P : Type) where
  | coordinates (c : Int × Int × Int)
  | points (l : List P)
  | bounds (l r : LS)
  | boundary (l : List LS)

/-- Specification. What a handle shows. -/
def shown {P : Type} (coord : Nat → Int × Int × Int) (w : World P) : H → Shown P
  | .point d => .coordinates (coord d)
  | .line l => .points (points w l)
  | .polygon l => .points (points w l)
  | .lanelet h => .bounds (leftBound w h) (rightBound w h)
  | .area d => .boundary (w.ars d).outer

/-- Specification. Whether a handle is a linestring, a polygon or something else -/
def H.sort : H → Nat
  | .point _ => 0
  | .line _ => 1
  | .polygon _ => 2
  | .lanelet _ => 3
  | .area _ => 4

/-- Specification. The elements a set of handles should have after some steps. -/
def wanted : List H → List Op → List H
  | l, [] => l
  | l, .insert h :: ops => wanted (if l.any (equal · h) then l else h :: l) ops
  | l, .erase h :: ops => wanted (l.filter fun e => !equal e h) ops
  | l, .rehash _ :: ops => wanted l ops
  | l, .setId _ _ :: ops => wanted l ops

/-- Specification. Ids of elements do not change while they are in the set; a set has at least one bucket. -/
def Fair : List H → List Op → Prop
  | _, [] => True
  | l, .insert h :: ops => Fair (if l.any (equal · h) then l else h :: l) ops
  | l, .erase h :: ops => Fair (l.filter fun e => !equal e h) ops
  | l, .rehash n :: ops => 0 < n ∧ Fair l ops
  | l, .setId d _ :: ops => (∀ h ∈ l, h.datum ≠ d) ∧ Fair l ops

/-! ### Proofs -/

/-- Helper of the proofs. -/
theorem equalLS_iff (a b : LS) : equalLS a b = true ↔ a = b := by
  cases a; cases b
  simp [equalLS]

/-- Helper of the proofs. -/
theorem equalL_iff (a b : LH) : equalL a b = true ↔ a = b := by
  cases a; cases b
  simp [equalL]

/-- Helper of the proofs. -/
theorem points_all {P : Type} {p q : P} (hpq : p ≠ q) (a b : LS) (h : ∀ w : World P, points w a = points w b) : a = b := by
  obtain ⟨d, i⟩ := a
  obtain ⟨e, j⟩ := b
  have hw := h ⟨fun x => if x = d then [p, q] else [], fun _ => 0, fun _ => ⟨⟨0, false⟩, ⟨0, false⟩, [], none⟩, fun _ => ⟨[], [], [], [], []⟩⟩
  have hde : e = d := by
    by_cases hde : e = d
    · exact hde
    · exfalso
      cases i <;> cases j <;> simp [points, hde] at hw
  subst hde
  cases i <;> cases j <;> simp [points] at hw ⊢
  · exact hpq hw.1
  · exact hpq hw.1.symm

/-- Helper of the proofs. -/
theorem bounds_all {P : Type} (a b : LH) (h : ∀ w : World P, leftBound w a = leftBound w b) : a = b := by
  obtain ⟨d, i⟩ := a
  obtain ⟨e, j⟩ := b
  have hw := h ⟨fun _ => [], fun _ => 0, fun x => if x = d then ⟨⟨0, false⟩, ⟨1, false⟩, [], none⟩ else ⟨⟨2, false⟩, ⟨3, false⟩, [], none⟩,
    fun _ => ⟨[], [], [], [], []⟩⟩
  have hde : e = d := by
    by_cases hde : e = d
    · exact hde
    · exfalso
      cases i <;> cases j <;> simp [leftBound, hde, invert] at hw
  subst hde
  cases i <;> cases j <;> simp [leftBound, invert] at hw ⊢

/-- C94. Two handles are equal exactly if they always show the same, whatever is done to the data: points, linestrings, polygons, lanelets and
areas. A linestring and a polygon that share their data are equal if they have the same direction. -/
theorem equal_iff_shown {P : Type} {p q : P} (hpq : p ≠ q) (a b : H) :
    equal a b = true ↔ ∀ (coord : Nat → Int × Int × Int) (w : World P), shown coord w a = shown coord w b := by
  have w0 : World P := ⟨fun _ => [], fun _ => 0, fun _ => ⟨⟨0, false⟩, ⟨0, false⟩, [], none⟩, fun _ => ⟨[], [], [], [], []⟩⟩
  have hline : ∀ a b : LS, equalLS a b = true ↔
      ∀ (_ : Nat → Int × Int × Int) (w : World P), Shown.points (points w a) = Shown.points (points w b) := by
    intro a b
    rw [equalLS_iff]
    constructor
    · rintro rfl _ w; rfl
    · intro h
      exact points_all hpq a b fun w => by simpa using h (fun _ => (0, 0, 0)) w
  cases a <;> cases b <;>
    first
    | exact hline _ _
    | (refine ⟨fun h => (by cases h), fun h => ?_⟩; have := h (fun _ => (0, 0, 0)) w0; cases this)
    | skip
  · rename_i d e
    simp only [equal, shown, beq_iff_eq, Shown.coordinates.injEq]
    constructor
    · rintro rfl _ _; rfl
    · intro h
      have := h (fun x => (x, 0, 0)) w0
      simp only [Prod.mk.injEq] at this
      omega
  · rename_i d e
    simp only [equal, shown, Shown.bounds.injEq]
    rw [equalL_iff]
    constructor
    · rintro rfl _ _; exact ⟨rfl, rfl⟩
    · intro h
      exact bounds_all d e fun w => (h (fun _ => (0, 0, 0)) w).1
  · rename_i d e
    simp only [equal, shown, beq_iff_eq, Shown.boundary.injEq]
    constructor
    · rintro rfl _ _; rfl
    · intro h
      have := h (fun _ => (0, 0, 0)) ⟨fun _ => [], fun _ => 0, fun _ => ⟨⟨0, false⟩, ⟨0, false⟩, [], none⟩, fun x => ⟨[⟨x, false⟩], [], [], [], []⟩⟩
      simpa using this

/-- C94. Equality is an equivalence. -/
theorem equal_equivalence : Equivalence fun a b => equal a b = true := by
  have h : ∀ a b : H, equal a b = true ↔ ∀ (coord : Nat → Int × Int × Int) (w : World Bool), shown coord w a = shown coord w b :=
    equal_iff_shown (p := true) (q := false) (by simp)
  refine ⟨fun a => ?_, fun {a b} hab => ?_, fun {a b c} hab hbc => ?_⟩
  · exact (h a a).2 fun _ _ => rfl
  · exact (h b a).2 fun x y => ((h a b).1 hab x y).symm
  · exact (h a c).2 fun x y => ((h a b).1 hab x y).trans ((h b c).1 hbc x y)

/-- C94. Of two equal handles one is a copy of the other, or they are a linestring and a polygon with the same data and direction; as a lanelet or
area, or as a linestring or polygon, they are equal exactly if one is a copy of the other. -/
theorem variantEqual_iff (a b : H) (h : (a.sort ∈ [1, 2] ∧ b.sort ∈ [1, 2]) ∨ (a.sort ∈ [3, 4] ∧ b.sort ∈ [3, 4])) :
    variantEqual a b = true ↔ a = b := by
  cases a <;> cases b <;> simp [H.sort] at h <;> simp [variantEqual, H.which, equal, equalLS_iff, equalL_iff]

/-- C94. A weak handle is equal to another one exactly if both lanelets exist and are equal; weak handles of lanelets that are gone are not even equal
to themselves. -/
theorem weakEqual_iff (alive : Nat → Bool) (a b : LH) : weakEqual alive a b = true ↔ a = b ∧ alive a.data = true := by
  simp only [weakEqual, Bool.and_eq_true, equalL_iff]
  constructor
  · rintro ⟨⟨h, -⟩, rfl⟩; exact ⟨rfl, h⟩
  · rintro ⟨rfl, h⟩; exact ⟨⟨h, h⟩, rfl⟩

/-- C94. A linestring is equal to a vector exactly if these are its points in its order. -/
theorem equalVector_iff {P : Type} [DecidableEq P] (w : World P) (a : LS) (v : List P) : equalVector w a v = true ↔ points w a = v := by
  have : ∀ l v : List P, (l.length == v.length && (l.zip v).all fun e => e.1 == e.2) = true ↔ l = v := by
    intro l
    induction l with
    | nil => intro v; cases v <;> simp
    | cons x l ih =>
      intro v
      cases v with
      | nil => simp
      | cons y v =>
        have := ih v
        simp only [Bool.and_eq_true, beq_iff_eq] at this
        simp only [List.length_cons, List.zip_cons_cons, List.all_cons, Bool.and_eq_true, beq_iff_eq, List.cons.injEq, ← this, Nat.add_right_cancel_iff]
        tauto
  exact this _ v

/-! #### Compound linestrings -/

/-- Helper of the proofs. Pairs of different neighbours of which the second one is the middle of a line of `middle`. -/
def marks : List Nat → List (Nat × Nat)
  | a :: b :: l => if a ≠ b ∧ b % 3 = 1 then (a, b) :: marks (b :: l) else marks (b :: l)
  | _ => []

/-- Helper of the proofs. -/
theorem noRep_cons (a : Nat) (l : List Nat) : ∃ t, Compound.noRep (a :: l) = a :: t := by
  induction l with
  | nil => exact ⟨[], rfl⟩
  | cons b l ih =>
    by_cases h : a = b
    · subst h
      simpa [Compound.noRep] using ih
    · exact ⟨_, by simp [Compound.noRep, h]; rfl⟩

/-- Helper of the proofs. -/
theorem marks_noRep (l : List Nat) : marks (Compound.noRep l) = marks l := by
  induction l with
  | nil => rfl
  | cons a l ih =>
    cases l with
    | nil => rfl
    | cons b l =>
      by_cases h : a = b
      · subst h
        simp only [Compound.noRep, if_true]
        rw [ih]
        simp [marks]
      · obtain ⟨t, ht⟩ := noRep_cons b l
        simp only [Compound.noRep, h, if_false]
        rw [ht] at ih ⊢
        simp only [marks]
        rw [ih]

/-- Helper of the proofs. A world in which every line has three points of its own. -/
def threes : World Nat :=
  ⟨fun d => [3 * d, 3 * d + 1, 3 * d + 2], fun _ => 0, fun _ => ⟨⟨0, false⟩, ⟨0, false⟩, [], none⟩, fun _ => ⟨[], [], [], [], []⟩⟩

/-- Helper of the proofs. -/
theorem marks_flatten (l : List LS) :
    marks (l.map (points threes)).flatten = l.map fun h => (if h.inv then 3 * h.data + 2 else 3 * h.data, 3 * h.data + 1) := by
  have hs : ∀ (l : List LS) (y : Nat), marks (y :: (l.map (points threes)).flatten) = marks (l.map (points threes)).flatten := by
    intro l y
    cases l with
    | nil => rfl
    | cons g l =>
      obtain ⟨e, j⟩ := g
      cases j <;> simp [points, threes, marks, Nat.add_mod]
  induction l with
  | nil => rfl
  | cons h l ih =>
    obtain ⟨d, i⟩ := h
    cases i
    · have : (List.map (points threes) (⟨d, false⟩ :: l)).flatten = 3 * d :: (3 * d + 1) :: (3 * d + 2) :: (l.map (points threes)).flatten := by
        simp [points, threes]
      rw [this]
      simp [marks, Nat.add_mod, hs, ih]
    · have : (List.map (points threes) (⟨d, true⟩ :: l)).flatten = (3 * d + 2) :: (3 * d + 1) :: 3 * d :: (l.map (points threes)).flatten := by
        simp [points, threes]
      rw [this]
      simp [marks, Nat.add_mod, hs, ih]

/-- Helper of the proofs. -/
theorem zip_all_iff (a b : List LS) : (a.length == b.length && (a.zip b).all fun e => equalLS e.1 e.2) = true ↔ a = b := by
  induction a generalizing b with
  | nil => cases b <;> simp
  | cons x a ih =>
    cases b with
    | nil => simp
    | cons y b =>
      have := ih b
      simp only [Bool.and_eq_true, beq_iff_eq] at this
      simp only [List.length_cons, List.zip_cons_cons, List.all_cons, Bool.and_eq_true, beq_iff_eq, List.cons.injEq, ← this,
        Nat.add_right_cancel_iff, equalLS_iff]
      tauto

/-- Specification. The points that a compound linestring shows: those of its linestrings without repetitions, backwards if it is inverted. -/
def compoundPoints (w : World Nat) (ls : List LS) (i : Bool) : List Nat :=
  if i then (Compound.noRep (ls.map (points w)).flatten).reverse else Compound.noRep (ls.map (points w)).flatten

/-- Helper of the proofs. -/
theorem noRep_reverse_flatten (w : World Nat) (ls : List LS) :
    (Compound.noRep (ls.map (points w)).flatten).reverse = Compound.noRep (((ls.map invert).reverse).map (points w)).flatten := by
  have h1 : ((ls.map invert).reverse.map (points w)).flatten = ((ls.map (points w)).flatten).reverse := by
    rw [List.reverse_flatten, List.map_reverse, List.map_map, List.map_map]
    congr 2
    apply List.map_congr_left
    intro l _
    obtain ⟨d, i⟩ := l
    cases i <;> simp [points, invert]
  rw [h1]
  exact (Compound.noRep_reverse _).symm

/-- C94. Compound linestrings are equal exactly if they always show the same points, whatever is done to their linestrings. -/
theorem equalCompound_iff_shown (ls ms : List LS) (i j : Bool) :
    equalCompound ls ms i j = true ↔ ∀ w : World Nat, compoundPoints w ls i = compoundPoints w ms j := by
  have hp : ∀ (w : World Nat) (ls : List LS) (i : Bool), compoundPoints w ls i = Compound.noRep ((lineStrings ls i).map (points w)).flatten := by
    intro w ls i
    cases i
    · rfl
    · exact noRep_reverse_flatten w ls
  simp only [equalCompound, hp]
  rw [zip_all_iff]
  generalize lineStrings ls i = a
  generalize lineStrings ms j = b
  constructor
  · rintro rfl w; rfl
  · intro h
    have := congrArg marks (h threes)
    rw [marks_noRep, marks_noRep, marks_flatten, marks_flatten] at this
    have hinj : Function.Injective fun h : LS => (if h.inv then 3 * h.data + 2 else 3 * h.data, 3 * h.data + 1) := by
      rintro ⟨d, i⟩ ⟨e, k⟩ hh
      cases i <;> cases k <;> simp at hh ⊢ <;> omega
    exact List.map_injective_iff.2 hinj this

/-! #### Hash containers -/

/-- C94. Equal handles have the same hash. -/
theorem hash_equal (ids : Datum → Int) (a b : H) (h : equal a b = true) : hash ids a = hash ids b := by
  cases a <;> cases b <;> simp [equal, equalLS_iff, equalL_iff] at h <;> subst h <;> rfl

/-- Helper of the proofs. -/
theorem equal_comm (a b : H) : equal a b = equal b a := by
  rw [Bool.eq_iff_iff]
  exact ⟨fun h => equal_equivalence.symm h, fun h => equal_equivalence.symm h⟩

/-- Helper of the proofs. -/
theorem has_iff (ids : Datum → Int) (s : HSet H) (hp : ∀ e ∈ s.items, e.1 = hash ids e.2 % s.n) (k : H) :
    s.has (hash ids) equal k = (s.items.map (·.2)).any (equal · k) := by
  simp only [HSet.has, List.any_map]
  rw [Bool.eq_iff_iff]
  simp only [List.any_eq_true, Bool.and_eq_true, beq_iff_eq, Function.comp]
  constructor
  · rintro ⟨e, he, -, h⟩; exact ⟨e, he, h⟩
  · rintro ⟨e, he, h⟩
    exact ⟨e, he, by rw [hp e he, hash_equal ids _ _ h], h⟩

/-- Helper of the proofs. -/
theorem run_spec (ops : List Op) : ∀ (s : St) (l : List H), 0 < s.set.n → s.set.items.map (·.2) = l →
    (∀ e ∈ s.set.items, e.1 = hash s.ids e.2 % s.set.n) → Fair l ops →
    0 < (run s ops).set.n ∧ (run s ops).set.items.map (·.2) = wanted l ops ∧
      ∀ e ∈ (run s ops).set.items, e.1 = hash (run s ops).ids e.2 % (run s ops).set.n := by
  induction ops with
  | nil => intro s l h0 h1 h2 _; exact ⟨h0, h1, h2⟩
  | cons o ops ih =>
    intro s l h0 h1 h2 hf
    cases o with
    | insert h =>
      have hh := has_iff s.ids s.set h2 h
      rw [h1] at hh
      refine ih (step s (.insert h)) _ ?_ ?_ ?_ hf
      · simp only [step, HSet.insert]; split <;> exact h0
      · simp only [step, HSet.insert, hh]
        split
        · exact h1
        · simp [h1]
      · simp only [step, HSet.insert]
        split
        · exact h2
        · intro e he
          rcases List.mem_cons.1 he with rfl | he
          · rfl
          · exact h2 e he
    | erase h =>
      refine ih (step s (.erase h)) _ h0 ?_ ?_ hf
      · simp only [step, HSet.erase, ← h1, List.filter_map]
        congr 1
        apply List.filter_congr
        intro e he
        simp only [Function.comp]
        cases hh : equal e.2 h with
        | false => simp
        | true => simp [h2 e he, hash_equal s.ids _ _ hh]
      · intro e he
        exact h2 e (List.mem_of_mem_filter he)
    | rehash n =>
      refine ih (step s (.rehash n)) _ hf.1 ?_ ?_ hf.2
      · simp only [step, HSet.rehash, List.map_map]
        exact h1
      · intro e he
        simp only [step, HSet.rehash, List.mem_map] at he
        obtain ⟨x, -, rfl⟩ := he
        rfl
    | setId d i =>
      refine ih (step s (.setId d i)) _ h0 h1 ?_ hf.2
      intro e he
      have hn : e.2.datum ≠ d := hf.1 e.2 (by rw [← h1]; exact List.mem_map_of_mem he)
      have := h2 e he
      simp only [step, hash, hn, if_false] at this ⊢
      exact this

/-- Helper of the proofs. -/
theorem wanted_distinct (ops : List Op) : ∀ l : List H, l.Pairwise (fun a b => equal a b = false) →
    (wanted l ops).Pairwise fun a b => equal a b = false := by
  induction ops with
  | nil => intro l h; exact h
  | cons o ops ih =>
    intro l h
    cases o with
    | insert x =>
      refine ih _ ?_
      split
      · exact h
      · rename_i hx
        refine List.pairwise_cons.2 ⟨fun y hy => ?_, h⟩
        rw [equal_comm]
        cases hh : equal y x with
        | false => rfl
        | true => exact absurd (List.any_eq_true.2 ⟨y, hy, hh⟩) hx
    | erase x => exact ih _ (h.filter _)
    | rehash n => exact ih _ h
    | setId d i => exact ih _ h

/-- C94. A hash set of handles, filled by any sequence of insertions and removals: it has exactly the elements it should have, each of them is found
with every equal handle, no others are found, and no two of its elements are equal; provided that ids of elements do not change while they are in
the set. -/
theorem set_spec (ids : Datum → Int) (n : Nat) (hn : 0 < n) (ops : List Op) (hf : Fair [] ops) :
    (run ⟨ids, ⟨n, []⟩⟩ ops).set.items.map (·.2) = wanted [] ops ∧
    (∀ k, lookup (run ⟨ids, ⟨n, []⟩⟩ ops) k = true ↔ ∃ h ∈ wanted [] ops, equal h k = true) ∧
    (wanted [] ops).Pairwise fun a b => equal a b = false := by
  obtain ⟨-, h1, h2⟩ := run_spec ops ⟨ids, ⟨n, []⟩⟩ [] hn rfl (by simp) hf
  refine ⟨h1, fun k => ?_, wanted_distinct ops [] List.Pairwise.nil⟩
  rw [lookup, has_iff _ _ h2, h1]
  simp

-- the hypotheses of set_spec: a lanelet and its inverse are different, a linestring and a polygon with its data are not
example : Fair [] [.insert (.lanelet ⟨0, false⟩), .insert (.lanelet ⟨0, true⟩), .setId (.lanelet 1) 5, .rehash 7, .erase (.lanelet ⟨0, false⟩),
    .insert (.line ⟨3, false⟩), .insert (.polygon ⟨3, false⟩)] ∧
    wanted [] [.insert (.lanelet ⟨0, false⟩), .insert (.lanelet ⟨0, true⟩), .setId (.lanelet 1) 5, .rehash 7, .erase (.lanelet ⟨0, false⟩),
      .insert (.line ⟨3, false⟩), .insert (.polygon ⟨3, false⟩)] = [.line ⟨3, false⟩, .lanelet ⟨0, true⟩] := by
  refine ⟨?_, by decide⟩
  simp [Fair, equal, equalL, H.datum]

/-- C94. A handle is not found any more, and can be put into the set twice, if its id changed in the meantime, for example because it had no id and
was added to a map: the hash is computed from the id (Primitive.h 327-330). -/
theorem set_id_counterexample :
    let s := run ⟨fun _ => 0, ⟨10, []⟩⟩ [.insert (.lanelet ⟨0, false⟩), .setId (.lanelet 0) 7]
    lookup s (.lanelet ⟨0, false⟩) = false ∧
      (run s [.insert (.lanelet ⟨0, false⟩)]).set.items.map (·.2) = [.lanelet ⟨0, false⟩, .lanelet ⟨0, false⟩] := by
  decide

/-- The equality of paths in Python, python_api/routing.cpp 195, which is LaneletPath.h 35: the same lanelets -/
def pathEqual (a b : Nat × List LH) : Bool := a.2.length == b.2.length && (a.2.zip b.2).all fun e => equalL e.1 e.2

/-- The hash of a path in Python: python_api/routing.cpp 179-196 does not define one, so Python uses the address of the object -/
def pathHash (a : Nat × List LH) : Nat := a.1

/-- C94. Paths are equal in Python if they have the same lanelets, but an equal path is not found in a set or dictionary. -/
theorem python_path_counterexample : ∃ a b : Nat × List LH, pathEqual a b = true ∧
    HSet.has pathHash pathEqual (HSet.insert pathHash pathEqual ⟨8, []⟩ a) b = false :=
  ⟨(0, [⟨1, false⟩]), (1, [⟨1, false⟩]), by decide⟩

end Verif.Handle
