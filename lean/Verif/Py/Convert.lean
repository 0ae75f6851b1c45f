import Mathlib.Tactic.ByContra
import Mathlib.Data.List.Perm.Basic

/-!
Model of how values pass between Python and C++ in lanelet2_python: the converters of include/lanelet2_python/internal/converter.h, the
registrations of python_api/core.cpp 580-704, the choice between overloads of a bound function, and the functions of the bindings that do
such conversions by hand (python_api/matching.cpp, python_api/routing.cpp). What Boost.Python itself does (the two stages of a conversion
from Python, the order in which overloads are tried) is part of the trusted base and is described at the definitions.
-/
namespace Verif.Py.Convert

/-- The wrapped classes that the overloads and converters of the modules mention, `class_<...>` in core.cpp 503-1500, geometry.cpp 294,
matching.cpp 123-176 and routing.cpp 130-410 -/
inductive Cls where
  | basicPoint2d | vector2d | basicPoint3d | boundingBox2d | boundingBox3d
  | constPoint2d | point2d | constPoint3d | point3d
  | constLineString2d | lineString2d | constLineString3d | lineString3d
  | hybridLineString2d | hybridLineString3d | compoundLineString2d | compoundLineString3d
  | constPolygon2d | polygon2d | constPolygon3d | polygon3d
  | hybridPolygon2d | hybridPolygon3d | compoundPolygon2d | compoundPolygon3d
  | constLanelet | lanelet | constArea | area
  | regulatoryElement | trafficLight | rightOfWay | allWayStop | trafficSign | speedLimit
  | pointLayer | lineStringLayer | polygonLayer | laneletLayer | areaLayer | regulatoryElementLayer
  | arcCoordinates | object2d | objectWithCovariance2d | constLaneletMatch | constLaneletMatchProbabilistic
  | routingCost | routingCostDistance | routingCostTravelTime | trafficRules
  deriving DecidableEq, Repr

/-- The bases a class was registered with, `bases<...>` of `class_`: core.cpp 735, 766, 811, 851, 939, 950, 1042, 1171, 1226, 1255, 1288,
1334 and 1385, matching.cpp 147 and 174, routing.cpp 139 and 151. `Vector2d` is not derived from `BasicPoint2d` but implicitly convertible
to it, core.cpp 528. -/
def Cls.bases : Cls → List Cls
  | .vector2d => [.basicPoint2d]
  | .point2d => [.constPoint2d]
  | .point3d => [.constPoint3d]
  | .lineString2d => [.constLineString2d]
  | .lineString3d => [.constLineString3d]
  | .polygon2d => [.constPolygon2d]
  | .polygon3d => [.constPolygon3d]
  | .lanelet => [.constLanelet]
  | .area => [.constArea]
  | .trafficLight => [.regulatoryElement]
  | .rightOfWay => [.regulatoryElement]
  | .allWayStop => [.regulatoryElement]
  | .trafficSign => [.regulatoryElement]
  | .speedLimit => [.trafficSign, .regulatoryElement]
  | .objectWithCovariance2d => [.object2d]
  | .constLaneletMatchProbabilistic => [.constLaneletMatch]
  | .routingCostDistance => [.routingCost]
  | .routingCostTravelTime => [.routingCost]
  | _ => []

/-- Whether an instance of class `c` is accepted where class `d` is asked for, by the registrations of `Cls.bases` -/
def Cls.isA (c d : Cls) : Bool := c == d || c.bases.contains d

/-- A Python object: None, a number, an instance of a wrapped class (`d` stands for the data that it shares or holds), a list or a tuple.
Other objects behave like one of these as far as the converters can see. -/
inductive Obj where
  | none
  | num (n : Int)
  | inst (c : Cls) (d : Nat)
  | list (l : List Obj)
  | tuple (l : List Obj)

/-- The C++ types of parameters and results: a number, a wrapped class by value or const reference, a shared pointer to a wrapped class, an
optional, a vector, a pair, one of two wrapped classes (LineStringOrPolygon3d, ConstLaneletOrArea), and a type for which nothing was
registered (BasicLineString2d, BasicPolygon2d and std::shared_ptr<const RegulatoryElement> as parameters) -/
inductive Ty where
  | num
  | cls (c : Cls)
  | ptr (c : Cls)
  | opt (t : Ty)
  | vec (t : Ty)
  | pair (a b : Ty)
  | either (a b : Cls)
  | unregistered
  deriving DecidableEq

/-- The C++ values of a type. A value of a wrapped class is its data, the null pointer is `none`. -/
def Ty.Val : Ty → Type
  | .num => Int
  | .cls _ => Nat
  | .ptr _ => Option Nat
  | .opt t => Option t.Val
  | .vec t => List t.Val
  | .pair a b => a.Val × b.Val
  | .either _ _ => Nat ⊕ Nat
  | .unregistered => Empty

/-- The elements that iterating over an object yields, `none` if it is not iterable: PyObject_GetIter in converter.h 66-76 and
stl_input_iterator in 97-104. `items` gives the elements of instances, for classes with `__iter__` such as line strings. -/
def iterate (items : Cls → Nat → Option (List Obj)) : Obj → Option (List Obj)
  | .none => Option.none
  | .num _ => Option.none
  | .inst c d => items c d
  | .list l => some l
  | .tuple l => some l

/-- The first stage of a conversion from Python, which decides whether an overload is taken: the class for wrapped classes (Boost.Python),
also None for shared pointers (Boost.Python), any object for an optional (converter.h 121), any iterable for a vector (66-76), a tuple of
two for a pair (194-202), either class for a variant (implicitly_convertible, core.cpp 699-704) -/
def stage1 (items : Cls → Nat → Option (List Obj)) : Ty → Obj → Bool
  | .num, .num _ => true
  | .cls c, .inst d _ => d.isA c
  | .ptr _, .none => true
  | .ptr c, .inst d _ => d.isA c
  | .opt _, _ => true
  | .vec _, o => (iterate items o).isSome
  | .pair _ _, .tuple l => l.length == 2
  | .either a b, .inst d _ => d.isA a || d.isA b
  | _, _ => false

/-- A conversion from Python, both stages: `none` is a TypeError raised by the second stage or by `extract`. The second stages are
converter.h 125-136 (optional), 86-106 (vector), 203-209 (pair), each of which extracts the parts, and the first registered of the two
implicit conversions for a variant. Reference counting is not modelled. -/
def extract (items : Cls → Nat → Option (List Obj)) : (t : Ty) → Obj → Option t.Val
  | .num, .num n => some n
  | .cls c, .inst d n => if d.isA c then some n else Option.none
  | .ptr _, .none => some (Option.none : Option Nat)
  | .ptr c, .inst d n => if d.isA c then some (some n : Option Nat) else Option.none
  | .opt _, .none => some Option.none
  | .opt t, o => (extract items t o).map some
  | .vec t, o =>
    match iterate items o with
    | some l => l.mapM (extract items t)
    | Option.none => Option.none
  | .pair a b, .tuple [x, y] =>
    match extract items a x, extract items b y with
    | some u, some v => some (u, v)
    | _, _ => Option.none
  | .either a b, .inst d n =>
    if d.isA a then some (.inl n : Nat ⊕ Nat) else if d.isA b then some (.inr n : Nat ⊕ Nat) else Option.none
  | _, _ => Option.none

/-- A conversion to Python: VectorToList, converter.h 149-158, OptionalToObject 160-169, PairToPythonConverter 182-187, VariantToObject
139-147, the instances of wrapped classes and shared pointers by Boost.Python (a null pointer becomes None; that an instance behind a
shared pointer gets the class of the object is not modelled) -/
def toPy : (t : Ty) → t.Val → Obj
  | .num, (n : Int) => .num n
  | .cls c, (n : Nat) => .inst c n
  | .ptr c, (p : Option Nat) =>
    match p with
    | some n => .inst c n
    | Option.none => .none
  | .opt t, (v : Option t.Val) =>
    match v with
    | some w => toPy t w
    | Option.none => .none
  | .vec t, (l : List t.Val) => .list (l.map (toPy t))
  | .pair a b, (p : a.Val × b.Val) => .tuple [toPy a p.1, toPy b p.2]
  | .either a b, (s : Nat ⊕ Nat) =>
    match s with
    | .inl n => .inst a n
    | .inr n => .inst b n
  | .unregistered, e => nomatch (e : Empty)

/-- WeakToObject, converter.h 171-180, for the weak lanelets and areas of regulatory elements (core.cpp 660-661): the primitive, None if it
is gone. `alive` tells which data still exists. -/
def weakToPy (alive : Nat → Bool) (c : Cls) (n : Nat) : Obj := if alive n then .inst c n else .none

/-! ### The specification -/

/-- Specification. The inheritance between the C++ classes behind the wrapped ones, as the headers declare it: Point.h 202, 230, 271,
LineString.h 538, 569, 585, 636, Polygon.h 157, 188, 228, 273, Lanelet.h 221, Area.h 206, BasicRegulatoryElements.h 17, 87, 163, 230, 336,
Types.h (lanelet2_matching) 59, 78, RoutingCost.h 48, 82 -/
inductive Inherits : Cls → Cls → Prop where
  | constPoint3d : Inherits .constPoint3d .constPoint2d
  | point2d : Inherits .point2d .constPoint3d
  | point3d : Inherits .point3d .point2d
  | lineString3d : Inherits .lineString3d .constLineString3d
  | lineString2d : Inherits .lineString2d .constLineString2d
  | hybridLineString3d : Inherits .hybridLineString3d .constLineString3d
  | hybridLineString2d : Inherits .hybridLineString2d .constLineString2d
  | polygon3d : Inherits .polygon3d .constPolygon3d
  | polygon2d : Inherits .polygon2d .constPolygon2d
  | hybridPolygon3d : Inherits .hybridPolygon3d .constPolygon3d
  | hybridPolygon2d : Inherits .hybridPolygon2d .constPolygon2d
  | lanelet : Inherits .lanelet .constLanelet
  | area : Inherits .area .constArea
  | trafficLight : Inherits .trafficLight .regulatoryElement
  | rightOfWay : Inherits .rightOfWay .regulatoryElement
  | allWayStop : Inherits .allWayStop .regulatoryElement
  | trafficSign : Inherits .trafficSign .regulatoryElement
  | speedLimit : Inherits .speedLimit .trafficSign
  | objectWithCovariance2d : Inherits .objectWithCovariance2d .object2d
  | constLaneletMatchProbabilistic : Inherits .constLaneletMatchProbabilistic .constLaneletMatch
  | routingCostDistance : Inherits .routingCostDistance .routingCost
  | routingCostTravelTime : Inherits .routingCostTravelTime .routingCost
  | trans {a b c : Cls} : Inherits a b → Inherits b c → Inherits a c

/-- Specification. The classes of objects that can be changed, each with the one for the same objects if they must not be changed. -/
def constOf : List (Cls × Cls) :=
  [(.point2d, .constPoint2d), (.point3d, .constPoint3d), (.lineString2d, .constLineString2d), (.lineString3d, .constLineString3d),
   (.polygon2d, .constPolygon2d), (.polygon3d, .constPolygon3d), (.lanelet, .constLanelet), (.area, .constArea)]

/-- Specification. `Elements items o l`: a `for` loop over the object goes through `l` in this order. -/
inductive Elements (items : Cls → Nat → Option (List Obj)) : Obj → List Obj → Prop where
  | list (l : List Obj) : Elements items (.list l) l
  | tuple (l : List Obj) : Elements items (.tuple l) l
  | inst {c : Cls} {d : Nat} {l : List Obj} (h : items c d = some l) : Elements items (.inst c d) l

/-- Specification. `Describes items t o v`: the C++ value `v` is what the Python object `o` says, part by part. -/
inductive Describes (items : Cls → Nat → Option (List Obj)) : (t : Ty) → Obj → t.Val → Prop where
  | num (n : Int) : Describes items .num (.num n) n
  | cls {c d : Cls} (n : Nat) (h : d = c ∨ c ∈ d.bases) : Describes items (.cls c) (.inst d n) n
  | null (c : Cls) : Describes items (.ptr c) .none (Option.none : Option Nat)
  | ptr {c d : Cls} (n : Nat) (h : d = c ∨ c ∈ d.bases) : Describes items (.ptr c) (.inst d n) (some n : Option Nat)
  | absent (t : Ty) : Describes items (.opt t) .none Option.none
  | given {t : Ty} {o : Obj} {v : t.Val} (hn : o ≠ .none) (h : Describes items t o v) :
      Describes items (.opt t) o (some v : Option t.Val)
  | vec {t : Ty} {o : Obj} {l : List Obj} {vs : List t.Val} (ho : Elements items o l) (hl : vs.length = l.length)
      (h : ∀ (i : Nat) (hi : i < l.length), Describes items t (l[i]) (vs[i]'(by omega))) : Describes items (.vec t) o vs
  | pair {a b : Ty} {x y : Obj} {u : a.Val} {v : b.Val} (hx : Describes items a x u) (hy : Describes items b y v) :
      Describes items (.pair a b) (.tuple [x, y]) (u, v)
  | left {a b d : Cls} (n : Nat) (h : d = a ∨ a ∈ d.bases) : Describes items (.either a b) (.inst d n) (.inl n : Nat ⊕ Nat)
  | right {a b d : Cls} (n : Nat) (h : d = b ∨ b ∈ d.bases) (hn : ¬ (d = a ∨ a ∈ d.bases)) :
      Describes items (.either a b) (.inst d n) (.inr n : Nat ⊕ Nat)

/-- Specification. None is never the Python form of a value of the type. -/
def Ty.NeverNone : Ty → Prop
  | .ptr _ => False
  | .opt _ => False
  | _ => True

/-- Specification. Types whose values can be told apart in Python: no optional of something that may be None itself, and no variant of a class
and one derived from it. -/
def Ty.Faithful : Ty → Prop
  | .opt t => t.NeverNone ∧ t.Faithful
  | .vec t => t.Faithful
  | .pair a b => a.Faithful ∧ b.Faithful
  | .either a b => ¬ (b = a ∨ a ∈ b.bases)
  | _ => True

/-! ### Proofs -/

/-- Helper of the proofs. -/
theorem isA_iff (c d : Cls) : c.isA d = true ↔ c = d ∨ d ∈ c.bases := by
  simp [Cls.isA]

/-- C91. Where the modules let an instance pass for one of another class, the C++ object is one: each registered base is a base of the C++
class, except that a Vector2d is converted to a BasicPoint2d. -/
theorem bases_sound (c d : Cls) (h : d ∈ c.bases) : Inherits c d ∨ (c = .vector2d ∧ d = .basicPoint2d) := by
  cases c <;> simp only [Cls.bases, List.mem_cons, List.not_mem_nil, or_false] at h <;>
    first
    | exact h.elim
    | (subst h
       first
       | exact Or.inr ⟨rfl, rfl⟩
       | exact Or.inl (.trans .point2d .constPoint3d)
       | exact Or.inl (.trans .point3d .point2d)
       | exact Or.inl (by constructor; done))
    | (rcases h with h | h <;> subst h
       · exact Or.inl .speedLimit
       · exact Or.inl (.trans .speedLimit .trafficSign))

/-- C91. What can be changed is accepted wherever the unchangeable version is, and never the other way round. All kinds of regulatory
elements are accepted where a regulatory element is, and speed limits where a traffic sign is. -/
theorem bases_complete :
    (∀ p ∈ constOf, p.2 ∈ p.1.bases ∧ p.1 ∉ p.2.bases) ∧
    (∀ c ∈ [Cls.trafficLight, .rightOfWay, .allWayStop, .trafficSign, .speedLimit], Cls.regulatoryElement ∈ c.bases) ∧
    Cls.trafficSign ∈ Cls.speedLimit.bases ∧ Cls.routingCost ∈ Cls.routingCostDistance.bases ∧
    Cls.routingCost ∈ Cls.routingCostTravelTime.bases ∧ Cls.object2d ∈ Cls.objectWithCovariance2d.bases ∧
    Cls.constLaneletMatch ∈ Cls.constLaneletMatchProbabilistic.bases := by
  decide +kernel

/-- Helper of the proofs. -/
theorem iterate_iff (items : Cls → Nat → Option (List Obj)) (o : Obj) (l : List Obj) :
    iterate items o = some l ↔ Elements items o l := by
  constructor
  · intro h
    cases o with
    | none => cases h
    | num n => cases h
    | inst c d => exact .inst h
    | list l' => cases h; exact .list _
    | tuple l' => cases h; exact .tuple _
  · intro h
    cases h with
    | list => rfl
    | tuple => rfl
    | inst h => exact h

/-- Helper of the proofs. -/
theorem mapM_some {α β : Type} (f : α → Option β) :
    ∀ (l : List α) (vs : List β), l.mapM f = some vs ↔
      ∃ hl : vs.length = l.length, ∀ (i : Nat) (hi : i < l.length), f (l[i]) = some (vs[i]'(by omega)) := by
  intro l
  induction l with
  | nil =>
    intro vs
    constructor
    · intro h
      simp only [List.mapM_nil] at h
      cases h
      exact ⟨rfl, by intro i hi; cases hi⟩
    · rintro ⟨hl, -⟩
      cases vs with
      | nil => rfl
      | cons _ _ => cases hl
  | cons a l ih =>
    intro vs
    rw [List.mapM_cons]
    constructor
    · intro h
      cases ha : f a with
      | none => rw [ha] at h; cases h
      | some b =>
        cases hm : l.mapM f with
        | none => rw [ha, hm] at h; cases h
        | some ws =>
          rw [ha, hm] at h
          cases h
          obtain ⟨hl, hi⟩ := (ih ws).1 hm
          refine ⟨by simp [hl], ?_⟩
          intro i hi'
          cases i with
          | zero => exact ha
          | succ i => exact hi i (by simpa using hi')
    · rintro ⟨hl, h⟩
      cases vs with
      | nil => cases hl
      | cons v ws =>
        have h0 := h 0 (by simp)
        have hm := (ih ws).2 ⟨by simpa using hl, fun i hi => h (i + 1) (by simpa using hi)⟩
        simp only [List.getElem_cons_zero] at h0
        rw [h0, hm]
        rfl

/-- C91. A conversion from Python succeeds exactly when there is a C++ value that the object describes, and then gives that value: the data of
the instance for wrapped classes and those derived from them, the elements of any iterable in their order for lists, both parts of a tuple
for pairs, nothing for None where a value is optional. -/
theorem extract_iff (items : Cls → Nat → Option (List Obj)) (t : Ty) :
    ∀ (o : Obj) (v : t.Val), extract items t o = some v ↔ Describes items t o v := by
  induction t with
  | num =>
    intro o v
    constructor
    · intro h
      cases o <;> simp only [extract] at h <;> cases h
      exact .num _
    · intro h
      cases h
      rfl
  | cls c =>
    intro o v
    constructor
    · intro h
      cases o with
      | inst d n =>
        simp only [extract] at h
        split at h
        · next hd => cases h; exact .cls _ ((isA_iff _ _).1 hd)
        · cases h
      | _ => simp only [extract] at h; cases h
    · intro h
      cases h with
      | cls n h => simp only [extract]; rw [if_pos ((isA_iff _ _).2 h)]
  | ptr c =>
    intro o v
    constructor
    · intro h
      cases o with
      | inst d n =>
        simp only [extract] at h
        split at h
        · next hd => cases h; exact .ptr _ ((isA_iff _ _).1 hd)
        · cases h
      | none => simp only [extract] at h; cases h; exact .null _
      | _ => simp only [extract] at h; cases h
    · intro h
      cases h with
      | null => rfl
      | ptr n h => simp only [extract]; rw [if_pos ((isA_iff _ _).2 h)]
  | opt t ih =>
    intro o v
    have key : o ≠ .none → (extract items (.opt t) o = some v ↔ Describes items (.opt t) o v) := by
      intro hn
      have he : extract items (.opt t) o = (extract items t o).map some := by
        cases o with
        | none => exact absurd rfl hn
        | _ => rfl
      rw [he]
      constructor
      · intro h
        cases hx : extract items t o with
        | none => rw [hx] at h; cases h
        | some w =>
          rw [hx] at h
          cases h
          exact .given hn ((ih o w).1 hx)
      · intro h
        cases h with
        | absent => exact absurd rfl hn
        | given _ h => rw [(ih _ _).2 h]; rfl
    cases o with
    | none =>
      constructor
      · intro h
        simp only [extract] at h
        cases h
        exact .absent _
      · intro h
        cases h with
        | absent => rfl
        | given hn _ => exact absurd rfl hn
    | _ => exact key (by simp)
  | vec t ih =>
    intro o v
    have he : extract items (.vec t) o = (match iterate items o with
        | some l => l.mapM (extract items t)
        | Option.none => Option.none) := by
      cases o <;> rfl
    rw [he]
    constructor
    · intro h
      cases hi : iterate items o with
      | none => rw [hi] at h; cases h
      | some l =>
        rw [hi] at h
        obtain ⟨hl, hx⟩ := (mapM_some _ l v).1 h
        exact .vec ((iterate_iff _ _ _).1 hi) hl fun i hlt => (ih _ _).1 (hx i hlt)
    · intro h
      cases h with
      | vec ho hl hx =>
        rw [(iterate_iff _ _ _).2 ho]
        exact (mapM_some _ _ _).2 ⟨hl, fun i hlt => (ih _ _).2 (hx i hlt)⟩
  | pair a b iha ihb =>
    intro o v
    constructor
    · intro h
      match o, h with
      | .tuple [x, y], h =>
        simp only [extract] at h
        cases hx : extract items a x with
        | none => rw [hx] at h; cases h
        | some u =>
          cases hy : extract items b y with
          | none => rw [hx, hy] at h; cases h
          | some w =>
            rw [hx, hy] at h
            cases h
            exact .pair ((iha _ _).1 hx) ((ihb _ _).1 hy)
      | .none, h => simp only [extract] at h; cases h
      | .num _, h => simp only [extract] at h; cases h
      | .inst _ _, h => simp only [extract] at h; cases h
      | .list _, h => simp only [extract] at h; cases h
      | .tuple [], h => simp only [extract] at h; cases h
      | .tuple [_], h => simp only [extract] at h; cases h
      | .tuple (_ :: _ :: _ :: _), h => simp only [extract] at h; cases h
    · intro h
      cases h with
      | pair hx hy =>
        simp only [extract]
        rw [(iha _ _).2 hx, (ihb _ _).2 hy]
  | either a b =>
    intro o v
    constructor
    · intro h
      cases o with
      | inst d n =>
        simp only [extract] at h
        split at h
        · next hd => cases h; exact .left _ ((isA_iff _ _).1 hd)
        · next hd =>
          split at h
          · next hb => cases h; exact .right _ ((isA_iff _ _).1 hb) (fun e => hd ((isA_iff _ _).2 e))
          · cases h
      | _ => simp only [extract] at h; cases h
    · intro h
      cases h with
      | left n h => simp only [extract]; rw [if_pos ((isA_iff _ _).2 h)]
      | right n h hn =>
        simp only [extract]
        rw [if_neg (fun e => hn ((isA_iff _ _).1 e)), if_pos ((isA_iff _ _).2 h)]
  | unregistered =>
    intro o v
    exact nomatch (v : Empty)

/-- Helper of the proofs. -/
theorem toPy_ne_none : ∀ (t : Ty) (v : t.Val), t.NeverNone → toPy t v ≠ .none := by
  intro t v h
  cases t with
  | either a b => cases v <;> simp [toPy]
  | ptr c => exact absurd h id
  | opt t => exact absurd h id
  | unregistered => exact nomatch (v : Empty)
  | _ => simp [toPy]

/-- C91. What C++ hands to Python reads back as the same value: at every depth of lists, pairs, optionals and variants. -/
theorem roundtrip (items : Cls → Nat → Option (List Obj)) (t : Ty) :
    t.Faithful → ∀ v : t.Val, extract items t (toPy t v) = some v := by
  induction t with
  | num => intro _ v; rfl
  | cls c => intro _ v; simp only [toPy, extract]; rw [if_pos ((isA_iff _ _).2 (Or.inl rfl))]
  | ptr c =>
    intro _ v
    cases v with
    | none => rfl
    | some n => simp only [toPy, extract]; rw [if_pos ((isA_iff _ _).2 (Or.inl rfl))]
  | opt t ih =>
    intro hf v
    cases v with
    | none => rfl
    | some w =>
      have hn := toPy_ne_none t w hf.1
      have hw := (extract_iff items t _ _).1 (ih hf.2 w)
      exact (extract_iff items (.opt t) _ _).2 (.given hn hw)
  | vec t ih =>
    intro hf v
    have key : ∀ l : List t.Val, Describes items (.vec t) (.list (l.map (toPy t))) l := by
      intro l
      refine .vec (l := l.map (toPy t)) (.list _) (by simp) ?_
      intro i hi
      have := (extract_iff items t _ _).1 (ih hf (l[i]'(by simpa using hi)))
      simpa using this
    exact (extract_iff items (.vec t) _ _).2 (key v)
  | pair a b iha ihb =>
    intro hf v
    exact (extract_iff items (.pair a b) _ _).2
      (.pair ((extract_iff items a _ _).1 (iha hf.1 v.1)) ((extract_iff items b _ _).1 (ihb hf.2 v.2)))
  | either a b =>
    intro hf v
    cases v with
    | inl n => simp only [toPy, extract]; rw [if_pos ((isA_iff _ _).2 (Or.inl rfl))]
    | inr n =>
      simp only [toPy, extract]
      rw [if_neg (fun e => hf ((isA_iff _ _).1 e)), if_pos ((isA_iff _ _).2 (Or.inl rfl))]
  | unregistered => intro _ v; exact nomatch (v : Empty)

/-- C91. So different values look different in Python. -/
theorem toPy_injective (t : Ty) (h : t.Faithful) (v w : t.Val) (he : toPy t v = toPy t w) : v = w := by
  have hv := roundtrip (fun _ _ => Option.none) t h v
  have hw := roundtrip (fun _ _ => Option.none) t h w
  rw [he, hw] at hv
  exact (Option.some.inj hv).symm

/-- Specification. The types of results and parameters that the modules register converters for, core.cpp 592-704, geometry.cpp 31-32,
io.cpp 64-65, matching.cpp 178-179 and routing.cpp 112-127, up to classes of the same kind -/
def registered : List Ty :=
  [.vec (.cls .point3d), .vec (.cls .lineString3d), .vec (.cls .lanelet), .vec (.cls .area), .vec (.ptr .regulatoryElement),
   .vec (.either .lineString3d .polygon3d), .vec (.either .constLineString3d .constPolygon3d),
   .vec (.either .constLanelet .constArea), .opt (.cls .lineString3d), .opt (.vec (.cls .lineString3d)),
   .opt (.vec (.either .lineString3d .polygon3d)), .opt (.cls .lanelet), .pair (.cls .basicPoint2d) (.cls .basicPoint2d),
   .pair (.cls .basicPoint3d) (.cls .basicPoint3d), .vec (.pair .num (.cls .lanelet)), .vec (.pair .num (.ptr .regulatoryElement)),
   .vec (.vec (.cls .lineString3d)), .vec (.ptr .routingCost), .vec (.cls .constLaneletMatch)]

/-- Helper of the proofs. Decides `Ty.Faithful`. -/
def Ty.faithful : Ty → Bool
  | .opt (.ptr _) => false
  | .opt (.opt _) => false
  | .opt t => t.faithful
  | .vec t => t.faithful
  | .pair a b => a.faithful && b.faithful
  | .either a b => !(b.isA a)
  | _ => true

/-- Helper of the proofs. -/
theorem faithful_sound : ∀ t : Ty, t.faithful = true → t.Faithful := by
  intro t
  induction t with
  | opt t ih =>
    intro h
    cases t with
    | ptr c => cases h
    | opt t => cases h
    | _ => exact ⟨trivial, ih h⟩
  | vec t ih => intro h; exact ih h
  | pair a b iha ihb =>
    intro h
    simp only [Ty.faithful, Bool.and_eq_true] at h
    exact ⟨iha h.1, ihb h.2⟩
  | either a b =>
    intro h
    simp only [Ty.faithful, Bool.not_eq_true'] at h
    intro e
    rw [(isA_iff b a).2 e] at h
    cases h
  | _ => intro _; exact trivial

/-- C91. All types that the modules exchange with Python are of the faithful kind. -/
theorem registered_faithful (t : Ty) (h : t ∈ registered) : t.Faithful := by
  apply faithful_sound
  revert t
  decide +kernel

/-- C91. A weak reference in a regulatory element is the lanelet while that exists and None afterwards. -/
theorem weak_spec (alive : Nat → Bool) (c : Cls) (n : Nat) :
    (alive n = true → weakToPy alive c n = .inst c n) ∧ (alive n = false → weakToPy alive c n = .none) := by
  constructor <;> intro h <;> simp [weakToPy, h]

/-! ### Overloads -/

/-- A bound function: the types of its parameters and how many of them have to be given (`arg("x") = default`, `def` in the modules) -/
structure Fn where
  /-- the parameters -/
  params : List Ty
  /-- the number of parameters without default -/
  needed : Nat
  deriving DecidableEq

/-- Whether a bound function takes the arguments as far as the first stages of their conversions tell (Boost.Python, arity and stage 1) -/
def Fn.takes (items : Cls → Nat → Option (List Obj)) (f : Fn) (args : List Obj) : Bool :=
  (f.needed ≤ args.length && args.length ≤ f.params.length) && (f.params.zip args).all fun p => stage1 items p.1 p.2

/-- Whether the second stages of the conversions of the arguments succeed -/
def Fn.converts (items : Cls → Nat → Option (List Obj)) (f : Fn) (args : List Obj) : Bool :=
  (f.params.zip args).all fun p => (extract items p.1 p.2).isSome

/-- The outcome of a call from Python: the function that ran, by its number in the order of definition, a TypeError raised by the second
stage of a conversion, or an ArgumentError as no function takes the arguments -/
inductive Outcome where
  | ran (i : Nat)
  | raised
  | noMatch
  deriving DecidableEq

/-- A call of overloads, given with their numbers in the order in which they are tried: the first that takes the arguments is
called, whatever the second stage says -/
def tryCall (items : Cls → Nat → Option (List Obj)) (args : List Obj) : List (Fn × Nat) → Outcome
  | [] => .noMatch
  | (f, i) :: rest =>
    if f.takes items args then (if f.converts items args then .ran i else .raised) else tryCall items args rest

/-- A call of a name that was defined several times (`def` in geometry.cpp 124-510 and elsewhere): Boost.Python tries the definitions from
the last to the first -/
def call (items : Cls → Nat → Option (List Obj)) (fs : List Fn) (args : List Obj) : Outcome :=
  tryCall items args (fs.zipIdx).reverse

/-- Helper of the proofs. -/
theorem tryCall_ran (items : Cls → Nat → Option (List Obj)) (args : List Obj) :
    ∀ (l : List (Fn × Nat)) (i : Nat), tryCall items args l = .ran i →
      ∃ f, (f, i) ∈ l ∧ f.takes items args = true ∧ f.converts items args = true := by
  intro l
  induction l with
  | nil => intro i h; cases h
  | cons p l ih =>
    obtain ⟨f, j⟩ := p
    intro i h
    rw [tryCall] at h
    split at h
    · next ht =>
      split at h
      · next hc =>
        cases h
        exact ⟨f, by simp, ht, hc⟩
      · cases h
    · obtain ⟨g, hg, h1, h2⟩ := ih i h
      exact ⟨g, by simp [hg], h1, h2⟩

/-- Helper of the proofs. -/
theorem tryCall_noMatch (items : Cls → Nat → Option (List Obj)) (args : List Obj) :
    ∀ (l : List (Fn × Nat)), tryCall items args l = .noMatch ↔ ∀ p ∈ l, p.1.takes items args = false := by
  intro l
  induction l with
  | nil => simp [tryCall]
  | cons p l ih =>
    obtain ⟨f, j⟩ := p
    rw [tryCall]
    split
    · next ht =>
      constructor
      · intro h; split at h <;> cases h
      · intro h
        have := h (f, j) (by simp)
        rw [this] at ht
        cases ht
    · next ht =>
      rw [ih]
      simp only [List.mem_cons, forall_eq_or_imp]
      constructor
      · intro h; exact ⟨by simpa using ht, h⟩
      · intro h; exact h.2

/-- C91. The function that runs is one of the definitions, took the arguments and got each of them converted. -/
theorem call_ran (items : Cls → Nat → Option (List Obj)) (fs : List Fn) (args : List Obj) (i : Nat)
    (h : call items fs args = .ran i) :
    ∃ f, fs[i]? = some f ∧ f.takes items args = true ∧
      ∀ (k : Nat) (t : Ty) (o : Obj), f.params[k]? = some t → args[k]? = some o → ∃ v, Describes items t o v := by
  obtain ⟨f, hf, ht, hc⟩ := tryCall_ran items args _ i h
  rw [List.mem_reverse] at hf
  refine ⟨f, ?_, ht, ?_⟩
  · have := List.mem_zipIdx hf
    simpa using List.mk_mem_zipIdx_iff_getElem?.1 hf
  · intro k t o hk ho
    unfold Fn.converts at hc
    rw [List.all_eq_true] at hc
    have hm : (t, o) ∈ f.params.zip args := by
      apply List.mem_of_getElem? (i := k)
      rw [List.getElem?_zip_eq_some]
      exact ⟨hk, ho⟩
    have := hc _ hm
    cases he : extract items t o with
    | none => simp only [he] at this; cases this
    | some v => exact ⟨v, (extract_iff items t o v).1 he⟩

/-- C91. The call fails for lack of a matching function only if no definition takes the arguments. -/
theorem call_noMatch (items : Cls → Nat → Option (List Obj)) (fs : List Fn) (args : List Obj) :
    call items fs args = .noMatch ↔ ∀ f ∈ fs, f.takes items args = false := by
  unfold call
  rw [tryCall_noMatch]
  constructor
  · intro h f hf
    obtain ⟨i, hi⟩ := List.getElem?_of_mem hf
    exact h (f, i) (by rw [List.mem_reverse]; exact List.mk_mem_zipIdx_iff_getElem?.2 hi)
  · rintro h ⟨f, i⟩ hp
    rw [List.mem_reverse] at hp
    exact h f (List.mem_of_getElem? (List.mk_mem_zipIdx_iff_getElem?.1 hp))

/-- C91. The first stage never refuses an object that describes a value of the type. -/
theorem stage1_complete (items : Cls → Nat → Option (List Obj)) (t : Ty) (o : Obj) (v : t.Val) (h : Describes items t o v) :
    stage1 items t o = true := by
  cases h with
  | num n => rfl
  | cls n h => exact (isA_iff _ _).2 h
  | null c => rfl
  | ptr n h => exact (isA_iff _ _).2 h
  | absent t => rfl
  | given hn h => cases o <;> rfl
  | @vec t' _ l vs ho hl h =>
    have : stage1 items (.vec t') o = (iterate items o).isSome := by cases o <;> rfl
    rw [this, (iterate_iff _ _ _).2 ho]
    rfl
  | pair hx hy => rfl
  | left n h => simp only [stage1]; rw [(isA_iff _ _).2 h]; rfl
  | right n h hn => simp only [stage1]; rw [(isA_iff _ _).2 h, Bool.or_true]

/-- C91. And what it accepts has the right form at the outside: an iterable for a list, a tuple of two for a pair. -/
theorem stage1_shape (items : Cls → Nat → Option (List Obj)) (o : Obj) :
    (∀ t, stage1 items (.vec t) o = true → ∃ l, Elements items o l) ∧
    (∀ a b, stage1 items (.pair a b) o = true → ∃ x y, o = .tuple [x, y]) := by
  constructor
  · intro t h
    have e : stage1 items (.vec t) o = (iterate items o).isSome := by cases o <;> rfl
    rw [e] at h
    cases hi : iterate items o with
    | none => rw [hi] at h; cases h
    | some l => exact ⟨l, (iterate_iff _ _ _).1 hi⟩
  · intro a b h
    cases o with
    | tuple l =>
      simp only [stage1, beq_iff_eq] at h
      obtain ⟨x, y, e⟩ := List.length_eq_two.1 h
      exact ⟨x, y, by rw [e]⟩
    | _ => cases h

/-- C91. A call that fails for lack of a matching function could not have been right: with the number of arguments that a definition
expects, some argument describes no value of its type. -/
theorem call_noMatch_describes (items : Cls → Nat → Option (List Obj)) (fs : List Fn) (args : List Obj)
    (h : call items fs args = .noMatch) (f : Fn) (hf : f ∈ fs) (hn : f.needed ≤ args.length) (hl : args.length ≤ f.params.length) :
    ∃ (k : Nat) (t : Ty) (o : Obj), f.params[k]? = some t ∧ args[k]? = some o ∧ ¬ ∃ v, Describes items t o v := by
  have ht := (call_noMatch items fs args).1 h f hf
  by_contra hcon
  have : f.takes items args = true := by
    simp only [Fn.takes, Bool.and_eq_true, decide_eq_true_eq, List.all_eq_true]
    refine ⟨⟨hn, hl⟩, ?_⟩
    rintro ⟨t, o⟩ hp
    obtain ⟨k, hk⟩ := List.getElem?_of_mem hp
    rw [List.getElem?_zip_eq_some] at hk
    by_contra hs
    refine hcon ⟨k, t, o, hk.1, hk.2, ?_⟩
    rintro ⟨v, hv⟩
    exact hs (stage1_complete items t o v hv)
  rw [this] at ht
  cases ht

/-- Specification. Types for which the first stage already settles whether the conversion succeeds. -/
def Ty.Settled : Ty → Prop
  | .num => True
  | .cls _ => True
  | .ptr _ => True
  | .either _ _ => True
  | _ => False

/-- Helper of the proofs. -/
theorem settled_extract (items : Cls → Nat → Option (List Obj)) (t : Ty) (o : Obj) (ht : t.Settled) (h : stage1 items t o = true) :
    (extract items t o).isSome = true := by
  cases t with
  | num => cases o <;> simp_all [stage1, extract] <;> rfl
  | cls c => cases o <;> simp_all [stage1, extract] <;> rfl
  | ptr c => cases o <;> simp_all [stage1, extract] <;> rfl
  | either a b =>
    cases o with
    | inst d n =>
      simp only [stage1, Bool.or_eq_true] at h
      simp only [extract]
      by_cases hd : d.isA a = true
      · rw [if_pos hd]; rfl
      · rw [if_neg hd, if_pos (h.resolve_left hd)]; rfl
    | _ => cases h
  | _ => exact absurd ht id

/-- C91. If the parameters are numbers, wrapped classes, shared pointers and variants, a call never raises after an overload was chosen: it
runs exactly if some definition takes the arguments. -/
theorem call_settled (items : Cls → Nat → Option (List Obj)) (fs : List Fn) (args : List Obj)
    (hs : ∀ f ∈ fs, ∀ t ∈ f.params, t.Settled) :
    (∃ i, call items fs args = .ran i) ↔ ∃ f ∈ fs, f.takes items args = true := by
  have hconv : ∀ f ∈ fs, f.takes items args = true → f.converts items args = true := by
    intro f hf ht
    unfold Fn.takes at ht
    unfold Fn.converts
    rw [Bool.and_eq_true] at ht
    rw [List.all_eq_true]
    intro p hp
    exact settled_extract items p.1 p.2 (hs f hf p.1 (List.of_mem_zip hp).1) (List.all_eq_true.1 ht.2 p hp)
  have hnr : ∀ l : List (Fn × Nat), (∀ p ∈ l, p.1 ∈ fs) → tryCall items args l ≠ .raised := by
    intro l
    induction l with
    | nil => intro _ h; cases h
    | cons p l ih =>
      obtain ⟨f, j⟩ := p
      intro hl h
      rw [tryCall] at h
      split at h
      · next ht =>
        rw [if_pos (hconv f (hl (f, j) (by simp)) ht)] at h
        cases h
      · exact ih (fun p hp => hl p (by simp [hp])) h
  constructor
  · rintro ⟨i, h⟩
    obtain ⟨f, hf, ht, -⟩ := call_ran items fs args i h
    exact ⟨f, List.mem_of_getElem? hf, ht⟩
  · rintro ⟨f, hf, ht⟩
    cases hc : call items fs args with
    | ran i => exact ⟨i, rfl⟩
    | raised =>
      exfalso
      refine hnr _ ?_ hc
      rintro ⟨g, j⟩ hp
      rw [List.mem_reverse] at hp
      exact List.mem_of_getElem? (List.mk_mem_zipIdx_iff_getElem?.1 hp)
    | noMatch =>
      have := (call_noMatch items fs args).1 hc f hf
      rw [this] at ht
      cases ht

/-- Helper of the proofs. -/
theorem tryCall_first (items : Cls → Nat → Option (List Obj)) (args : List Obj) (f : Fn) (hf : f.converts items args = true) :
    ∀ (l : List (Fn × Nat)), (∃ i, (f, i) ∈ l) → f.takes items args = true → (∀ p ∈ l, p.1.takes items args = true → p.1 = f) →
      ∃ i, tryCall items args l = .ran i ∧ (f, i) ∈ l := by
  intro l
  induction l with
  | nil => rintro ⟨i, h⟩; cases h
  | cons p l ih =>
    obtain ⟨g, j⟩ := p
    rintro ⟨i, hi⟩ ht hu
    rw [tryCall]
    split
    · next hg =>
      have : g = f := hu (g, j) (by simp) hg
      subst this
      rw [if_pos hf]
      exact ⟨j, rfl, by simp⟩
    · next hg =>
      have hne : (f, i) ≠ (g, j) := by
        intro e
        cases e
        exact hg ht
      have hi' : (f, i) ∈ l := by
        rcases List.mem_cons.1 hi with h | h
        · exact absurd h hne
        · exact h
      obtain ⟨k, h1, h2⟩ := ih ⟨i, hi'⟩ ht (fun p hp => hu p (by simp [hp]))
      exact ⟨k, h1, by simp [h2]⟩

/-- C91. If only one function (perhaps defined twice) takes the arguments and converts them, it is the one that runs, whatever the order of the
definitions. -/
theorem call_unique (items : Cls → Nat → Option (List Obj)) (fs gs : List Fn) (hp : fs.Perm gs) (args : List Obj) (f : Fn) (hf : f ∈ fs)
    (ht : f.takes items args = true) (hc : f.converts items args = true)
    (hu : ∀ g ∈ fs, g.takes items args = true → g = f) : ∃ i, call items gs args = .ran i ∧ gs[i]? = some f := by
  obtain ⟨i, hi⟩ := List.getElem?_of_mem (hp.mem_iff.1 hf)
  obtain ⟨k, h1, h2⟩ := tryCall_first items args f hc (gs.zipIdx).reverse
    ⟨i, by rw [List.mem_reverse]; exact List.mk_mem_zipIdx_iff_getElem?.2 hi⟩ ht
    (by
      rintro ⟨g, j⟩ hg hgt
      rw [List.mem_reverse] at hg
      exact hu g (hp.mem_iff.2 (List.mem_of_getElem? (List.mk_mem_zipIdx_iff_getElem?.1 hg))) hgt)
  rw [List.mem_reverse] at h2
  exact ⟨k, h1, List.mk_mem_zipIdx_iff_getElem?.1 h2⟩

/-! ### Examples -/

/-- Example. Two points that share data 1 and 2, the line string with data 7 consists of them. -/
def exItems (c : Cls) (d : Nat) : Option (List Obj) :=
  if c = .lineString3d ∧ d = 7 then some [.inst .point3d 1, .inst .point3d 2] else Option.none

-- a line string is taken as a list of points
example : extract exItems (.vec (.cls .constPoint3d)) (.inst .lineString3d 7) = some ([1, 2] : List Nat) := rfl

-- a list with an element of another class is refused, by the second stage only
example : stage1 exItems (.vec (.cls .point3d)) (.list [.inst .point3d 1, .inst .point2d 2]) = true ∧
    (extract exItems (.vec (.cls .point3d)) (.list [.inst .point3d 1, .inst .point2d 2])).isNone = true := by decide +kernel

-- the hypotheses of call_unique: two definitions, the second is tried first and refuses
example : call exItems [⟨[.cls .constPoint2d], 1⟩, ⟨[.cls .constPoint3d], 1⟩] [.inst .point2d 4] = .ran 0 := by decide +kernel

-- the first stage of a list hides an earlier definition that would have taken the argument
example : call exItems [⟨[.vec (.cls .point2d)], 1⟩, ⟨[.vec (.cls .point3d)], 1⟩] [.list [.inst .point2d 4]] = .raised := by
  decide +kernel

end Verif.Py.Convert
