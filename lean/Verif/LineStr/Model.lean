/-!
Model of linestrings: lanelet2_core/include/lanelet2_core/primitives/LineString.h (LineStringData 139-184,
ConstLineStringImpl 220-360, LineStringImpl 364-516) and the iterator
lanelet2_core/include/lanelet2_core/utility/ReverseAndForwardIterator.h.

The data objects are numbered and hold a vector of points; a handle is a data object and the `inverted` flag. Points are
of any type `P`. Undefined behaviour (iterator out of range, access to missing elements) is `none`.
-/
namespace Verif.LineStr

variable {P : Type}

/-- the points of all data objects; LineStringData::points_, LineString.h 139-184 -/
abbrev Store (P : Type) := Nat → List P

/-- LineString handle: data pointer and inverted_ (LineString.h 359) -/
structure LS where
  data : Nat
  inv : Bool
  deriving DecidableEq

/-- ReverseAndForwardIterator: position of the base iterator and direction; ReverseAndForwardIterator.h 9-46 -/
structure Iter where
  base : Nat
  fwd : Bool
  deriving DecidableEq

/-- Assignment to the points of one data object. -/
def Store.put (s : Store P) (d : Nat) (l : List P) : Store P := fun d' => if d' = d then l else s d'

/-- std::vector::insert at an index (valid up to the end); returns the index of the first inserted element; LineString.h 415, 426, 429 -/
def vinsert (l : List P) (i : Nat) (xs : List P) : Option (List P × Nat) :=
  if i ≤ l.length then some (l.take i ++ xs ++ l.drop i, i) else none

/-- std::vector::erase; returns the index of the next element; LineString.h 444 -/
def verase (l : List P) (i : Nat) : Option (List P × Nat) :=
  if i < l.length then some (l.take i ++ l.drop (i + 1), i) else none

/-- std::vector::resize with default points; LineString.h 462 -/
def vresize (dflt : P) (l : List P) (n : Nat) : List P := l.take n ++ List.replicate (n - l.length) dflt

/-- invert: LineString.h 532, 547, 563, 578 -/
def invert (h : LS) : LS := ⟨h.data, !h.inv⟩

/-- begin, end: LineString.h 156-173, 481-484. A reverse iterator is represented by its base. -/
def begin (s : Store P) (h : LS) : Iter := if h.inv then ⟨(s h.data).length, false⟩ else ⟨0, true⟩
/-- LineString.h 171-173, 484. -/
def end' (s : Store P) (h : LS) : Iter := if h.inv then ⟨0, false⟩ else ⟨(s h.data).length, true⟩

/-- advance, ReverseAndForwardIterator.h 35; leaving the vector is undefined -/
def advance (s : Store P) (h : LS) (it : Iter) (n : Int) : Option Iter :=
  let b : Int := if it.fwd then it.base + n else it.base - n
  if 0 ≤ b ∧ b ≤ (s h.data).length then some ⟨b.toNat, it.fwd⟩ else none

/-- dereference, ReverseAndForwardIterator.h 35 -/
def deref (s : Store P) (h : LS) (it : Iter) : Option P :=
  if it.fwd then (s h.data)[it.base]? else if it.base = 0 then none else (s h.data)[it.base - 1]?

/-- iterating from begin to end: what a range-based loop sees; LineString.h 271-283 -/
def iterate (s : Store P) (h : LS) : List P :=
  (List.range (s h.data).length).filterMap fun (n : Nat) => do
    let it ← advance s h (begin s h) n
    deref s h it

/-- size, empty: LineString.h 174-175, 260-263 -/
def size (s : Store P) (h : LS) : Nat := (s h.data).length
/-- LineString.h 175, 263. -/
def isEmpty (s : Store P) (h : LS) : Bool := (s h.data).isEmpty

/-- operator[] and at: LineString.h 176-178, 304-307, 493-496 -/
def get (s : Store P) (h : LS) (idx : Nat) : Option P :=
  if idx < (s h.data).length then
    (s h.data)[if h.inv then (s h.data).length - 1 - idx else idx]?
  else none

/-- front and back: LineString.h 179-180, 286-295, 487-490 -/
def front (s : Store P) (h : LS) : Option P := if h.inv then (s h.data).getLast? else (s h.data).head?
/-- LineString.h 180, 490. -/
def back (s : Store P) (h : LS) : Option P := if h.inv then (s h.data).head? else (s h.data).getLast?

/-- writing through operator[] / an iterator / front(); LineString.h 487-496 -/
def set (s : Store P) (h : LS) (idx : Nat) (x : P) : Option (Store P) :=
  if idx < (s h.data).length then
    some (s.put h.data ((s h.data).set (if h.inv then (s h.data).length - 1 - idx else idx) x))
  else none

/-- segment, LineString.h 325-330 -/
def segment (s : Store P) (h : LS) (idx : Nat) : Option (P × P) := do
  if size s h ≤ idx then none
  let first ← advance s h (begin s h) idx
  let second ← if idx + 1 = size s h then some (begin s h) else advance s h first 1
  return (← deref s h first, ← deref s h second)

/-- segment of mutable linestrings, LineString.h 502-506 -/
def segmentMut (s : Store P) (h : LS) (idx : Nat) : Option (P × P) := do
  if size s h ≤ idx then none
  let snd := idx + 1
  return (← get s h idx, ← get s h (if snd = size s h then 0 else snd))

/-- numSegments, LineString.h 333; for polygons Polygon.h 113 -/
def numSegments (s : Store P) (h : LS) : Nat := if size s h ≤ 1 then 0 else size s h - 1
/-- Polygon.h 113, 148 (numSegments of a polygon). -/
def numSegmentsPolygon (s : Store P) (h : LS) : Nat := if size s h < 2 then 0 else size s h

/-- insert(position, point), LineString.h 413-417 -/
def insert (s : Store P) (h : LS) (pos : Iter) (x : P) : Option (Store P × Iter) := do
  let (l, fw) ← vinsert (s h.data) pos.base [x]
  return (s.put h.data l, if h.inv then ⟨fw + 1, false⟩ else ⟨fw, true⟩)

/-- insert(position, start, end), LineString.h 420-431. An iterator behind the end is undefined. -/
def insertRange (s : Store P) (h : LS) (pos : Iter) (xs : List P) : Option (Store P × Iter) :=
  if h.inv then do
    let (l, fw) ← vinsert (s h.data) pos.base xs.reverse
    if fw + 1 ≤ l.length then some (s.put h.data l, ⟨fw + 1, false⟩) else none
  else do
    let (l, fw) ← vinsert (s h.data) pos.base xs
    return (s.put h.data l, ⟨fw, true⟩)

/-- push_back, LineString.h 434-436 -/
def pushBack (s : Store P) (h : LS) (x : P) : Store P :=
  if h.inv then s.put h.data (x :: s h.data) else s.put h.data (s h.data ++ [x])

/-- erase, LineString.h 439-446 -/
def erase (s : Store P) (h : LS) (pos : Iter) : Option (Store P × Iter) := do
  let pos ← if h.inv then advance s h pos 1 else some pos
  let (l, it) ← verase (s h.data) pos.base
  return (s.put h.data l, if h.inv then ⟨it, false⟩ else ⟨it, true⟩)

/-- pop_back, LineString.h 449-451 -/
def popBack (s : Store P) (h : LS) : Option (Store P) :=
  if (s h.data).isEmpty then none
  else if h.inv then some (s.put h.data ((s h.data).drop 1)) else some (s.put h.data (s h.data).dropLast)

/-- resize, LineString.h 458-466. `std::reverse(begin(), end())` through iterators of the view reverses the vector. -/
def resize (dflt : P) (s : Store P) (h : LS) (n : Nat) : Store P :=
  let l := if h.inv then (s h.data).reverse else s h.data
  let l := vresize dflt l n
  let l := if h.inv then l.reverse else l
  s.put h.data l

/-- clear, LineString.h 470 -/
def clear (s : Store P) (h : LS) : Store P := s.put h.data []

/-- operator=(std::vector<PointType>), LineString.h 388-395 (hidden in the derived classes by their own operator=, so
only reachable with a qualified name) -/
def assign (s : Store P) (h : LS) (xs : List P) : Store P :=
  if h.inv then s.put h.data xs.reverse else s.put h.data xs

/-- operator=(std::vector<Point3d>&&), LineString.h 398-404: utils::invert returns the inverted vector, the result is
not used. -/
def assignMove (s : Store P) (h : LS) (xs : List P) : Store P := s.put h.data xs

/-- operator==, LineString.h 713-716 -/
def equal (a b : LS) : Bool := a.data == b.data && a.inv == b.inv

end Verif.LineStr
