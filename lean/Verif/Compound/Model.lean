/-
Model of `internal::UniqueCompoundIterator` and of `CompoundLineStringImpl`.

Sources: lanelet2_core/include/lanelet2_core/utility/CompoundIterator.h
         lanelet2_core/include/lanelet2_core/utility/ReverseAndForwardIterator.h
         lanelet2_core/include/lanelet2_core/primitives/CompoundLineString.h

`Option` results: `none` stands for undefined behaviour (dereferencing or moving past an end)
and also for a loop that does not terminate.
-/
namespace Verif.Compound

variable {α : Type} [DecidableEq α]

/-- CompoundIterator.h 135-136: the outer and the inner iterator, modelled as indices.
The value-initialised inner iterator of the end iterator (lines 36, 38, 79) is modelled as `0`. -/
structure It where
  outer : Nat
  inner : Nat
deriving DecidableEq, Repr

/-- `do ++it while (it != end && it->empty())` (CompoundIterator.h 75-77) as well as `find_if`
over the non-empty containers (44-46): index of the first non-empty container in the suffix `cs`
that starts at index `k`, or the index of the end. -/
def nextNonempty : List (List α) → Nat → Nat
  | [], k => k
  | l :: ls, k => if l.isEmpty then nextNonempty ls (k + 1) else k

/-- CompoundIterator.h 44-46 -/
def firstNonempty (c : List (List α)) : Nat := nextNonempty c 0

/-- CompoundIterator.h 31-37 -/
def begin (c : List (List α)) : It := ⟨firstNonempty c, 0⟩

/-- CompoundIterator.h 38 -/
def endIt (c : List (List α)) : It := ⟨c.length, 0⟩

/-- CompoundIterator.h 132 -/
def deref (c : List (List α)) (it : It) : Option α := do
  let l ← c[it.outer]?
  l[it.inner]?

/-- CompoundIterator.h 73-86 -/
def incrementOne (c : List (List α)) (it : It) : Option It := do
  let l ← c[it.outer]?
  if it.inner < l.length then
    if l.length = it.inner + 1 then
      some ⟨nextNonempty (c.drop (it.outer + 1)) (it.outer + 1), 0⟩
    else some ⟨it.outer, it.inner + 1⟩
  else none

/-- The loop of CompoundIterator.h 91-93: `do --it while (it != b && it->empty())`. -/
def prevNonempty (c : List (List α)) (b : Nat) : Nat → Option Nat
  | 0 => none
  | o + 1 => do
    if o = b then some o
    else
      let l ← c[o]?
      if l.isEmpty then prevNonempty c b o else some o

/-- CompoundIterator.h 88-98 -/
def decrementOne (c : List (List α)) (it : It) : Option It :=
  if it.outer = c.length ∨ it.inner = 0 then do
    let o ← prevNonempty c (firstNonempty c) it.outer
    let l ← c[o]?
    if l.length = 0 then none else some ⟨o, l.length - 1⟩
  else some ⟨it.outer, it.inner - 1⟩

/-- The loop of CompoundIterator.h 51-53. -/
def incrementLoop (c : List (List α)) (old : α) (it : It) : Option It := do
  let it ← incrementOne c it
  if it = endIt c then some it
  else
    let v ← deref c it
    if old = v then incrementLoop c old it else some it
partial_fixpoint

/-- CompoundIterator.h 48-54 -/
def increment (c : List (List α)) (it : It) : Option It := do
  let old ← deref c it
  incrementLoop c old it

/-- The loop of CompoundIterator.h 63-70. -/
def decrementLoop (c : List (List α)) (next : It) : Option It := do
  let this := next
  let next ← decrementOne c next
  let vn ← deref c next
  let vt ← deref c this
  if vn ≠ vt then some this
  else if next ≠ begin c then decrementLoop c next
  else some next
partial_fixpoint

/-- CompoundIterator.h 56-71 -/
def decrement (c : List (List α)) (it : It) : Option It := do
  let it ← decrementOne c it
  if it = begin c then some it else decrementLoop c it

/-- CompoundIterator.h 102-104 -/
def incrementN (c : List (List α)) : Nat → It → Option It
  | 0, it => some it
  | n + 1, it => do incrementN c n (← increment c it)

/-- CompoundIterator.h 106-108 -/
def decrementN (c : List (List α)) : Nat → It → Option It
  | 0, it => some it
  | n + 1, it => do decrementN c n (← decrement c it)

/-- CompoundIterator.h 100-110 -/
def advance (c : List (List α)) (it : It) (d : Int) : Option It :=
  if d > 0 then incrementN c d.toNat it else decrementN c (-d).toNat it

/-- The loops of CompoundIterator.h 117-120 and 122-125: number of increments from one iterator
to the other. -/
def countTo (c : List (List α)) (it other : It) (d : Int) : Option Int :=
  if it = other then some d
  else do countTo c (← increment c it) other (d + 1)
partial_fixpoint

/-- CompoundIterator.h 112-128 -/
def distanceTo (c : List (List α)) (it other : It) : Option Int :=
  if other.outer > it.outer ∨ (other.outer = it.outer ∧ other.inner > it.inner) then
    countTo c it other 0
  else do return -(← countTo c other it 0)

/-! ### ReverseAndForwardIterator over the compound iterator -/

/-- ReverseAndForwardIterator.h 9, 45 -/
structure RFIt where
  base : It
  forward : Bool
deriving DecidableEq, Repr

/-- ReverseAndForwardIterator.h 32 -/
def RFIt.increment (c : List (List α)) (it : RFIt) : Option RFIt := do
  let b ← if it.forward then Compound.increment c it.base else Compound.decrement c it.base
  return { it with base := b }

/-- ReverseAndForwardIterator.h 33 -/
def RFIt.decrement (c : List (List α)) (it : RFIt) : Option RFIt := do
  let b ← if it.forward then Compound.decrement c it.base else Compound.increment c it.base
  return { it with base := b }

/-- ReverseAndForwardIterator.h 34. `iter() -= d` is `advance(-d)` in boost::iterator_facade. -/
def RFIt.advance (c : List (List α)) (it : RFIt) (d : Int) : Option RFIt := do
  let b ← Compound.advance c it.base (if it.forward then d else -d)
  return { it with base := b }

/-- ReverseAndForwardIterator.h 35; `*reverse_iterator(b)` decrements a copy and dereferences it. -/
def RFIt.deref (c : List (List α)) (it : RFIt) : Option α :=
  if it.forward then Compound.deref c it.base
  else do Compound.deref c (← Compound.decrement c it.base)

/-- ReverseAndForwardIterator.h 37-43 -/
def RFIt.distanceTo (c : List (List α)) (it other : RFIt) : Option Int := do
  let d ← Compound.distanceTo c it.base other.base
  return if it.forward then d else -d

/-! ### CompoundLineStringImpl -/

/-- CompoundLineString.h 254-255 with the (immutable) data of line 55: the point lists of the
elements in the order in which each element shows them, and the inversion flag. -/
structure CLS (α : Type) where
  ls : List (List α)
  inverted : Bool

/-- CompoundLineString.h 47-49, 147 -/
def CLS.begin (s : CLS α) : RFIt :=
  if s.inverted then ⟨endIt s.ls, false⟩ else ⟨Compound.begin s.ls, true⟩

/-- CompoundLineString.h 50-52, 154 -/
def CLS.endIt (s : CLS α) : RFIt :=
  if s.inverted then ⟨Compound.begin s.ls, false⟩ else ⟨Compound.endIt s.ls, true⟩

/-- CompoundLineString.h 130: `std::distance(begin(), end())`, converted to size_t; a negative
distance would be an error and is modelled as `none`. -/
def CLS.size (s : CLS α) : Option Nat := do
  let d ← RFIt.distanceTo s.ls s.begin s.endIt
  if d < 0 then none else some d.toNat

/-- CompoundLineString.h 137 -/
def CLS.empty (s : CLS α) : Option Bool := do return (← s.size) = 0

/-- CompoundLineString.h 163 -/
def CLS.front (s : CLS α) : Option α := s.begin.deref s.ls

/-- CompoundLineString.h 172 -/
def CLS.back (s : CLS α) : Option α := do (← s.endIt.decrement s.ls).deref s.ls

/-- CompoundLineString.h 183-186 -/
def CLS.at (s : CLS α) (idx : Nat) : Option α := do
  (← s.begin.advance s.ls idx).deref s.ls

/-- CompoundLineString.h 195-200 -/
def CLS.segment (s : CLS α) (idx : Nat) : Option (α × α) := do
  let first ← s.begin.advance s.ls idx
  let second ← if idx + 1 = (← s.size) then some s.begin else first.advance s.ls 1
  return (← first.deref s.ls, ← second.deref s.ls)

/-- CompoundLineString.h 203 -/
def CLS.numSegments (s : CLS α) : Option Nat := do return max 1 (← s.size) - 1

/-- Iterating from `it` to `last` with `++` and dereferencing, as the range constructor of
CompoundLineString.h 227 (`basicLineString`) does. -/
def CLS.collect (s : CLS α) (it last : RFIt) : Option (List α) :=
  if it = last then some []
  else do
    let x ← it.deref s.ls
    let xs ← collect s (← it.increment s.ls) last
    return x :: xs
partial_fixpoint

/-- CompoundLineString.h 227 -/
def CLS.points (s : CLS α) : Option (List α) := s.collect s.begin s.endIt

/-- CompoundLineString.h 277, 298: invert() -/
def CLS.invert (s : CLS α) : CLS α := { s with inverted := !s.inverted }

/-- CompoundLineString.h 235-239. Inverting a member linestring reverses its points
(LineString.h, see Verif.LineStringView). -/
def CLS.lineStrings (s : CLS α) : List (List α) :=
  if s.inverted then (s.ls.map List.reverse).reverse else s.ls

end Verif.Compound
