/-!
Model of the intermediate representation of an OSM file, lanelet2_io/include/lanelet2_io/io_handlers/OsmFile.h, and of the
xml document it is read from.

A std::map is a list of key-value pairs with distinct keys, in the order of insertion. (std::map iterates in the order of the
keys; only the order of error messages and of the xml elements depends on it.) Its elements never move, so that a pointer to
an element is modelled by its key. Not modelled: pugixml, that is the text of the file and the conversion of attributes to
numbers.
-/
namespace Verif.Osm

/-- Forward.h 198. -/
abbrev Id := Int

/-! ### std::map -/

/-- std::map and std::unordered_map (OsmFile.h 17, 63-65); the order of the list is the order of the iteration. -/
abbrev AMap (K V : Type) := List (K × V)

namespace AMap
variable {K V : Type} [DecidableEq K]

/-- find / at; OsmFile.h 63-65 -/
def get (m : AMap K V) (k : K) : Option V := (m.find? fun e => e.1 = k).map (·.2)

/-- find(k) != end(). -/
def has (m : AMap K V) (k : K) : Bool := m.any fun e => e.1 = k

/-- emplace, insert: keeps an existing value; OsmFile.h 63-65 -/
def emplace (m : AMap K V) (k : K) (v : V) : AMap K V := if m.has k then m else m ++ [(k, v)]

/-- operator[] with assignment: replaces an existing value; OsmFile.h 63-65 -/
def set (m : AMap K V) (k : K) (v : V) : AMap K V :=
  if m.has k then m.map fun e => if e.1 = k then (e.1, v) else e else m ++ [(k, v)]

/-- change through a reference to a value; OsmFile.h 63-65 -/
def modify (m : AMap K V) (k : K) (f : V → V) : AMap K V := m.map fun e => if e.1 = k then (e.1, f e.2) else e

end AMap

/-- OsmFile.h 17. -/
abbrev Attrs := AMap String String

/-! ### the file, OsmFile.h 23-83 -/

/-- a pointer to a primitive of the file; OsmFile.h 18, 23-35 -/
inductive Target where
  | node (id : Id)
  | way (id : Id)
  | relation (id : Id)
  deriving DecidableEq

/-- Node; `D` is double; OsmFile.h 38-43 -/
structure Node (D : Type) where
  id : Id
  attrs : Attrs
  lat : D
  lon : D
  ele : D
  deriving DecidableEq

/-- Way; the nodes by their ids; OsmFile.h 46-52 -/
structure Way where
  id : Id
  attrs : Attrs
  nodes : List Id
  deriving DecidableEq

/-- Roles: a deque. Element i is at address `base + i`. `none` is the null pointer of a placeholder. OsmFile.h 18-19 -/
structure Roles where
  base : Int
  items : List (String × Option Target)
  deriving DecidableEq

/-- Relation; OsmFile.h 55-61 -/
structure Relation where
  id : Id
  attrs : Attrs
  members : Roles
  deriving DecidableEq

/-- OsmFile.h 72-83. -/
structure File (D : Type) where
  nodes : AMap Id (Node D)
  ways : AMap Id Way
  relations : AMap Id Relation

/-! ### the xml document -/

/-- a `<node>`; numbers are text, absent attributes `none`. `deleted`: has action="delete"; OsmFile.cpp 131-149, 205-222 -/
structure XNode where
  id : Id
  deleted : Bool
  lat : Option String
  lon : Option String
  tags : List (String × String)

/-- a `<way>` with the references of its `<nd>`; OsmFile.cpp 151-166, 224-253 -/
structure XWay where
  id : Id
  deleted : Bool
  refs : List Id
  tags : List (String × String)

/-- a `<member>`; OsmFile.cpp 168-186, 255-305 -/
structure XMember where
  type : String
  ref : Id
  role : String
  deriving DecidableEq

/-- a `<relation>`; OsmFile.cpp 168-186, 255-305 -/
structure XRelation where
  id : Id
  deleted : Bool
  members : List XMember
  tags : List (String × String)

/-- the children of `<osm>` by name, each in document order; OsmFile.cpp 98-121, 191-203 -/
structure Doc where
  nodes : List XNode
  ways : List XWay
  relations : List XRelation

/-! ### placeholders in relations -/

/-- UnresolvedRole, OsmFile.cpp 36-40, OsmHandlerWrite.cpp 19-23: the placeholder is at `addr` in the members of `relation` -/
structure Unresolved where
  relation : Id
  ref : Id
  addr : Int
  deriving DecidableEq

/-- emplace_back on the deque: no element moves; OsmFile.cpp 281 -/
def Roles.push (r : Roles) (role : String) (t : Option Target) : Roles := { r with items := r.items ++ [(role, t)] }

/-- the address of the last element; OsmFile.cpp 281 -/
def Roles.backAddr (r : Roles) : Int := r.base + (r.items.length - 1 : Nat)

/-- the index of the element at an address; OsmFile.cpp 72-78 -/
def Roles.index (r : Roles) (addr : Int) : Option Nat :=
  if r.base ≤ addr ∧ addr < r.base + r.items.length then some (addr - r.base).toNat else none

/-- erase of the deque: either the elements before or those behind the erased one move. `front` tells which; it may depend on
the position and the size. OsmFile.cpp 78 -/
def Roles.erase (front : Nat → Nat → Bool) (r : Roles) (k : Nat) : Roles :=
  ⟨if front k r.items.length then r.base + 1 else r.base, r.items.eraseIdx k⟩

/-- the placeholders other than the one at index `k`: new index and old address, OsmFile.cpp 71-77, OsmHandlerWrite.cpp 29-34.
`shift`: see `removeAndFix` -/
def otherPlaceholders (shift : Bool) (roles : Roles) (k : Nat) : List (Nat × Int) :=
  roles.items.zipIdx.filterMap fun x =>
    if x.1.2 = none ∧ x.2 ≠ k then some (if shift = true ∧ x.2 > k then x.2 - 1 else x.2, roles.base + x.2) else none

/-- removeAndFixPlaceholders, OsmFile.cpp 66-94 (`shift = true`) and OsmHandlerWrite.cpp 25-51 (`shift = false`: there the
new index of placeholders behind the removed one is not decremented, line 32 instead of line 75).
Returns the new members and the new address of a placeholder. `none`: undefined behaviour, as the removed placeholder does not
exist or std::next goes to or past the end. -/
def removeAndFix (shift : Bool) (front : Nat → Nat → Bool) (toRemove : Int) (roles : Roles) :
    Option (Roles × (Int → Int)) := do
  let k ← roles.index toRemove
  let roles' := roles.erase front k
  if (otherPlaceholders shift roles k).any fun p => p.1 ≥ roles'.items.length then none
  else
    return (roles', fun addr => match (otherPlaceholders shift roles k).find? fun p => p.2 = addr with
      | some p => roles'.base + p.1
      | none => addr)

/-- one round of the loops in OsmFile.cpp 290-302 and OsmHandlerWrite.cpp 143-154 for the placeholder `u`; `todo` are the
ones that follow. (The code also updates the locations of placeholders it is done with; these are not used again.)
Returns the relations, the remaining placeholders and whether the member was missing. -/
def resolveOne (shift : Bool) (front : Nat → Nat → Bool) (relations : AMap Id Relation) (u : Unresolved)
    (todo : List Unresolved) : Option (AMap Id Relation × List Unresolved × Bool) := do
  let relation ← relations.get u.relation
  let k ← relation.members.index u.addr
  let item ← relation.members.items[k]?
  if item.2 ≠ none then none
  else if relations.has u.ref then
    return (relations.modify u.relation fun r =>
      { r with members := { r.members with items := r.members.items.set k (item.1, some (.relation u.ref)) } }, todo, false)
  else do
    let (members, move) ← removeAndFix shift front u.addr relation.members
    return (relations.modify u.relation fun r => { r with members := members },
      todo.map fun v => if v.relation = u.relation then { v with addr := move v.addr } else v, true)

/-- the loop over the placeholders; `errors`: relation and missing id; OsmFile.cpp 289-303, OsmHandlerWrite.cpp 141-156 -/
def resolveAll (shift : Bool) (front : Nat → Nat → Bool) (relations : AMap Id Relation) (todo : List Unresolved)
    (errors : List (Id × Id)) : Option (AMap Id Relation × List (Id × Id)) :=
  match todo with
  | [] => some (relations, errors)
  | u :: todo => do
    let (relations, todo, missing) ← resolveOne shift front relations u todo
    resolveAll shift front relations todo (if missing then errors ++ [(u.relation, u.ref)] else errors)
partial_fixpoint

/-- state while the relations are built: OsmFile.cpp 254-287, OsmHandlerWrite.cpp 250-262; `E` are the errors -/
structure RelState (E : Type) where
  relations : AMap Id Relation
  todo : List Unresolved
  errs : List E

/-- `&roles.back().second` for the members of a relation; OsmFile.cpp 281, OsmHandlerWrite.cpp 102-139 -/
def backAddr (relations : AMap Id Relation) (id : Id) : Int :=
  match relations.get id with
  | some r => r.members.backAddr
  | none => 0

end Verif.Osm
