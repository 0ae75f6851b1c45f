/-!
Model of `HybridMap`: lanelet2_core/include/lanelet2_core/utility/HybridMap.h.

A world contains any number of HybridMap objects (addressed by numbers). The nodes of a `std::map` have addresses,
values live in a heap that is indexed by these addresses, iterators are node addresses or the end iterator of one
particular object. In this way dangling iterators, iterators of the wrong object and shared nodes can be
expressed; their use is undefined behaviour, modelled as `none`.

Simplification: the iteration order of `std::map` is left out (nodes are kept in the order of insertion). A map that
was moved from is empty (libstdc++, libc++).
-/
namespace Verif.HMap

/-- std::string, the keys of HybridMap.h 71. -/
abbrev Key := List Char

/-- node of a std::map; HybridMap.h 71 -/
structure Node where
  addr : Nat
  key : Key
  deriving DecidableEq

/-- iterator of a std::map: the end of the map in object `obj`, or a node; HybridMap.h 72 -/
inductive It where
  | last (obj : Nat)
  | node (addr : Nat)
  deriving DecidableEq

/-- HybridMap.h 230-231 -/
structure HM where
  m : List Node
  v : List It

/-- The HybridMap objects with their members m_ and v_ (HybridMap.h 230-231), the values of the nodes by address, and the next free address. -/
structure World (V : Type) where
  maps : Nat → HM
  vals : Nat → V
  next : Nat

/-- PairArray: names and enum values, HybridMap.h 11-35 -/
abbrev Table := List (Key × Nat)

variable {V : Type}

/-- Assignment to one entry of a table. -/
def upd {α : Type} (f : Nat → α) (i : Nat) (x : α) : Nat → α := fun j => if j = i then x else f j

/-- `c_str()` as seen by strcmp; HybridMap.h 30 -/
def cstr (k : Key) : Key := k.takeWhile (· != Char.ofNat 0)

/-- ArrayView::findKey, HybridMap.h 27-35 -/
def findKeyPos (tab : Table) (k : Key) : Option Nat := (tab.find? (cstr ·.1 == cstr k)).map (·.2)

/-- ArrayView::findValue, HybridMap.h 18-26 -/
def findValue (tab : Table) (pos : Nat) : Option Key := (tab.find? (·.2 == pos)).map (·.1)

/-- `m_.find(k)`, HybridMap.h 114, 119 -/
def find (self : Nat) (h : HM) (k : Key) : It :=
  match h.m.find? (·.key == k) with
  | some n => .node n.addr
  | none => .last self

/-- find(Enum), HybridMap.h 115-123 -/
def findEnum (self : Nat) (h : HM) (pos : Nat) : It :=
  if h.v.length < pos + 1 then .last self else h.v.getD pos (.last self)

/-- updateV, HybridMap.h 220-229 -/
def updateV (tab : Table) (self : Nat) (v : List It) (n : Node) : List It :=
  match findKeyPos tab n.key with
  | none => v
  | some pos =>
    let v := if v.length < pos + 1 then v ++ List.replicate (pos + 1 - v.length) (.last self) else v
    v.set pos (.node n.addr)

/-- insert(value), HybridMap.h 130-136. The iterator and the flag are returned. -/
def insert (tab : Table) (self : Nat) (k : Key) (x : V) (w : World V) : World V × It × Bool :=
  let h := w.maps self
  match h.m.find? (·.key == k) with
  | some n => (w, .node n.addr, false)
  | none =>
    let n : Node := ⟨w.next, k⟩
    ({ maps := upd w.maps self ⟨h.m ++ [n], updateV tab self h.v n⟩
       vals := upd w.vals w.next x, next := w.next + 1 }, .node n.addr, true)

/-- insert(hint, value), HybridMap.h 138-142 -/
def insertHint (tab : Table) (self : Nat) (k : Key) (x : V) (w : World V) : World V :=
  let h := w.maps self
  match h.m.find? (·.key == k) with
  | some n => { w with maps := upd w.maps self { h with v := updateV tab self h.v n } }
  | none =>
    let n : Node := ⟨w.next, k⟩
    { maps := upd w.maps self ⟨h.m ++ [n], updateV tab self h.v n⟩
      vals := upd w.vals w.next x, next := w.next + 1 }

/-- erase(pos), HybridMap.h 144-150: only the first equal iterator is reset -/
def eraseAt (self : Nat) (it : It) (w : World V) : Option (World V) :=
  match it with
  | .last _ => none
  | .node a =>
    let h := w.maps self
    if h.m.any (·.addr == a) then
      let i := h.v.idxOf (.node a)
      let v := if i < h.v.length then h.v.set i (.last self) else h.v
      some { w with maps := upd w.maps self ⟨h.m.filter (·.addr != a), v⟩ }
    else none

/-- erase(key), HybridMap.h 152-159 -/
def eraseKey (self : Nat) (k : Key) (w : World V) : Option (World V) :=
  let it := find self (w.maps self) k
  if it = .last self then some w else eraseAt self it w

/-- writing through an iterator of the map; anything but one of its nodes is undefined behaviour; HybridMap.h 161-176 -/
def write (self : Nat) (it : It) (x : V) (w : World V) : Option (World V) :=
  match it with
  | .last _ => none
  | .node a => if (w.maps self).m.any (·.addr == a) then some { w with vals := upd w.vals a x } else none

/-- `map[key] = x`, HybridMap.h 161-167; `d` is the default value -/
def assignKey (tab : Table) (d : V) (self : Nat) (k : Key) (x : V) (w : World V) : Option (World V) :=
  let it := find self (w.maps self) k
  if it = .last self then
    let r := insert tab self k d w
    write self r.2.1 x r.1
  else write self it x w

/-- `map[enum] = x`, HybridMap.h 168-176 -/
def assignEnum (tab : Table) (d : V) (self : Nat) (pos : Nat) (x : V) (w : World V) : Option (World V) :=
  let it := findEnum self (w.maps self) pos
  if it = .last self then
    match findValue tab pos with
    | none => none
    | some k =>
      let r := insert tab self k d w
      write self r.2.1 x r.1
  else write self it x w

/-- clear, HybridMap.h 208 -/
def clear (self : Nat) (w : World V) : World V := { w with maps := upd w.maps self ⟨[], []⟩ }

/-- copying the nodes of a std::map: every node gets a new address; HybridMap.h 94-99 -/
def copyNodes : List Node → Nat → (Nat → V) → List Node × Nat × (Nat → V)
  | [], nx, vals => ([], nx, vals)
  | n :: ns, nx, vals =>
    let r := copyNodes ns (nx + 1) (upd vals nx (vals n.addr))
    (⟨nx, n.key⟩ :: r.1, r.2)

/-- copyIterators, HybridMap.h 38-47, for one iterator; `src`/`dst` are the objects, `old`/`new` their maps -/
def copyIt (src dst : Nat) (old new : List Node) (it : It) : Option It :=
  if it = .last src then some (.last dst)
  else match it with
    | .last _ => none
    | .node a => match old.find? (·.addr == a) with
      | none => none
      | some n => some (find dst ⟨new, []⟩ n.key)

/-- all results or undefined; HybridMap.h 39-47 -/
def mapAll (f : It → Option It) : List It → Option (List It)
  | [] => some []
  | x :: xs => match f x, mapAll f xs with
    | some y, some ys => some (y :: ys)
    | _, _ => none

/-- copy constructor and copy assignment, HybridMap.h 94-99 (assignment to itself leaves `m_` as it is) -/
def copy (dst src : Nat) (w : World V) : Option (World V) :=
  let h := w.maps src
  if dst = src then
    match mapAll (copyIt src dst h.m h.m) h.v with
    | none => none
    | some v => some { w with maps := upd w.maps dst ⟨h.m, v⟩ }
  else
    let r := copyNodes h.m w.next w.vals
    match mapAll (copyIt src dst h.m r.1) h.v with
    | none => none
    | some v => some { maps := upd w.maps dst ⟨r.1, v⟩, vals := r.2.2, next := r.2.1 }

/-- move constructor and move assignment of different objects, HybridMap.h 83-93 with replaceIterator (49-56):
node iterators stay valid, end iterators do not. -/
def move (dst src : Nat) (w : World V) : World V :=
  let h := w.maps src
  let v := h.v.map fun it => if it = .last src then .last dst else it
  { w with maps := upd (upd w.maps dst ⟨h.m, v⟩) src ⟨[], []⟩ }

/-- dereferencing an iterator that is not the end; HybridMap.h 178-206 -/
def read (self : Nat) (it : It) (w : World V) : Option V :=
  match it with
  | .last _ => none
  | .node a => if (w.maps self).m.any (·.addr == a) then some (w.vals a) else none

/-- at(key), HybridMap.h 178-184, 193-199: the error is std::out_of_range; `none` is undefined behaviour -/
def atKey (self : Nat) (k : Key) (w : World V) : Option (Except Unit V) :=
  let it := find self (w.maps self) k
  if it = .last self then some (.error ()) else (read self it w).map .ok

/-- at(enum), HybridMap.h 185-191, 200-206 -/
def atEnum (self : Nat) (pos : Nat) (w : World V) : Option (Except Unit V) :=
  let it := findEnum self (w.maps self) pos
  if it = .last self then some (.error ()) else (read self it w).map .ok

/-- size, empty: HybridMap.h 210-211 -/
def size (self : Nat) (w : World V) : Nat := (w.maps self).m.length
/-- HybridMap.h 211. -/
def isEmpty (self : Nat) (w : World V) : Bool := (w.maps self).m.isEmpty

/-- operator==, HybridMap.h 216: equality of the std::maps -/
def equal [DecidableEq V] (a b : Nat) (w : World V) : Bool :=
  decide ((w.maps a).m.length = (w.maps b).m.length) &&
  (w.maps a).m.all fun n => match (w.maps b).m.find? (·.key == n.key) with
    | some n' => decide (w.vals n.addr = w.vals n'.addr)
    | none => false

/-- The operations of a history. The member functions of HybridMap.h 82-217. -/
inductive Op (V : Type) where
  | insert (o : Nat) (k : Key) (x : V)
  | insertHint (o : Nat) (k : Key) (x : V)
  | assignKey (o : Nat) (k : Key) (x : V)
  | assignEnum (o : Nat) (pos : Nat) (x : V)
  | erase (o : Nat) (k : Key)
  | clear (o : Nat)
  | copy (dst src : Nat)
  | move (dst src : Nat)

/-- One operation: HybridMap.h 82-217 by the operation. -/
def run (tab : Table) (d : V) (w : World V) : Op V → Option (World V)
  | .insert o k x => some (insert tab o k x w).1
  | .insertHint o k x => some (insertHint tab o k x w)
  | .assignKey o k x => assignKey tab d o k x w
  | .assignEnum o pos x => assignEnum tab d o pos x w
  | .erase o k => eraseKey o k w
  | .clear o => some (clear o w)
  | .copy dst src => copy dst src w
  | .move dst src => if dst = src then none else some (move dst src w)

/-- A history of operations (helper of the properties). -/
def runAll (tab : Table) (d : V) (w : World V) : List (Op V) → Option (World V)
  | [] => some w
  | op :: ops => match run tab d w op with
    | none => none
    | some w => runAll tab d w ops

/-- all objects are empty in the beginning; HybridMap.h 82 -/
def World.init (d : V) : World V := ⟨fun _ => ⟨[], []⟩, fun _ => d, 0⟩

/-- AttributeNamesString::Map, Attribute.h 219-226 with the enum of 178-187 -/
def attributeTable : Table :=
  [("type".toList, 0), ("subtype".toList, 1), ("one_way".toList, 2), ("participant:vehicle".toList, 3),
   ("participant:pedestrian".toList, 4), ("speed_limit".toList, 5), ("location".toList, 6), ("dynamic".toList, 7)]

/-- RoleNameString::Map, primitives/RegulatoryElement.h 82-85: the order of the array differs from the order of the enum. -/
def roleTable : Table :=
  [("refers".toList, 0), ("ref_line".toList, 1), ("yield".toList, 3), ("right_of_way".toList, 2),
   ("cancels".toList, 4), ("cancel_line".toList, 5)]

end Verif.HMap
