/-!
Model of the map container: `lanelet2_core/src/LaneletMap.cpp` and
`lanelet2_core/include/lanelet2_core/LaneletMap.h`.

Data objects (what a handle such as `LineString3d` points to) are identified by their kind and a number (the
address). Their contents (points, bounds, parameters …) are a parameter `c : Content`, which `add` never
changes. Ids are part of the state, because `add` assigns ids to objects that have none.

Simplifications: attributes are left out; null pointers to regulatory elements are left out; whether a weakly
referenced lanelet or area is still alive is fixed while the map is filled (objects of the map stay alive,
because the map owns them, and expired ones stay expired); the roles of the parameters of a regulatory element
are left out (the parameters are listed in the order of their iteration); the unordered containers are lists
in the order of insertion (the theorems do not depend on the order).
-/
namespace Verif.LMap

/-- The six kinds of primitives, one layer each: LaneletMap.h 353-358. -/
inductive Kind | point | lineString | polygon | lanelet | area | regElem
  deriving DecidableEq, Repr

/-- A data object, identified by its address. The shared_ptr to the data of Primitive.h 70-191. -/
structure Obj where
  kind : Kind
  n : Nat
  deriving DecidableEq, Repr

/-- A primitive as the user sees it: a pointer to the data and (for linestrings and lanelets) whether the view
is inverted. Two of them compare equal if both agree: Primitive.h 85, LineString.h 714-716,
Lanelet.h 369-371, Area.h 327. -/
structure Handle where
  obj : Obj
  inv : Bool
  deriving DecidableEq, Repr

/-- a handle of a kind that cannot be inverted; helper of the model -/
def Handle.of (k : Kind) (n : Nat) : Handle := ⟨⟨k, n⟩, false⟩

/-- The contents of the data objects: LineStringData (primitives/LineString.h 139-184), LaneletData
(primitives/Lanelet.h 22-80), AreaData (primitives/Area.h 43-100), RegulatoryElementData
(primitives/RegulatoryElement.h 134-140). Bounds are handles (an object and whether it is inverted). -/
structure Content where
  points : Nat → List Nat
  polygonPoints : Nat → List Nat
  left : Nat → Nat × Bool
  right : Nat → Nat × Bool
  /-- a centerline that was set or computed; it counts as custom if it has a valid id
      (src/Lanelet.cpp 247-255, 275-278) -/
  center : Nat → Option (Nat × Bool)
  laneletRegs : Nat → List Nat
  outer : Nat → List (Nat × Bool)
  inner : Nat → List (List (Nat × Bool))
  areaRegs : Nat → List Nat
  /-- lanelets and areas are referenced weakly by regulatory elements -/
  params : Nat → List Handle
  /-- whether a weakly referenced object still exists -/
  alive : Obj → Bool
  /-- whether the 2d bounding box is not empty (such elements are in the search tree) -/
  hasBox : Obj → Bool

/-- A linestring as a handle (LineString.h 538-549). -/
def lsHandle (l : Nat × Bool) : Handle := ⟨⟨.lineString, l.1⟩, l.2⟩
/-- LineString.h 546. -/
def invertLs (l : Nat × Bool) : Nat × Bool := (l.1, !l.2)

/-- ConstLanelet::leftBound, rightBound: primitives/Lanelet.h 160-176 (an inverted view swaps and inverts). -/
def leftBound (c : Content) (h : Handle) : Handle :=
  lsHandle (if h.inv then invertLs (c.right h.obj.n) else c.left h.obj.n)
/-- Lanelet.h 256. -/
def rightBound (c : Content) (h : Handle) : Handle :=
  lsHandle (if h.inv then invertLs (c.left h.obj.n) else c.right h.obj.n)

/-- The elements that the usage lookup files a primitive under: LaneletMap.cpp 221-275 and 384-386
(the points of a linestring or polygon, the bounds of a lanelet, all bounds of an area, all parameters of a
regulatory element). -/
def owned (c : Content) (h : Handle) : List Handle :=
  match h.obj.kind with
  | .point => []
  | .lineString => (if h.inv then (c.points h.obj.n).reverse else c.points h.obj.n).map (Handle.of .point)
  | .polygon => (c.polygonPoints h.obj.n).map (Handle.of .point)
  | .lanelet => [leftBound c h, rightBound c h]
  | .area => (c.outer h.obj.n).map lsHandle ++ (c.inner h.obj.n).flatten.map lsHandle
  | .regElem => c.params h.obj.n

/-- The regulatory elements of lanelets and areas. Lanelet.h 41-44, Area.h 70-73 -/
def regs (c : Content) (h : Handle) : List Nat :=
  match h.obj.kind with
  | .lanelet => c.laneletRegs h.obj.n
  | .area => c.areaRegs h.obj.n
  | _ => []

/-- PrimitiveLayer: the map from ids to elements, the usage lookup (an entry remembers the hash of its key, as
`std::unordered_multimap` does), the lookup by regulatory element and the content of the search tree:
LaneletMap.h 249-251, LaneletMap.cpp 277-326. -/
structure Layer where
  elements : List (Int × Handle) := []
  usage : List (Int × Handle × Handle) := []
  regUsage : List (Nat × Handle) := []
  tree : List Handle := []

/-- The state: ids of all objects, the global counter of ids (LaneletMap.cpp 880), the layers. -/
structure MapSt where
  ids : Obj → Int
  next : Int
  layers : Kind → Layer

/-- a lanelet or area that is referenced weakly and does not exist any more; Lanelet.h 333, Area.h 288 -/
def expired (c : Content) (o : Obj) : Bool :=
  (o.kind == .lanelet || o.kind == .area) && !c.alive o

/-- `std::hash` of an element: its id (`HashBase`, Forward.h; IdVisitor, LaneletMap.cpp 43-64: expired objects
have InvalId = 0). -/
def hashOf (c : Content) (ids : Obj → Int) (k : Handle) : Int := if expired c k.obj then 0 else ids k.obj

/-- PrimitiveLayer::exists: LaneletMap.cpp 353-356. -/
def Layer.exists (l : Layer) (id : Int) : Bool := id != 0 && (l.elements.find? (·.1 == id)).isSome

/-- PrimitiveLayer::find: LaneletMap.cpp 470-473. `none` is `end()`. -/
def Layer.find (l : Layer) (id : Int) : Option Handle := (l.elements.find? (·.1 == id)).map (·.2)

/-- PrimitiveLayer::get: LaneletMap.cpp 358-380. The error is NoSuchPrimitiveError. -/
def Layer.get (l : Layer) (id : Int) : Except Unit Handle :=
  if id == 0 then .error () else
  match l.elements.find? (·.1 == id) with
  | some e => .ok e.2
  | none => .error ()

/-- `elements_.insert({id, element})` of an unordered_map: keeps what is there. LaneletMap.cpp 383-418 -/
def insertElem (id : Int) (h : Handle) (l : List (Int × Handle)) : List (Int × Handle) :=
  if (l.find? (·.1 == id)).isSome then l else l ++ [(id, h)]

/-- PrimitiveLayer::add (all specialisations): LaneletMap.cpp 382-417. -/
def Layer.add (c : Content) (ids : Obj → Int) (h : Handle) (l : Layer) : Layer :=
  { usage := l.usage ++ (owned c h).map fun k => (hashOf c ids k, k, h)
    regUsage := l.regUsage ++ (regs c h).map fun r => (r, h)
    elements := insertElem (ids h.obj) h l.elements
    tree := if c.hasBox h.obj then l.tree ++ [h] else l.tree }

/-- PrimitiveLayer::add, LaneletMap.cpp 383-418. -/
def layerAdd (c : Content) (h : Handle) (s : MapSt) : MapSt :=
  { s with layers := fun k => if k = h.obj.kind then (s.layers k).add c s.ids h else s.layers k }

/-- utils::registerId: LaneletMap.cpp 885-891 (one thread; see `Verif.Ids` for the concurrent behaviour). -/
def registerId (id : Int) (s : MapSt) : MapSt := { s with next := if s.next < id + 1 then id + 1 else s.next }

/-- `x.setId(layer.uniqueId())`: LaneletMap.cpp 552-555, 883. -/
def setFreshId (o : Obj) (s : MapSt) : MapSt :=
  { s with ids := fun x => if x = o then s.next else s.ids x, next := s.next + 1 }

/-- assignIdIfInvalid: LaneletMap.cpp 111-118; also lines 583-585 and 612-614. -/
def assignIdIfInvalid (o : Obj) (s : MapSt) : MapSt := if s.ids o = 0 then setFreshId o s else s

/-- The first lines of all `LaneletMap::add` overloads: LaneletMap.cpp 569-575, 595-601, 627-633, 647-653,
661-667, 675-681. `true` means that the function returns at once. -/
def enter (o : Obj) (s : MapSt) : MapSt × Bool :=
  if s.ids o = 0 then (setFreshId o s, false)
  else if (s.layers o.kind).exists (s.ids o) then (s, true)
  else (registerId (s.ids o) s, false)

/-- `lanelet.hasCustomCenterline()` and the centerline that is added then: LaneletMap.cpp 578-580,
src/Lanelet.cpp 275-278, Lanelet.h 178-190. -/
def customCenter (c : Content) (ids : Obj → Int) (h : Handle) : List Handle :=
  match c.center h.obj.n with
  | none => []
  | some l => if ids ⟨.lineString, l.1⟩ = 0 then [] else [lsHandle (if h.inv then invertLs l else l)]

/-- The parameters that AssignIdVisitor and AddVisitor handle: LaneletMap.cpp 120-163 (expired ones are
skipped). -/
def liveParams (c : Content) (n : Nat) : List Handle := (c.params n).filter fun h => !expired c h.obj

/-- LaneletMap::add, one case per overload: LaneletMap.cpp 568-592 (lanelet), 594-621 (area),
623-644 (regulatory element), 646-658 (polygon), 660-672 (linestring), 674-683 (point).
`none` would mean that the function does not return. -/
def add (c : Content) (h : Handle) (s : MapSt) : Option MapSt := do
  if (enter h.obj s).2 then
    some (enter h.obj s).1
  else
    let s := (enter h.obj s).1
    match h.obj.kind with
    | .lanelet =>
      let s ← [leftBound c h, rightBound c h].foldlM (fun s l => add c l s) s
      let s ← (customCenter c s.ids h).foldlM (fun s l => add c l s) s
      let s := (c.laneletRegs h.obj.n).foldl (fun s r => assignIdIfInvalid ⟨.regElem, r⟩ s) s
      let s := layerAdd c h s
      (c.laneletRegs h.obj.n).foldlM (fun s r => add c (Handle.of .regElem r) s) s
    | .area =>
      let s ← (c.outer h.obj.n).foldlM (fun s l => add c (lsHandle l) s) s
      let s ← (c.inner h.obj.n).flatten.foldlM (fun s l => add c (lsHandle l) s) s
      let s := (c.areaRegs h.obj.n).foldl (fun s r => assignIdIfInvalid ⟨.regElem, r⟩ s) s
      let s := layerAdd c h s
      (c.areaRegs h.obj.n).foldlM (fun s r => add c (Handle.of .regElem r) s) s
    | .regElem =>
      let s := (liveParams c h.obj.n).foldl (fun s p => assignIdIfInvalid p.obj s) s
      let s := layerAdd c h s
      (liveParams c h.obj.n).foldlM (fun s p => add c p s) s
    | .polygon =>
      let s ← (c.polygonPoints h.obj.n).foldlM (fun s p => add c (Handle.of .point p) s) s
      some (layerAdd c h s)
    | .lineString =>
      let s ← (if h.inv then (c.points h.obj.n).reverse else c.points h.obj.n).foldlM
        (fun s p => add c (Handle.of .point p) s) s
      some (layerAdd c h s)
    | .point => some (layerAdd c h s)
partial_fixpoint

/-- PrimitiveLayer::findUsages for owned elements: LaneletMap.cpp 165-169, 419-441. Entries are found if their
remembered hash is that of the key now and if the keys compare equal; an expired key equals nothing
(Lanelet.h 373-375, Area.h 329-331). -/
def findUsages (c : Content) (s : MapSt) (k : Kind) (x : Handle) : List Handle :=
  ((s.layers k).usage.filter fun e =>
    e.1 == hashOf c s.ids x && (e.2.1 == x && !expired c e.2.1.obj && !expired c x.obj)).map (·.2.2)

/-- findUsages of a regulatory element in the lanelet and area layers: LaneletMap.cpp 443-461 (hashed by
pointer). -/
def findRegUsages (s : MapSt) (k : Kind) (r : Nat) : List Handle :=
  ((s.layers k).regUsage.filter fun e => e.1 == r).map (·.2)

/-- An empty map: LaneletMap.h 375-390 (default constructor). -/
def MapSt.empty (ids : Obj → Int) (next : Int) : MapSt := ⟨ids, next, fun _ => {}⟩

/-! ### utils::createMap -/

/-- toMap: LaneletMap.cpp 75-80. A range constructed `unordered_map` keeps the first element of an id. -/
def toMap (ids : Obj → Int) (hs : List Handle) : List (Int × Handle) :=
  hs.foldl (fun l h => insertElem (ids h.obj) h l) []

/-- PrimitiveLayer(Map): LaneletMap.cpp 328-351 (the tree is built by 282-292, 315-321). -/
def Layer.ofMap (c : Content) (ids : Obj → Int) (m : List (Int × Handle)) : Layer :=
  { elements := m
    usage := m.flatMap fun e => (owned c e.2).map fun k => (hashOf c ids k, k, e.2)
    regUsage := m.flatMap fun e => (regs c e.2).map fun r => (r, e.2)
    tree := (m.map (·.2)).filter fun h => c.hasBox h.obj }

/-- the points of a linestring handle in its order; LineString.h 271-283 -/
def pointsOf (c : Content) (h : Handle) : List Handle :=
  (if h.inv then (c.points h.obj.n).reverse else c.points h.obj.n).map (Handle.of .point)

/-- The linestrings collected by createMap: LaneletMap.cpp 825-843. -/
def collectLs (c : Content) (ids : Obj → Int) (lls ars : List Handle) : List Handle :=
  lls.flatMap (fun h => [leftBound c h, rightBound c h] ++ customCenter c ids h) ++
  ars.flatMap fun h => (c.outer h.obj.n).map lsHandle ++ (c.inner h.obj.n).flatten.map lsHandle

/-- The layers that createMap constructs before it adds the regulatory elements: LaneletMap.cpp 845-855;
only the area layer registers its ids (349). -/
def createLayers (c : Content) (lls ars : List Handle) (s : MapSt) : MapSt :=
  let ls := collectLs c s.ids lls ars
  let layers := fun k => match k with
    | .lanelet => Layer.ofMap c s.ids (toMap s.ids lls)
    | .area => Layer.ofMap c s.ids (toMap s.ids ars)
    | .lineString => Layer.ofMap c s.ids (toMap s.ids ls)
    | .point => Layer.ofMap c s.ids (toMap s.ids (ls.flatMap (pointsOf c)))
    | _ => {}
  ars.foldl (fun s h => registerId (s.ids h.obj) s) { s with layers := layers }

/-- utils::createMap(Lanelets, Areas): LaneletMap.cpp 824-863. Layers of `s` are ignored. -/
def createMap (c : Content) (lls ars : List Handle) (s : MapSt) : Option MapSt :=
  (lls.flatMap (fun h => c.laneletRegs h.obj.n) ++ ars.flatMap fun h => c.areaRegs h.obj.n).foldlM
    (fun s r => add c (Handle.of .regElem r) s) (createLayers c lls ars s)

/-! ### LaneletSubmap -/

/-- checkId: LaneletMap.cpp 197-204. -/
def checkId (o : Obj) (s : MapSt) : MapSt :=
  if s.ids o = 0 then setFreshId o s else registerId (s.ids o) s

/-- LaneletSubmap::add (all overloads): LaneletMap.cpp 685-716. trackParameters (747-768) only keeps the
referenced objects alive. -/
def submapAdd (c : Content) (h : Handle) (s : MapSt) : MapSt := layerAdd c h (checkId h.obj s)

/-- elements of a layer in iteration order; LaneletMap.h 39-262 -/
def elems (s : MapSt) (k : Kind) : List Handle := (s.layers k).elements.map (·.2)

/-- LaneletSubmap::laneletMap: LaneletMap.cpp 718-745. -/
def submapToMap (c : Content) (s : MapSt) : Option MapSt := do
  let m ← createMap c (elems s .lanelet) (elems s .area) s
  let m ← (elems s .regElem).foldlM (fun m h => add c h m) m
  let m ← (elems s .polygon).foldlM (fun m h => add c h m) m
  let m ← (elems s .lineString).foldlM (fun m h => add c h m) m
  (elems s .point).foldlM (fun m h => add c h m) m

end Verif.LMap
