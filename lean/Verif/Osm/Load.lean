import Verif.Osm.Ring
import Verif.Osm.Write

/-!
Model of loading a map from an OSM file: lanelet2_io/src/OsmHandlerLoad.cpp, FromFileLoader.

`P` are positions of the map, `D` is double. `none`: undefined behaviour (a null or dangling pointer). Parameters (`Env`): the
projector, conversions to bool, the geometric predicates of align and of the ring assembly, and the registry of regulatory
elements. Not modelled: the text of the error messages, the r-trees and usage tables that the constructor of LaneletMap builds.
-/
namespace Verif.Osm
variable {P D : Type}

/-- What OsmHandlerLoad.cpp 61-400 gets from elsewhere: the projector and the conversions of attributes. -/
structure Env (P D : Type) where
  /-- Projector::forward, `none` if it throws -/
  forward : D → D → D → Option P
  /-- the position of a point that is made up -/
  origin : P
  /-- Attribute::asBool -/
  asBool : String → Option Bool
  /-- the middle of the second linestring is right of the first: LineString.h 819 -/
  rightOf : List P → List P → Bool
  /-- the middle of the second linestring is left of the first: LineString.h 824 -/
  leftOf : List P → List P → Bool
  /-- isValid, OsmHandlerLoad.cpp 26-29, for the concatenated positions -/
  valid : List P → Bool
  /-- the registered constructors of regulatory elements by rule name. `none`: not registered, or the constructor throws -/
  registry : String → MReg → Option MReg

/-- parserError, OsmHandlerLoad.cpp 389-395: what is reported. -/
inductive LoadError where
  | projection (node : Id)
  | missing (primitive member : Id)
  | emptyWay (way : Id)
  | borderCount (lanelet : Id) (role : String)
  | borderType (lanelet : Id) (role : String)
  | ringType (area member : Id)
  | ring (area : Id) (e : RingError)
  | noOuter (area : Id)
  | outerRings (area : Id)
  | noSubtype (reg : Id)
  | create (reg : Id)
  | noType (reg member : Id)
  | nested (reg : Id)
  | unsupported (reg : Id)
  deriving DecidableEq

/-- OsmFile.h 33. -/
def Target.id : Target → Id
  | .node i => i
  | .way i => i
  | .relation i => i

/-- getOrGetDummy, OsmHandlerLoad.cpp 379-387 -/
def getOrDummy {V : Type} (layer : AMap Id V) (id current : Id) : Ref × List LoadError :=
  if layer.has id then ({ id := id }, []) else ({ id := id, dummy := true }, [.missing current id])

/-- the body of a loop over a map: an element may yield a primitive that is emplaced in a layer, and errors; OsmHandlerLoad.cpp 89-210 -/
def collectStep {V W : Type} (idf : V → Id) (f : V → Option (Option W × List LoadError)) (s : AMap Id W × List LoadError)
    (e : Id × V) : Option (AMap Id W × List LoadError) := do
  let r ← f e.2
  return (match r.1 with
    | some w => s.1.emplace (idf e.2) w
    | none => s.1, s.2 ++ r.2)

/-- The loops of OsmHandlerLoad.cpp 89-210. -/
def collect {V W : Type} (idf : V → Id) (f : V → Option (Option W × List LoadError)) (l : AMap Id V) :
    Option (AMap Id W × List LoadError) :=
  l.foldlM (collectStep idf f) ([], [])

/-! ### points, linestrings and polygons -/

/-- the body of loadNodes; OsmHandlerLoad.cpp 89-97 -/
def loadNode (env : Env P D) (n : Node D) : Option (MPoint P) × List LoadError :=
  match env.forward n.lat n.lon n.ele with
  | some p => (some ⟨n.id, getAttributes n.attrs, p⟩, [])
  | none => (none, [.projection n.id])

/-- loadNodes, OsmHandlerLoad.cpp 89-98 -/
def loadNodes (env : Env P D) (nodes : AMap Id (Node D)) : Option (AMap Id (MPoint P) × List LoadError) :=
  collect (·.id) (fun n => some (loadNode env n)) nodes

/-- OsmHandlerLoad.cpp 114-116: whether a way is a polygon -/
def isArea (env : Env P D) (attrs : Attrs) : Bool :=
  match attrs.get "area" with
  | some v => (env.asBool v).getD false
  | none => false

/-- the body of loadWays, OsmHandlerLoad.cpp 100-121 -/
def loadWay (env : Env P D) (points : AMap Id (MPoint P)) (s : AMap Id MLine × AMap Id MPoly × List LoadError) (w : Way) :
    AMap Id MLine × AMap Id MPoly × List LoadError :=
  let refs := w.nodes.map fun n => getOrDummy points n w.id
  let pts := refs.map (·.1)
  let errs := s.2.2 ++ refs.flatMap (·.2)
  if pts.isEmpty then (s.1, s.2.1, errs ++ [.emptyWay w.id])
  else
    let attrs := getAttributes w.attrs
    if isArea env attrs then (s.1, s.2.1.emplace w.id ⟨w.id, attrs, pts⟩, errs)
    else (s.1.emplace w.id ⟨w.id, attrs, pts, false⟩, s.2.1, errs)

/-- loadWays, OsmHandlerLoad.cpp 99-122 -/
def loadWays (env : Env P D) (points : AMap Id (MPoint P)) (ways : AMap Id Way) : AMap Id MLine × AMap Id MPoly × List LoadError :=
  ways.foldl (fun s e => loadWay env points s e.2) ([], [], [])

/-! ### geometry -/

/-- the position of a point by its id; a made up point is at the origin; OsmHandlerLoad.cpp 39-41 -/
def posOf (env : Env P D) (points : AMap Id (MPoint P)) (i : Id) : P :=
  match points.get i with
  | some p => p.pos
  | none => env.origin

/-- the positions of a linestring; made up linestrings are empty; OsmHandlerLoad.cpp 39-41 -/
def positions (env : Env P D) (points : AMap Id (MPoint P)) (lines : AMap Id MLine) (r : Ref) : List P :=
  if r.dummy then []
  else match lines.get r.id with
    | some l =>
      let ps := l.pts.map fun p => posOf env points p.id
      if r.inv then ps.reverse else ps
    | none => []

/-- LineString.h 546, Lanelet.h 232. -/
def Ref.invert (r : Ref) : Ref := { r with inv := !r.inv }

/-- geometry::align, lanelet2_core/include/lanelet2_core/geometry/impl/LineString.h 808-829 -/
def align (env : Env P D) (points : AMap Id (MPoint P)) (lines : AMap Id MLine) (left right : Ref) : Ref × Ref :=
  let l := positions env points lines left
  let r := positions env points lines right
  if (l.length ≤ 1 ∧ r.length ≤ 1) ∨ r = [] ∨ l = [] then (left, right)
  else
    let left' := if env.rightOf l r = false ∧ l.length > 1 then left.invert else left
    let right' := if env.leftOf r (positions env points lines left') = false ∧ r.length > 1 then right.invert else right
    (left', right')

/-! ### lanelets -/

/-- isType, OsmHandlerLoad.cpp 223-227 -/
def isType (type : String) (r : Relation) : Bool := r.attrs.get "type" = some type

/-- forEachMember, OsmFile.h 89-96 -/
def membersWith (role : String) (r : Relation) : List (String × Option Target) := r.members.items.filter fun x => x.1 = role

/-- getLaneletBorder, OsmHandlerLoad.cpp 237-250 -/
def getLaneletBorder (lines : AMap Id MLine) (r : Relation) (role : String) : Option (Ref × List LoadError) :=
  match membersWith role r with
  | [(_, none)] => none
  | [(_, some (.way i))] => some (getOrDummy lines i r.id)
  | [(_, some _)] => some ({ id := r.id, dummy := true }, [.borderType r.id role])
  | _ => some ({ id := r.id, dummy := true }, [.borderCount r.id role])

/-- lines 143-148: the optional centerline. (A centerline with id 0 would not count as set, Lanelet.cpp 277.) -/
def getCenterline (lines : AMap Id MLine) (r : Relation) : Option (Option Ref × List LoadError) :=
  if (membersWith "centerline" r).isEmpty then some (none, [])
  else do
    let c ← getLaneletBorder lines r "centerline"
    return (some c.1, c.2)

/-- the body of loadLanelets, OsmHandlerLoad.cpp 131-150, without the regulatory elements -/
def loadLanelet (env : Env P D) (points : AMap Id (MPoint P)) (lines : AMap Id MLine) (r : Relation) :
    Option (Option MLanelet × List LoadError) :=
  if isType "lanelet" r then do
    let left ← getLaneletBorder lines r "left"
    let right ← getLaneletBorder lines r "right"
    let b := align env points lines left.1 right.1
    let center ← getCenterline lines r
    return (some ⟨r.id, getAttributes r.attrs, b.1, b.2, center.1, []⟩, left.2 ++ right.2 ++ center.2)
  else some (none, [])

/-! ### areas -/

/-- the loop of getLinestrings, OsmHandlerLoad.cpp 252-270 -/
def getLinestring (lines : AMap Id MLine) (area : Id) (s : List MLine × List LoadError) (x : String × Option Target) :
    Option (List MLine × List LoadError) :=
  match x.2 with
  | none => none
  | some (.way i) => match lines.get i with
    | some l => some (s.1 ++ [l], s.2)
    | none => some (s.1, s.2 ++ [.missing area i])
  | some t => some (s.1, s.2 ++ [.ringType area t.id])

/-- OsmHandlerLoad.cpp 252-270. -/
def getLinestrings (lines : AMap Id MLine) (r : Relation) (role : String) : Option (List MLine × List LoadError) :=
  (membersWith role r).foldlM (getLinestring lines r.id) ([], [])

/-- the handle that the ring assembly works with; OsmHandlerLoad.cpp 332 -/
def MLine.toLine (l : MLine) : Line := ⟨l.id, l.pts.map (·.id), l.inv⟩

/-- isValid, OsmHandlerLoad.cpp 26-29 -/
def ringValid (env : Env P D) (points : AMap Id (MPoint P)) (ring : List Line) : Bool :=
  env.valid (ring.flatMap fun l => l.view.map (posOf env points))

/-- A linestring as a reference. -/
def Line.toRef (l : Line) : Ref := { id := l.id, inv := l.inv }

/-- assembleBoundary with the errors it reports; OsmHandlerLoad.cpp 332-377 -/
def assemble (env : Env P D) (points : AMap Id (MPoint P)) (area : Id) (ls : List MLine) :
    Option (List (List Ref) × List LoadError) := do
  let r ← assembleBoundary (ringValid env points) (ls.map MLine.toLine)
  return (r.1.map fun ring => ring.map Line.toRef, r.2.map fun e => .ring area e)

/-- getOuterRing, OsmHandlerLoad.cpp 272-284; no ring if it is empty -/
def getOuterRing (env : Env P D) (points : AMap Id (MPoint P)) (lines : AMap Id MLine) (r : Relation) :
    Option (List Ref × List LoadError) := do
  let ls ← getLinestrings lines r "outer"
  if ls.1.isEmpty then return ([], ls.2 ++ [.noOuter r.id])
  else
    let rings ← assemble env points r.id ls.1
    match rings.1 with
    | [ring] => return (ring, ls.2 ++ rings.2)
    | _ => return ([], ls.2 ++ rings.2 ++ [.outerRings r.id])

/-- getInnerRing, OsmHandlerLoad.cpp 286-289 -/
def getInnerRings (env : Env P D) (points : AMap Id (MPoint P)) (lines : AMap Id MLine) (r : Relation) :
    Option (List (List Ref) × List LoadError) := do
  let ls ← getLinestrings lines r "inner"
  let rings ← assemble env points r.id ls.1
  return (rings.1, ls.2 ++ rings.2)

/-- the body of loadAreas, OsmHandlerLoad.cpp 163-178, without the regulatory elements -/
def loadArea (env : Env P D) (points : AMap Id (MPoint P)) (lines : AMap Id MLine) (r : Relation) :
    Option (Option MArea × List LoadError) :=
  if isType "multipolygon" r then do
    let outer ← getOuterRing env points lines r
    if outer.1.isEmpty then return (none, outer.2)
    else
      let inner ← getInnerRings env points lines r
      return (some ⟨r.id, getAttributes r.attrs, outer.1, inner.1, []⟩, outer.2 ++ inner.2)
  else some (none, [])

/-! ### regulatory elements -/

/-- the layers that regulatory elements refer to, and the relations of the file; OsmHandlerLoad.cpp 397-401 -/
structure Layers (P : Type) where
  relations : AMap Id Relation
  points : AMap Id (MPoint P)
  lines : AMap Id MLine
  polys : AMap Id MPoly
  lanelets : AMap Id MLanelet
  areas : AMap Id MArea

/-- the parameter for a member: OsmHandlerLoad.cpp 294-326. A made up lanelet or area expires at once, as the rule only holds a weak
reference. -/
def getParam (s : Layers P) (reg : Id) : Target → Option (Option Param × List LoadError)
  | .node i => let r := getOrDummy s.points i reg; some (some (.point r.1), r.2)
  | .way i =>
    if s.polys.has i then let r := getOrDummy s.polys i reg; some (some (.poly r.1), r.2)
    else let r := getOrDummy s.lines i reg; some (some (.line r.1), r.2)
  | .relation i => do
    let m ← s.relations.get i
    match m.attrs.get "type" with
    | none => return (none, [.noType reg i])
    | some type =>
      if type = "lanelet" then
        let r := getOrDummy s.lanelets i reg
        return (some (if r.1.dummy then .expired else .lanelet r.1), r.2)
      else if type = "multipolygon" then
        let r := getOrDummy s.areas i reg
        return (some (if r.1.dummy then .expired else .area r.1), r.2)
      else if type = "regulatory_element" then return (none, [.nested reg])
      else return (none, [.unsupported reg])

/-- `rules[role].emplace_back(param)`; OsmHandlerLoad.cpp 291-330 -/
def pushParam (params : AMap String (List Param)) (role : String) (p : Param) : AMap String (List Param) :=
  (params.emplace role []).modify role fun l => l ++ [p]

/-- the body of the loop of getRulesForRegulatoryElement; OsmHandlerLoad.cpp 291-330 -/
def getRule (s : Layers P) (reg : Id) (a : AMap String (List Param) × List LoadError) (x : String × Option Target) :
    Option (AMap String (List Param) × List LoadError) := do
  let t ← x.2
  let r ← getParam s reg t
  return (match r.1 with
    | some p => pushParam a.1 x.1 p
    | none => a.1, a.2 ++ r.2)

/-- getRulesForRegulatoryElement, OsmHandlerLoad.cpp 291-330 -/
def getRules (s : Layers P) (r : Relation) : Option (AMap String (List Param) × List LoadError) :=
  r.members.items.foldlM (getRule s r.id) ([], [])

/-- RegulatoryElementFactory::create, lanelet2_core/src/RegulatoryElement.cpp 114-125 -/
def factoryCreate (env : Env P D) (name : String) (data : MReg) : Option MReg :=
  let name := if name = "" then "regulatory_element" else name
  env.registry name { data with attrs := data.attrs.set "subtype" name }

/-- the body of loadRegulatoryElements, OsmHandlerLoad.cpp 188-209 -/
def loadReg (env : Env P D) (s : Layers P) (r : Relation) : Option (Option MReg × List LoadError) :=
  if isType "regulatory_element" r then
    let attrs := getAttributes r.attrs
    match attrs.get "subtype" with
    | none => some (none, [.noSubtype r.id])
    | some type => do
      let rules ← getRules s r
      match factoryCreate env type ⟨r.id, attrs, rules.1⟩ with
      | some reg => return (some reg, rules.2)
      | none => return (none, rules.2 ++ [.create r.id])
  else some (none, [])

/-- the loop body of addRegulatoryElements; `add` adds a regulatory element to the primitive; OsmHandlerLoad.cpp 213-221 -/
def addRegs {V : Type} (regs : AMap Id MReg) (add : V → Ref → V) (s : AMap Id V × List LoadError) (r : Relation) :
    Option (AMap Id V × List LoadError) :=
  (membersWith "regulatory_element" r).foldlM (fun s x => do
    let t ← x.2
    let d := getOrDummy regs t.id r.id
    return (s.1.modify r.id fun v => add v d.1, s.2 ++ d.2)) s

/-- addRegulatoryElements, OsmHandlerLoad.cpp 212-220, for the relations that have been loaded to the layer. (The code skips
those without regulatory elements, lines 152-154.) -/
def addRegulatoryElements {V : Type} (type : String) (regs : AMap Id MReg) (add : V → Ref → V) (relations : AMap Id Relation)
    (layer : AMap Id V) : Option (AMap Id V × List LoadError) :=
  (relations.filter fun e => isType type e.2 && layer.has e.2.id).foldlM (fun s e => addRegs regs add s e.2) (layer, [])

/-- loadMap, OsmHandlerLoad.cpp 61-75 -/
def loadMap (env : Env P D) (file : File D) : Option (LMap P × List LoadError) := do
  let points ← loadNodes env file.nodes
  let ways := loadWays env points.1 file.ways
  let lanelets ← collect (·.id) (loadLanelet env points.1 ways.1) file.relations
  let areas ← collect (·.id) (loadArea env points.1 ways.1) file.relations
  let regs ← collect (·.id) (loadReg env ⟨file.relations, points.1, ways.1, ways.2.1, lanelets.1, areas.1⟩) file.relations
  let lanelets' ← addRegulatoryElements "lanelet" regs.1 (fun l r => { l with regs := l.regs ++ [r] }) file.relations lanelets.1
  let areas' ← addRegulatoryElements "multipolygon" regs.1 (fun a r => { a with regs := a.regs ++ [r] }) file.relations areas.1
  return (⟨points.1, ways.1, ways.2.1, lanelets'.1, areas'.1, regs.1⟩,
    points.2 ++ ways.2.2 ++ lanelets.2 ++ areas.2 ++ regs.2 ++ lanelets'.2 ++ areas'.2)

end Verif.Osm
