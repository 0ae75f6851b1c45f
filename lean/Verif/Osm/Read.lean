import Verif.Osm.File

/-!
Model of reading an OSM document: lanelet2_io/src/OsmFile.cpp, OsmFileParser.
-/
namespace Verif.Osm

/-- reportParseError: the way or relation, and what is wrong; OsmFile.cpp 307-310 -/
inductive ReadError where
  | way (id : Id)
  | member (relation member : Id)
  | relation (relation member : Id)
  deriving DecidableEq

/-- tags, OsmFile.cpp 42-52 -/
def readTags (tags : List (String × String)) : Attrs :=
  tags.foldl (fun a t => if t.1 = "ele" then a else AMap.set a t.1 t.2) []

/-- as_double(0.) of an attribute that may be absent; `num` converts text -/
def asDouble {D : Type} (zero : D) (num : String → D) : Option String → D
  | none => zero
  | some s => num s

/-- readNodes, OsmFile.cpp 205-222 -/
def readNodes {D : Type} (zero : D) (num : String → D) (xs : List XNode) : AMap Id (Node D) :=
  xs.foldl (fun nodes x =>
    if x.deleted then nodes
    else nodes.set x.id ⟨x.id, readTags x.tags, asDouble zero num x.lat, asDouble zero num x.lon,
      asDouble zero num ((x.tags.find? fun t => t.1 = "ele").map (·.2))⟩) []

/-- readWays, OsmFile.cpp 224-250 -/
def readWays {D : Type} (nodes : AMap Id (Node D)) (xs : List XWay) : AMap Id Way × List ReadError :=
  xs.foldl (fun (ways, errs) x =>
    if x.deleted then (ways, errs)
    else
      let ok := x.refs.all fun r => nodes.has r
      (ways.set x.id ⟨x.id, readTags x.tags, if ok then x.refs else []⟩, if ok then errs else errs ++ [.way x.id])) ([], [])

/-- one member, OsmFile.cpp 268-286 -/
def readMember {D : Type} (nodes : AMap Id (Node D)) (ways : AMap Id Way) (id : Id) (s : RelState ReadError) (m : XMember) : RelState ReadError :=
  let push (t : Option Target) := s.relations.modify id fun r => { r with members := r.members.push m.role t }
  if m.type = "node" then
    if nodes.has m.ref then { s with relations := push (some (.node m.ref)) }
    else { s with errs := s.errs ++ [.member id m.ref] }
  else if m.type = "way" then
    if ways.has m.ref then { s with relations := push (some (.way m.ref)) }
    else { s with errs := s.errs ++ [.member id m.ref] }
  else if m.type = "relation" then
    let relations := push none
    { s with
      relations := relations
      todo := s.todo ++ [⟨id, m.ref, backAddr relations id⟩] }
  else s

/-- one relation, OsmFile.cpp 257-287; a new deque starts at address 0. The members of a second relation with the same id are
added to the first one. -/
def readRelation {D : Type} (nodes : AMap Id (Node D)) (ways : AMap Id Way) (s : RelState ReadError) (x : XRelation) : RelState ReadError :=
  if x.deleted then s
  else x.members.foldl (readMember nodes ways x.id)
    { s with relations := s.relations.emplace x.id ⟨x.id, readTags x.tags, ⟨0, []⟩⟩ }

/-- readRelations, OsmFile.cpp 252-304 -/
def readRelations {D : Type} (front : Nat → Nat → Bool) (nodes : AMap Id (Node D)) (ways : AMap Id Way) (xs : List XRelation) :
    Option (AMap Id Relation × List ReadError) := do
  let s := xs.foldl (readRelation nodes ways) ⟨[], [], []⟩
  let (relations, missing) ← resolveAll true front s.relations s.todo []
  return (relations, s.errs ++ missing.map fun m => .relation m.1 m.2)

/-- read, OsmFile.cpp 191-202 -/
def read {D : Type} (zero : D) (num : String → D) (front : Nat → Nat → Bool) (doc : Doc) : Option (File D × List ReadError) := do
  let nodes := readNodes zero num doc.nodes
  let (ways, e1) := readWays nodes doc.ways
  let (relations, e2) ← readRelations front nodes ways doc.relations
  return (⟨nodes, ways, relations⟩, e1 ++ e2)

end Verif.Osm
