import Verif.Osm.Map

/-!
Model of writing a map to an OSM file: lanelet2_io/src/OsmHandlerWrite.cpp, ToFileWriter. `P` are positions of the map, `D` is
double. Not modelled: the projector (a parameter) and the text of the error messages.
-/
namespace Verif.Osm
variable {P D : Type}

/-- writeError: what could not be written; OsmHandlerWrite.cpp 158-160 -/
inductive WriteError where
  | projection (point : Id)
  | way (id : Id)
  | param (reg member : Id)
  | expired (reg : Id)
  | member (relation member : Id)
  | unresolved (reg member : Id)
  deriving DecidableEq

/-- getAttributes, OsmHandlerWrite.cpp 162-168 -/
def getAttributes (a : Attrs) : Attrs := a.foldl (fun o e => o.emplace e.1 e.2) []

/-- the loop body of writeNodes; `reverse` is Projector::reverse, `none` if it throws; OsmHandlerWrite.cpp 76-86 -/
def writeNode (reverse : P → Option (D × D × D)) (s : AMap Id (Node D) × List WriteError) (p : MPoint P) :
    AMap Id (Node D) × List WriteError :=
  match reverse p.pos with
  | some g => (s.1.emplace p.id ⟨p.id, getAttributes p.attrs, g.1, g.2.1, g.2.2⟩, s.2)
  | none => (s.1, s.2 ++ [.projection p.id])

/-- writeNodes, OsmHandlerWrite.cpp 76-86 -/
def writeNodes (reverse : P → Option (D × D × D)) (m : LMap P) : AMap Id (Node D) × List WriteError :=
  m.points.foldl (fun s e => writeNode reverse s e.2) ([], [])

/-- writeOsmWay, OsmHandlerWrite.cpp 170-186, for the attributes including the area tag -/
def writeOsmWay (nodes : AMap Id (Node D)) (s : AMap Id Way × List WriteError) (id : Id) (attrs : Attrs) (pts : List Ref) :
    AMap Id Way × List WriteError :=
  if pts.all fun r => nodes.has r.id then (s.1.emplace id ⟨id, attrs, pts.map (·.id)⟩, s.2) else (s.1, s.2 ++ [.way id])

/-- OsmHandlerWrite.cpp 91-95: linestrings are written in the direction of their data -/
def writeLine (nodes : AMap Id (Node D)) (s : AMap Id Way × List WriteError) (l : MLine) : AMap Id Way × List WriteError :=
  writeOsmWay nodes s l.id (getAttributes l.attrs) (if l.inv then l.invert else l).view

/-- OsmHandlerWrite.cpp 97-99 and 174-176 -/
def writePoly (nodes : AMap Id (Node D)) (s : AMap Id Way × List WriteError) (p : MPoly) : AMap Id Way × List WriteError :=
  writeOsmWay nodes s p.id ((getAttributes p.attrs).emplace "area" "true") p.pts

/-- writeWays, OsmHandlerWrite.cpp 88-100 -/
def writeWays (nodes : AMap Id (Node D)) (m : LMap P) : AMap Id Way × List WriteError :=
  m.polys.foldl (fun s e => writePoly nodes s e.2) (m.lines.foldl (fun s e => writeLine nodes s e.2) ([], []))

/-- emplace_back to the members of a relation: a pointer, or a placeholder for a relation with a given id; OsmHandlerWrite.cpp 102-139, 190-248 -/
def pushM {E : Type} (s : RelState E) (id : Id) (role : String) : Target ⊕ Id → RelState E
  | .inl t => { s with relations := s.relations.modify id fun r => { r with members := r.members.push role (some t) } }
  | .inr ref =>
    let relations := s.relations.modify id fun r => { r with members := r.members.push role none }
    { s with
      relations := relations
      todo := s.todo ++ [⟨id, ref, backAddr relations id⟩] }

/-- OsmHandlerWrite.cpp 158-160. -/
def RelState.error {E : Type} (s : RelState E) (e : E) : RelState E := { s with errs := s.errs ++ [e] }

/-- WriteRegulatoryElementVisitor, OsmHandlerWrite.cpp 193-248 -/
def visit (nodes : AMap Id (Node D)) (ways : AMap Id Way) (id : Id) (role : String) (s : RelState WriteError) :
    Param → RelState WriteError
  | .point r => if nodes.has r.id then pushM s id role (.inl (.node r.id)) else s.error (.param id r.id)
  | .line r => if ways.has r.id then pushM s id role (.inl (.way r.id)) else s.error (.param id r.id)
  | .poly r => if ways.has r.id then pushM s id role (.inl (.way r.id)) else s.error (.param id r.id)
  | .lanelet r => pushM s id role (.inr r.id)
  | .area r => pushM s id role (.inr r.id)
  | .expired => s.error (.expired id)

/-- file_->relations.emplace(id, Relation(id, attributes)): keeps an existing relation with this id; OsmHandlerWrite.cpp 104, 122, 253 -/
def newRelation {E : Type} (s : RelState E) (id : Id) (attrs : Attrs) : RelState E :=
  { s with relations := s.relations.emplace id ⟨id, attrs, ⟨0, []⟩⟩ }

/-- the loop body of appendRegulatoryElements, OsmHandlerWrite.cpp 252-260, with RegulatoryElement::applyVisitor,
RegulatoryElement.cpp 146-153 -/
def appendReg (nodes : AMap Id (Node D)) (ways : AMap Id Way) (s : RelState WriteError) (r : MReg) : RelState WriteError :=
  r.params.foldl (fun s e => e.2.foldl (visit nodes ways r.id e.1) s)
    (newRelation s r.id ((getAttributes r.attrs).emplace "type" "regulatory_element"))

/-- tryInsertMembers, OsmHandlerWrite.cpp 264-272, for the ways -/
def insertWay (ways : AMap Id Way) (id : Id) (role : String) (s : RelState WriteError) (r : Ref) : RelState WriteError :=
  if ways.has r.id then pushM s id role (.inl (.way r.id)) else s.error (.member id r.id)

/-- tryInsertMembers, OsmHandlerWrite.cpp 264-272, for the relations -/
def insertRelation (id : Id) (role : String) (s : RelState WriteError) (r : Ref) : RelState WriteError :=
  if s.relations.has r.id then pushM s id role (.inl (.relation r.id)) else s.error (.member id r.id)

/-- the loop body of appendLanelets, OsmHandlerWrite.cpp 103-117 -/
def appendLanelet (ways : AMap Id Way) (s : RelState WriteError) (l : MLanelet) : RelState WriteError :=
  let s := newRelation s l.id ((getAttributes l.attrs).emplace "type" "lanelet")
  let s := insertWay ways l.id "left" s l.left
  let s := insertWay ways l.id "right" s l.right
  let s := l.center.toList.foldl (insertWay ways l.id "centerline") s
  l.regs.foldl (insertRelation l.id "regulatory_element") s

/-- the loop body of appendAreas, OsmHandlerWrite.cpp 121-138 -/
def appendArea (ways : AMap Id Way) (s : RelState WriteError) (a : MArea) : RelState WriteError :=
  let s := newRelation s a.id ((getAttributes a.attrs).emplace "type" "multipolygon")
  let s := a.outer.foldl (insertWay ways a.id "outer") s
  let s := a.inner.flatten.foldl (insertWay ways a.id "inner") s
  a.regs.foldl (insertRelation a.id "regulatory_element") s

/-- OsmHandlerWrite.cpp 63-65 -/
def appendAll (nodes : AMap Id (Node D)) (ways : AMap Id Way) (m : LMap P) : RelState WriteError :=
  let s := m.regs.foldl (fun s e => appendReg nodes ways s e.2) ⟨[], [], []⟩
  let s := m.lanelets.foldl (fun s e => appendLanelet ways s e.2) s
  m.areas.foldl (fun s e => appendArea ways s e.2) s

/-- writeMap, OsmHandlerWrite.cpp 55-70; resolveUnparsedMembers 141-155 is `resolveAll false`. `none`: undefined behaviour -/
def writeMap (reverse : P → Option (D × D × D)) (front : Nat → Nat → Bool) (m : LMap P) :
    Option (File D × List WriteError) := do
  let n := writeNodes reverse m
  let w := writeWays n.1 m
  let s := appendAll n.1 w.1 m
  let r ← resolveAll false front s.relations s.todo []
  return (⟨n.1, w.1, r.1⟩, n.2 ++ w.2 ++ s.errs ++ r.2.map fun e => .unresolved e.1 e.2)

end Verif.Osm
