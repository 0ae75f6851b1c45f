import Mathlib.Data.List.Basic

/-!
Model of the binary format.

Source: lanelet2_io/include/lanelet2_io/io_handlers/Serialize.h and lanelet2_io/src/BinHandler.cpp, with the tracking of pointers of boost::archive.

The memory is a list of objects, a pointer is an index into it. The archive is a list of tokens instead of bytes; attribute maps are one token. Every tracked
object gets the next number when it is saved for the first time, and only the number is written when it is saved again. A regulatory element and its
data are one object.
-/
namespace Verif.Bin

/-- Addresses: the identity of objects for the tracking of boost::serialization (shared_ptr members in Serialize.h 113-125, 177-190, 402-428). -/
abbrev Addr := Nat
/-- AttributeMap, Serialize.h 53-61: the text of every attribute. -/
abbrev Attrs := List (String × String)

/-- a handle of a linestring or polygon: inverted, pointer; A linestring or polygon handle, Serialize.h 177-204: address of the data and direction. -/
abbrev LsH := Bool × Addr

/-- RuleParameter, RegulatoryElement.h 90; a weak pointer that expired is `none` -/
inductive Param where
  | pt (a : Addr)
  | ls (h : LsH)
  | poly (h : LsH)
  | ll (inv : Bool) (a : Option Addr)
  | ar (a : Option Addr)
  deriving DecidableEq

/-- LaneletData, Serialize.h 78-111. -/
structure LlD where
  id : Int
  attrs : Attrs
  left : LsH
  right : LsH
  regs : List (Option Addr)
  center : Option LsH
  deriving DecidableEq

/-- AreaData, Serialize.h 275-295. -/
structure ArD where
  id : Int
  attrs : Attrs
  inner : List (List LsH)
  outer : List LsH
  regs : List (Option Addr)
  deriving DecidableEq

/-- RegulatoryElementData, Serialize.h 387-412. -/
structure ReD where
  id : Int
  attrs : Attrs
  params : List (String × List Param)
  deriving DecidableEq

/-- an object in memory; the coordinates of a point are bit patterns; The objects that are tracked by address: the data classes of Serialize.h 78, 161, 233, 275 and 402. -/
inductive Obj where
  | pt (id : Int) (attrs : Attrs) (x y z : Int)
  | ls (id : Int) (attrs : Attrs) (points : List Addr)
  | ll (d : LlD)
  | ar (d : ArD)
  | re (d : ReD)
  deriving DecidableEq

/-- the layers of a map; a lanelet is a handle with its direction; The layers of a map in the order of Serialize.h 440-456. -/
structure Layers where
  pts : List Addr
  lss : List LsH
  polys : List LsH
  ars : List Addr
  lls : List (Bool × Addr)
  res : List Addr
  deriving DecidableEq

/-- The elements of an archive: what `ar &` writes in Serialize.h. -/
inductive Tok where
  | num (n : Int)
  | size (n : Nat)
  | flag (b : Bool)
  | str (s : String)
  | attrs (a : Attrs)
  | oid (n : Nat)
  deriving DecidableEq

/-- `ub`: a null pointer or a pointer to a wrong object is used; `expired`: LaneletError; `archive`: archive_exception; `invalid`: InvalidInputError; How saving and loading can fail: an exception of boost::archive, NullptrError of lock() (Serialize.h 141-154), or undefined behaviour. -/
inductive Fault where
  | ub | expired | archive | invalid
  deriving DecidableEq

/-- The monad of saving, Serialize.h 440-456; `none` if it does not end. -/
abbrev M := ExceptT Fault Option

/-! ### saving -/

/-- the archive: what was written, the tracked objects, and RegelemSerialization (Serialize.h 337-348) -/
structure SaveSt where
  out : List Tok := []
  table : List Addr := []
  ids : List Int := []

/-- The state of an archive while saving, Serialize.h 440-456. -/
abbrev S := StateT SaveSt M

/-- `ar << x`, as in Serialize.h 41-51. -/
def emit (t : Tok) : S Unit := modify fun s => { s with out := s.out ++ [t] }

/-- save of a tracked pointer: the number, and the content if the object is new (boost basic_oarchive_impl::save_pointer); boost::serialization's tracking: writes the number of an object, and its content if it is new (for the shared_ptr members, as in Serialize.h 113-118). -/
def track (a : Addr) : S Bool := do
  let s ← get
  if a ∈ s.table then
    emit (.oid (s.table.idxOf a))
    return false
  else
    emit (.oid s.table.length)
    modify fun s => { s with table := s.table ++ [a] }
    return true

/-- Point3d, Serialize.h 249-252, and PointData, 233-235 -/
def savePt (H : List Obj) (a : Addr) : S Unit := do
  if ← track a then
    match H[a]? with
    | some (.pt id attrs x y z) => do emit (.num id); emit (.attrs attrs); emit (.num x); emit (.num y); emit (.num z)
    | _ => throw .ub

/-- LineStringData, Serialize.h 161-164 -/
def saveLsData (H : List Obj) (a : Addr) : S Unit := do
  if ← track a then
    match H[a]? with
    | some (.ls id attrs points) => do
      emit (.num id); emit (.attrs attrs); emit (.size points.length)
      points.forM (savePt H)
    | _ => throw .ub

/-- LineString3d, Serialize.h 178-182, and Polygon3d, 192-196 -/
def saveLs (H : List Obj) (h : LsH) : S Unit := do
  emit (.flag h.1)
  saveLsData H h.2

/-- Serialize.h 275-282: the loops over the bounds of an area, with LineString3d 177-190. -/
def saveLss (H : List Obj) (l : List LsH) : S Unit := do
  emit (.size l.length)
  l.forM (saveLs H)

/-- the recursive calls; Which function of Serialize.h is called (the functions are mutually recursive: 78-90, 275-282, 337-348, 387-412). -/
inductive Job where
  | ll (a : Addr) | ar (a : Addr) | re (a : Addr)

/-- Serialize.h 18-26, 78-90, 113-118, 141-148, 275-282, 337-348, 387-412, by what is to be saved. -/
def saveRec (H : List Obj) (j : Job) : S Unit := do
  match j with
  | .ll a => -- LaneletData, 78-90
    if ← track a then
      match H[a]? with
      | some (.ll d) => do
        emit (.num d.id); emit (.attrs d.attrs)
        saveLs H d.left
        saveLs H d.right
        emit (.size d.regs.length)
        d.regs.forM fun r => match r with
          | some r => saveRec H (.re r)
          | none => throw .ub
        emit (.flag d.center.isSome)
        match d.center with
        | some c => saveLs H c
        | none => pure ()
      | _ => throw .ub
  | .ar a => -- AreaData, 275-282
    if ← track a then
      match H[a]? with
      | some (.ar d) => do
        emit (.num d.id); emit (.attrs d.attrs)
        emit (.size d.inner.length)
        d.inner.forM (saveLss H)
        saveLss H d.outer
        emit (.size d.regs.length)
        d.regs.forM fun r => match r with
          | some r => saveRec H (.re r)
          | none => throw .ub
      | _ => throw .ub
  | .re a => -- RegulatoryElementPtr, 403-412, and RegulatoryElementData, 387-389
    match H[a]? with
    | some (.re d) => do
      emit (.num d.id)
      if d.id ∈ (← get).ids then return ()
      else
        modify fun s => { s with ids := s.ids ++ [d.id] }
        if ← track a then
          emit (.num d.id); emit (.attrs d.attrs)
          emit (.size d.params.length)
          d.params.forM fun x => do
            emit (.str x.1)
            emit (.size x.2.length)
            x.2.forM fun p => match p with
              | .pt a => do emit (.size 0); savePt H a
              | .ls h => do emit (.size 1); saveLs H h
              | .poly h => do emit (.size 2); saveLs H h
              | .ll inv (some a) => do emit (.size 3); emit (.flag inv); saveRec H (.ll a)
              | .ar (some a) => do emit (.size 4); saveRec H (.ar a)
              | _ => throw .expired
    | _ => throw .ub
partial_fixpoint

/-- save of a map, Serialize.h 441-456. The order of a layer is the one of its iteration. -/
def saveMap (H : List Obj) (m : Layers) : S Unit := do
  emit (.size m.pts.length)
  m.pts.forM (savePt H)
  emit (.size m.lss.length)
  m.lss.forM (saveLs H)
  emit (.size m.polys.length)
  m.polys.forM (saveLs H)
  emit (.size m.ars.length)
  m.ars.forM fun a => saveRec H (.ar a)
  emit (.size m.lls.length)
  m.lls.forM fun l => do emit (.flag l.1); saveRec H (.ll l.2)
  emit (.size m.res.length)
  m.res.forM fun a => saveRec H (.re a)

/-! ### loading -/

/-- a pointer that a regulatory element is loaded to: the variable in the loop over the layer, or an element of a vector in an object; boost::serialization's table of loaded objects: not yet complete, or complete. -/
abbrev Slot := Option (Addr × Nat)

/-- the archive: what is still to be read, the objects (`none`: allocated, but not yet constructed), the variable in the loop over the layer, and
RegelemDeserialization (Serialize.h 349-381): the ids with an entry, their results and the pointers that wait for it -/
structure LoadSt where
  inp : List Tok
  objs : List (Option Obj) := []
  top : Option Addr := none
  entered : List Int := []
  done : Int → Option Addr := fun _ => none
  waiting : Int → List Slot := fun _ => []

/-- The monad of loading, Serialize.h 458-483. -/
abbrev L := StateT LoadSt M

/-- `ar >> x`: takes the next element of the archive; an archive that ends is an exception. -/
def next : L Tok := do
  match (← get).inp with
  | t :: l => do
    modify fun s => { s with inp := l }
    return t
  | [] => throw .archive

/-- `ar >> id`, as in Serialize.h 94-111. -/
def getNum : L Int := do
  match ← next with
  | .num n => return n
  | _ => throw .archive

/-- `ar >> size`, as in Serialize.h 27-35. -/
def getSize : L Nat := do
  match ← next with
  | .size n => return n
  | _ => throw .archive

/-- `ar >> flag`, as in Serialize.h 119-125. -/
def getFlag : L Bool := do
  match ← next with
  | .flag b => return b
  | _ => throw .archive

/-- `ar >> string`, as in Serialize.h 41-51. -/
def getStr : L String := do
  match ← next with
  | .str s => return s
  | _ => throw .archive

/-- Serialize.h 53-61, loading. -/
def getAttrs : L Attrs := do
  match ← next with
  | .attrs a => return a
  | _ => throw .archive

/-- load of a tracked pointer: a known number is the object, otherwise memory is allocated (boost basic_iarchive_impl::load_pointer); boost::serialization's tracking while loading: a new number is followed by the object. -/
def enter : L (Addr × Bool) := do
  match ← next with
  | .oid n => do
    let s ← get
    if n < s.objs.length then return (n, false)
    else
      modify fun s => { s with objs := s.objs ++ [none] }
      return (s.objs.length, true)
  | _ => throw .archive

/-- an object is constructed in its memory; The loaded object replaces the slot with its number. -/
def put (a : Addr) (o : Obj) : L Unit := modify fun s => { s with objs := s.objs.set a (some o) }

/-- PointData, Serialize.h 239-246 -/
def loadPt : L Addr := do
  let (a, new) ← enter
  if new then
    let id ← getNum
    let attrs ← getAttrs
    let x ← getNum
    let y ← getNum
    let z ← getNum
    put a (.pt id attrs x y z)
  return a

/-- LineStringData, Serialize.h 168-175 -/
def loadLsData : L Addr := do
  let (a, new) ← enter
  if new then
    let id ← getNum
    let attrs ← getAttrs
    let n ← getSize
    let points ← (List.range n).mapM fun _ => loadPt
    put a (.ls id attrs points)
  return a

/-- LineString3d, Serialize.h 184-190, and Polygon3d, 198-204 -/
def loadLs : L LsH := do
  let inv ← getFlag
  let a ← loadLsData
  return (inv, a)

/-- Serialize.h 286-295: the loops over the bounds of an area, with LineString3d 177-190. -/
def loadLss : L (List LsH) := do
  let n ← getSize
  (List.range n).mapM fun _ => loadLs

/-- assignment to an element of the vector of regulatory elements; Adding a regulatory element to a lanelet or area, Serialize.h 27-35. -/
def Obj.setReg (j : Nat) (v : Addr) : Obj → Obj
  | .ll d => .ll { d with regs := d.regs.set j (some v) }
  | .ar d => .ar { d with regs := d.regs.set j (some v) }
  | o => o

/-- Assignment to one entry of the table of loaded objects. -/
def LoadSt.setSlot (s : LoadSt) (σ : Slot) (v : Addr) : LoadSt :=
  match σ with
  | none => { s with top := some v }
  | some (a, j) => { s with objs := s.objs.modify a (Option.map (Obj.setReg j v)) }

/-- setCenterline in Serialize.h 106-110 -/
def LoadSt.setCenter (s : LoadSt) (a : Addr) (c : LsH) : LoadSt :=
  { s with objs := s.objs.modify a (Option.map fun o => match o with | .ll d => .ll { d with center := some c } | o => o) }

/-- the first branch for a known id in currentlyDeserializing, Serialize.h 362-364 -/
def LoadSt.wait (s : LoadSt) (id : Int) (σ : Slot) : LoadSt := { s with waiting := Function.update s.waiting id (s.waiting id ++ [σ]) }

/-- deserializationDone, Serialize.h 371-377 -/
def LoadSt.finish (s : LoadSt) (id : Int) (v : Addr) : LoadSt :=
  let s' := (s.waiting id).foldl (fun s σ => s.setSlot σ v) s
  { s' with done := Function.update s'.done id (some v) }

/-- The loaded object with a number. -/
def lookup (k : String) : Attrs → Option String
  | [] => none
  | (k', v) :: l => if k' = k then some v else lookup k l

/-- assignment to an attribute; `attributes[key] = value`, Serialize.h 53-61. -/
def setAttr (k v : String) : Attrs → Attrs
  | [] => [(k, v)]
  | (k', v') :: l => if k' = k then (k, v) :: l else (k', v') :: setAttr k v l

/-- RegulatoryElementFactory::create, RegulatoryElement.cpp 114-125: the name and the data that is passed to the constructor -/
def created (d : ReD) : String × ReD :=
  let subtype := (lookup "subtype" d.attrs).getD ""
  let name := if subtype = "" then "regulatory_element" else subtype
  (name, { d with attrs := setAttr "subtype" name d.attrs })

/-- Which function of Serialize.h is called while loading (94-111, 286-295, 349-381, 414-428). -/
inductive LJob where
  | ll | ar | re (σ : Slot)

/-- `accepts`: there is a class with this name and its constructor does not throw. The value of `re` is not used. Serialize.h 27-35, 94-111, 119-125, 149-154, 286-295, 349-381, 414-428, by what is to be loaded. -/
def loadRec (accepts : String → ReD → Bool) (j : LJob) : L Addr := do
  match j with
  | .ll => do -- LaneletData, 94-111
    let (a, new) ← enter
    if new then
      let id ← getNum
      let attrs ← getAttrs
      let left ← loadLs
      let right ← loadLs
      let n ← getSize
      put a (.ll { id := id, attrs := attrs, left := left, right := right, regs := List.replicate n none, center := none })
      (List.range n).forM fun j => do let _ ← loadRec accepts (.re (some (a, j)))
      if ← getFlag then
        let c ← loadLs
        modify fun s => s.setCenter a c
    return a
  | .ar => do -- AreaData, 286-295
    let (a, new) ← enter
    if new then
      let id ← getNum
      let attrs ← getAttrs
      let n ← getSize
      let inner ← (List.range n).mapM fun _ => loadLss
      let outer ← loadLss
      let n ← getSize
      put a (.ar { id := id, attrs := attrs, inner := inner, outer := outer, regs := List.replicate n none })
      (List.range n).forM fun j => do let _ ← loadRec accepts (.re (some (a, j)))
    return a
  | .re σ => do -- RegulatoryElementPtr, 415-428, and RegulatoryElementData, 393-400
    let id ← getNum
    let s ← get
    if id ∈ s.entered then
      match s.done id with
      | some v => modify fun s => s.setSlot σ v
      | none => modify fun s => s.wait id σ
      return 0
    else
      modify fun s => { s with entered := s.entered ++ [id] }
      let (a, new) ← enter
      if new then
        let id ← getNum
        let attrs ← getAttrs
        let n ← getSize
        let params ← (List.range n).mapM fun _ => do
          let role ← getStr
          let k ← getSize
          let ps ← (List.range k).mapM fun _ => do
            match ← getSize with
            | 0 => do let a ← loadPt; return Param.pt a
            | 1 => do let h ← loadLs; return Param.ls h
            | 2 => do let h ← loadLs; return Param.poly h
            | 3 => do let inv ← getFlag; let a ← loadRec accepts .ll; return Param.ll inv (some a)
            | 4 => do let a ← loadRec accepts .ar; return Param.ar (some a)
            | _ => throw .archive
          return (role, ps)
        put a (.re { id := id, attrs := attrs, params := params })
      match (← get).objs[a]? with
      | some (some (.re d)) => do
        if accepts (created d).1 (created d).2 then
          if d.id ∈ (← get).entered then
            put a (.re (created d).2)
            modify fun s => s.setSlot σ a
            modify fun s => s.finish d.id a
          else throw .ub
        else throw .invalid
      | _ => throw .ub
      return 0
partial_fixpoint

/-- utils::getId of a primitive; The id of a loaded object, for the layers of the map (Serialize.h 458-483). -/
def LoadSt.idOf (s : LoadSt) (a : Addr) : Option Int :=
  match s.objs[a]? with
  | some (some (.pt id ..)) => some id
  | some (some (.ls id ..)) => some id
  | some (some (.ll d)) => some d.id
  | some (some (.ar d)) => some d.id
  | some (some (.re d)) => some d.id
  | _ => none

/-- loadLayer, Serialize.h 460-469: an element with an id that is already there is not inserted -/
def loadLayer {α : Type} (elem : L (α × Addr)) : L (List α) := do
  let n ← getSize
  let l ← (List.range n).foldlM (fun (acc : List (Int × α)) _ => do
    let (p, a) ← elem
    match (← get).idOf a with
    | some id => return if id ∈ acc.map (·.1) then acc else acc ++ [(id, p)]
    | none => throw .ub) []
  return l.map (·.2)

/-- load of a map, Serialize.h 459-483 -/
def loadMap (accepts : String → ReD → Bool) : L Layers := do
  let pts ← loadLayer do let a ← loadPt; return (a, a)
  let lss ← loadLayer do let h ← loadLs; return (h, h.2)
  let polys ← loadLayer do let h ← loadLs; return (h, h.2)
  let ars ← loadLayer do let a ← loadRec accepts .ar; return (a, a)
  let lls ← loadLayer do
    let inv ← getFlag
    let a ← loadRec accepts .ll
    return ((inv, a), a)
  let res ← loadLayer do
    modify fun s => { s with top := none }
    let _ ← loadRec accepts (.re none)
    match (← get).top with
    | some a => return (a, a)
    | none => throw .ub
  return { pts := pts, lss := lss, polys := polys, ars := ars, lls := lls, res := res }

/-- when the archive is destroyed, only the layers of the map own lanelets and areas; The end of loading (Serialize.h 458-483): objects that nothing but weak references refer to are destroyed. -/
def release (m : Layers) : Obj → Obj
  | .re d => .re { d with params := d.params.map fun x => (x.1, x.2.map fun p => match p with
      | .ll inv (some a) => .ll inv (if a ∈ m.lls.map (·.2) then some a else none)
      | .ar (some a) => .ar (if a ∈ m.ars then some a else none)
      | p => p) }
  | o => o

/-- BinWriter::write, BinHandler.cpp 21-30, without the id counter -/
def write (H : List Obj) (m : Layers) : M (List Tok) := do
  let (_, s) ← saveMap H m {}
  return s.out

/-- BinParser::parse, BinHandler.cpp 32-44, without the id counter -/
def parse (accepts : String → ReD → Bool) (inp : List Tok) : M (List (Option Obj) × Layers) := do
  let (m, s) ← loadMap accepts { inp := inp }
  return (s.objs.map (Option.map (release m)), m)

end Verif.Bin
