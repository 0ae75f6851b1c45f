import Mathlib.Data.List.Sort
import Mathlib.Data.List.Destutter

/-!
Model of the regulatory elements: lanelet2_core/src/BasicRegulatoryElements.cpp,
lanelet2_core/include/lanelet2_core/primitives/RegulatoryElement.h, lanelet2_core/src/RegulatoryElement.cpp.

A primitive is the address of its data and the flag `inverted`. The parameters are a map from roles to lists; that the
HybridMap of the code behaves like a map for names and enum values is shown in Verif.HMap.
-/
namespace Verif.RegElem

/-- RoleName and other role strings, RegulatoryElement.h 55-86 -/
inductive Role where
  | refers | refLine | yield | rightOfWay | cancels | cancelLine
  | other (name : String)
  deriving DecidableEq

/-- A lanelet handle: address of the data and direction (Lanelet.h 221-300). -/
abbrev Lanelet := Nat × Bool
/-- A linestring handle: address of the data and direction (LineString.h 538-549). -/
abbrev Line := Nat × Bool

/-- RuleParameter, RegulatoryElement.h 90 -/
inductive Param where
  | point (d : Nat)
  | line (l : Line)
  | poly (p : Nat × Bool)
  | lanelet (l : Lanelet)
  | area (d : Nat)
  deriving DecidableEq

/-- RuleParameterMap, RegulatoryElement.h 127 -/
abbrev Params := Role → Option (List Param)

/-- what lives outside of the regulatory element; Lanelet.h 333 (weak references), Primitive.h 31-48 (attributes) -/
structure World where
  /-- the data of lanelets and areas that was destroyed: weak pointers to it are expired -/
  dead : Nat → Bool
  /-- the attributes of linestrings and polygons -/
  attr : Nat → String → Option String

/-- The exceptions of BasicRegulatoryElements.cpp, and undefined behaviour. -/
inductive Fault where
  | ub | invalidInput | outOfRange | noSuchAttribute
  deriving DecidableEq

/-- Assignment to one role. -/
def Params.set (ps : Params) (r : Role) (v : Option (List Param)) : Params := fun r' => if r' = r then v else ps r'

/-- `parameters()[role].emplace_back(p)`; BasicRegulatoryElements.cpp 194, 255-258, 307-340, 410-427 -/
def push (ps : Params) (r : Role) (p : Param) : Params := ps.set r (some ((ps r).getD [] ++ [p]))

/-- operator== of the variant: Lanelet.h 369-376, Area.h 327-331, LineString.h 713-716, Primitive.h 85. Expired objects are not equal to
anything. -/
def same (w : World) : Param → Param → Bool
  | .lanelet l, .lanelet l' => !w.dead l.1 && !w.dead l'.1 && decide (l = l')
  | .area d, .area d' => !w.dead d && !w.dead d' && decide (d = d')
  | p, q => decide (p = q)

/-- findAndErase, BasicRegulatoryElements.cpp 18-34 -/
def findAndErase (w : World) (x : Param) (ps : Params) (r : Role) : Params × Bool :=
  match ps r with
  | none => (ps, false)
  | some l =>
    match l.findIdx? fun p => same w p x with
    | none => (ps, false)
    | some i => (ps.set r (if (l.eraseIdx i).isEmpty then none else some (l.eraseIdx i)), true)

/-- getParameters<ConstLineString3d>(role), RegulatoryElement.h 214-221, 248-255 with utils::getVariant -/
def getLines (ps : Params) (r : Role) : List Line :=
  ((ps r).getD []).filterMap fun p => match p with | .line l => some l | _ => none

/-- getParameters<WeakLanelet>(role), RegulatoryElement.h 248-255 -/
def getWeakLanelets (ps : Params) (r : Role) : List Lanelet :=
  ((ps r).getD []).filterMap fun p => match p with | .lanelet l => some l | _ => none

/-- getParameters<ConstLanelet>(role), RegulatoryElement.h 469-476 with utils::strong -/
def getLanelets (w : World) (ps : Params) (r : Role) : List Lanelet := (getWeakLanelets ps r).filter fun l => !w.dead l.1

/-- a LineStringOrPolygon3d as a parameter; BasicRegulatoryElements.cpp 49-52 -/
def isLsOrPoly : Param → Bool
  | .line _ => true
  | .poly _ => true
  | _ => false

/-- getLsOrPoly, BasicRegulatoryElements.cpp 54-72 -/
def getLsOrPoly (ps : Params) (r : Role) : List Param := ((ps r).getD []).filter isLsOrPoly

/-! ### traffic light -/

/-- constructor of TrafficLight from data, BasicRegulatoryElements.cpp 168-175 -/
def trafficLightCheck (ps : Params) : Except Fault Unit :=
  if (getLsOrPoly ps .refers).isEmpty then .error .invalidInput
  else if 1 < (getLines ps .refLine).length then .error .invalidInput
  else .ok ()

/-- constructTrafficLightData, BasicRegulatoryElements.cpp 88-99, and the constructor 177-179 -/
def trafficLightMake (lights : List Param) (stopLine : Option Line) : Except Fault Params :=
  let ps : Params := fun r => if r = .refers then some lights else
    match stopLine with
    | some l => if r = .refLine then some [.line l] else none
    | none => none
  (trafficLightCheck ps).map fun _ => ps

/-- addTrafficLight, addTrafficSign: BasicRegulatoryElements.cpp 193-195, 306-308, 409-411 -/
def addRefers (ps : Params) (x : Param) : Params := push ps .refers x

/-- removeTrafficLight, removeTrafficSign: BasicRegulatoryElements.cpp 197-199, 310-312, 413-415 -/
def removeRefers (w : World) (ps : Params) (x : Param) : Params × Bool := findAndErase w x ps .refers

/-- stopLine() of traffic light and right of way, BasicRegulatoryElements.cpp 36-42, 181-185, 236-250 -/
def stopLine (ps : Params) : Option Line := (getLines ps .refLine).head?

/-- setStopLine, BasicRegulatoryElements.cpp 201, 252 -/
def setStopLine (ps : Params) (l : Line) : Params := ps.set .refLine (some [.line l])

/-- removeStopLine, BasicRegulatoryElements.cpp 203, 268 -/
def removeStopLine (ps : Params) : Params := ps.set .refLine (some [])

/-! ### right of way -/

/-- constructor of RightOfWay, BasicRegulatoryElements.cpp 205-212. Expired lanelets count. -/
def rightOfWayCheck (ps : Params) : Except Fault Unit :=
  if (getWeakLanelets ps .rightOfWay).isEmpty then .error .invalidInput
  else if (getWeakLanelets ps .yield).isEmpty then .error .invalidInput
  else .ok ()

/-- constructRightOfWayData, BasicRegulatoryElements.cpp 123-134, and the constructor 214-216 -/
def rightOfWayMake (right yld : List Lanelet) (stop : Option Line) : Except Fault Params :=
  let ps : Params := fun r =>
    if r = .rightOfWay then some (right.map .lanelet)
    else if r = .yield then some (yld.map .lanelet)
    else match stop with
      | some l => if r = .refLine then some [.line l] else none
      | none => none
  (rightOfWayCheck ps).map fun _ => ps

/-- BasicRegulatoryElements.h 78-82. -/
inductive Maneuver where
  | yield | rightOfWay | unknown
  deriving DecidableEq

/-- getManeuver, BasicRegulatoryElements.cpp 218-226 -/
def getManeuver (w : World) (ps : Params) (l : Lanelet) : Maneuver :=
  if l ∈ getLanelets w ps .rightOfWay then .rightOfWay
  else if l ∈ getLanelets w ps .yield then .yield
  else .unknown

/-- addRightOfWayLanelet, addYieldLanelet, BasicRegulatoryElements.cpp 254-258 -/
def addLaneletTo (ps : Params) (r : Role) (l : Lanelet) : Params := push ps r (.lanelet l)

/-- removeRightOfWayLanelet, removeYieldLanelet, BasicRegulatoryElements.cpp 260-266 -/
def removeLaneletFrom (w : World) (ps : Params) (r : Role) (l : Lanelet) : Params × Bool := findAndErase w (.lanelet l) ps r

/-! ### traffic sign -/

/-- Attribute.h: AttributeName::Subtype. -/
def subtypeKey : String := "subtype"
/-- Attribute.h: AttributeName::Type. -/
def typeKey : String := "type"
/-- AttributeNamesString::SignType, BasicRegulatoryElements.cpp 296-297. -/
def signTypeKey : String := "sign_type"

/-- the address of the data of a linestring or polygon; Primitive.h 70-191 -/
def Param.data : Param → Nat
  | .point d => d
  | .line l => l.1
  | .poly l => l.1
  | .lanelet l => l.1
  | .area d => d

/-- TrafficSign::type, BasicRegulatoryElements.cpp 286-300; `attrs` are the attributes of the regulatory element -/
def signType (w : World) (attrs : String → Option String) (ps : Params) : Except Fault String :=
  match getLsOrPoly ps .refers with
  | s :: _ =>
    match w.attr s.data subtypeKey with
    | some t => .ok t
    | none => .error .invalidInput
  | [] =>
    match attrs signTypeKey with
    | some t => .ok t
    | none => .error .invalidInput

/-- prim.setAttribute; Primitive.h 273-276 -/
def setAttr (w : World) (d : Nat) (k v : String) : World :=
  { w with attr := fun d' k' => if d' = d ∧ k' = k then some v else w.attr d' k' }

/-- updateTrafficSigns, BasicRegulatoryElements.cpp 79-86 -/
def updateSigns (w : World) (signs : List Param) (type : String) : World :=
  if type = "" then w else
  signs.foldl (fun w s => setAttr (setAttr w s.data typeKey "traffic_sign") s.data subtypeKey type) w

/-- constructTrafficSignData, BasicRegulatoryElements.cpp 100-114, and the constructors 270-278. The state of the primitives is returned even if
the constructor throws. -/
def trafficSignMake (w : World) (attrs : String → Option String) (signs : List Param) (type : String) (cancel : List Param) (cancelType : String)
    (refLines cancelLines : List Line) : World × Except Fault Params :=
  let w := updateSigns (updateSigns w signs type) cancel cancelType
  let ps : Params := fun r => match r with
    | .refers => some signs
    | .cancels => some cancel
    | .refLine => some (refLines.map .line)
    | .cancelLine => some (cancelLines.map .line)
    | _ => none
  (w, (signType w attrs ps).map fun _ => ps)

/-- addCancellingTrafficSign, BasicRegulatoryElements.cpp 336-341 -/
def addCancelling (w : World) (ps : Params) (signs : List Param) (type : String) : World × Params :=
  (updateSigns w signs type, signs.foldl (fun ps s => push ps .cancels s) ps)

/-- the loop of cancelTypes, BasicRegulatoryElements.cpp 357-359: attribute() throws if there is none -/
def subtypes (w : World) : List Param → Except Fault (List String)
  | [] => .ok []
  | s :: l => do
    let t ← match w.attr s.data subtypeKey with
      | some t => .ok t
      | none => .error .noSuchAttribute
    let ts ← subtypes w l
    return t :: ts

/-- cancelTypes, BasicRegulatoryElements.cpp 353-363; std::unique is destutter -/
def cancelTypes (w : World) (ps : Params) : Except Fault (List String) := do
  let ts ← subtypes w (getLsOrPoly ps .cancels)
  return (ts.insertionSort (· ≤ ·)).destutter (· ≠ ·)

/-! ### all way stop -/

/-- constructor of AllWayStop from data, BasicRegulatoryElements.cpp 453-467 -/
def allWayStopCheck (ps : Params) : Except Fault Unit :=
  let lines := ps .refLine
  if ((ps .rightOfWay).getD []).length ≠ 0 then .error .invalidInput
  else if (lines.getD []).isEmpty then .ok ()
  else match ps .yield with
    | none => .error .invalidInput
    | some y => if (lines.getD []).length ≠ y.length then .error .invalidInput else .ok ()

/-- constructAllWayStopData, BasicRegulatoryElements.cpp 135-152, and the constructor 449-451 -/
def allWayStopMake (es : List (Lanelet × Option Line)) (signs : List Param) : Except Fault Params :=
  let ps : Params := fun r => match r with
    | .yield => some (es.map fun e => .lanelet e.1)
    | .refLine => some (es.filterMap fun e => e.2.map .line)
    | .refers => some signs
    | _ => none
  (allWayStopCheck ps).map fun _ => ps

/-- AllWayStop::getStopLine, BasicRegulatoryElements.cpp 377-401 -/
def getStopLine (w : World) (ps : Params) (l : Lanelet) : Except Fault (Option Line) :=
  let sl := getLines ps .refLine
  if sl.isEmpty then .ok none else
  match (getLanelets w ps .yield).findIdx? fun x => decide (x = l) with
  | none => .ok none
  | some i =>
    match sl[i]? with
    | some s => .ok (some s)
    | none => .error .outOfRange

/-- AllWayStop::addLanelet, BasicRegulatoryElements.cpp 417-429 -/
def addStop (w : World) (ps : Params) (e : Lanelet × Option Line) : Except Fault Params :=
  let sl := getLines ps .refLine
  if sl.isEmpty && !(getLanelets w ps .yield).isEmpty && e.2.isSome then .error .invalidInput
  else if !sl.isEmpty && !e.2.isSome then .error .invalidInput
  else
    let ps := push ps .yield (.lanelet e.1)
    match e.2 with
    | some s => .ok (push ps .refLine (.line s))
    | none => .ok ps

/-- AllWayStop::removeLanelet, BasicRegulatoryElements.cpp 431-447; erasing behind the end is undefined behaviour -/
def removeStop (w : World) (ps : Params) (l : Lanelet) : Except Fault (Params × Bool) :=
  match ps .yield with
  | none => .ok (ps, false)
  | some y =>
    match y.findIdx? fun p => same w p (.lanelet l) with
    | none => .ok (ps, false)
    | some i =>
      match ps .refLine with
      | none => .ok (ps.set .yield (some (y.eraseIdx i)), true)
      | some lines =>
        if lines.isEmpty then .ok (ps.set .yield (some (y.eraseIdx i)), true)
        else if i < lines.length then .ok ((ps.set .refLine (some (lines.eraseIdx i))).set .yield (some (y.eraseIdx i)), true)
        else .error .ub

/-! ### all of them -/

/-- RegulatoryElementFactory::create, RegulatoryElement.cpp 114-125, with the registered classes of the core library. The check of speed limits is the one of
traffic signs. The subtype attribute is set in any case. -/
def create (w : World) (rule : String) (attrs : String → Option String) (ps : Params) : (String → Option String) × Except Fault Unit :=
  let rule := if rule = "" then "regulatory_element" else rule
  let attrs := fun k => if k = subtypeKey then some rule else attrs k
  (attrs,
    if rule = "regulatory_element" then .ok ()
    else if rule = "traffic_light" then trafficLightCheck ps
    else if rule = "right_of_way" then rightOfWayCheck ps
    else if rule = "traffic_sign" ∨ rule = "speed_limit" then (signType w attrs ps).map fun _ => ()
    else if rule = "all_way_stop" then allWayStopCheck ps
    else .error .invalidInput)

end Verif.RegElem
