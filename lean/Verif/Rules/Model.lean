import Verif.Lanelet.Model

/-!
Model of the traffic rules: lanelet2_traffic_rules/src/GenericTrafficRules.cpp, GermanTrafficRules.{h,cpp} and
TrafficRulesFactory.{h,cpp}.

Strings are lists of characters. An attribute map is the list of its entries in map order. How an attribute value converts
to bool or to a velocity is a parameter (`asBool`, `asVel`): by C10 it depends on the string only. Velocities are of any
type `V`. Lanelets, areas and linestrings are those of `Verif.Lanelet`.
-/
namespace Verif.Rules
open Verif.LineStr Verif.Lanelet

/-- std::string. -/
abbrev Str := List Char

/-- AttributeMap in the order of the map; Attribute.h: AttributeMap -/
abbrev Attrs := List (Str × Str)

variable {P V : Type}

/-- Literals of the code as strings. -/
def key (s : String) : Str := s.toList

/-- The geometric tests and the dynamic rules that GenericTrafficRules.cpp 127-325 calls. -/
structure Env (P V : Type) where
  w : World P
  lsAttr : Nat → Attrs
  llAttr : Nat → Attrs
  arAttr : Nat → Attrs
  asBool : Str → Option Bool
  asVel : Str → Option V

/-- SpeedLimitInformation, TrafficRules.h 8-11 -/
structure Limit (V : Type) where
  speed : V
  mandatory : Bool
  deriving DecidableEq

/-- CountrySpeedLimits, GenericTrafficRules.h 11-19 -/
structure CountryLimits (V : Type) where
  urbanRoad : Limit V
  nonurbanRoad : Limit V
  urbanHighway : Limit V
  nonurbanHighway : Limit V
  playStreet : Limit V
  pedestrian : Limit V
  bicycle : Limit V

/-- a rules object: participant, what the virtual functions of the derived class return (`byRule`: canPass(regelems),
`regLimit`: speedLimit(regelems), `areas`: false if canPass(area) is overridden to return false as in GermanVehicle,
GermanTrafficRules.h 16), `zero`: the velocity 0 -/
structure Rules (V : Type) where
  participant : Str
  byRule : List Nat → Option Bool
  regLimit : List Nat → Option (Limit V)
  areas : Bool
  limits : CountryLimits V
  zero : V

/-- startswith, GenericTrafficRules.cpp 26-28 -/
def startswith (s sub : Str) : Bool := sub.isPrefixOf s

/-- AttributeMap::find; GenericTrafficRules.cpp 82-116 -/
def find (a : Attrs) (k : Str) : Option Str := (a.find? fun e => e.1 == k).map (·.2)

/-- ConstPrimitive::attributeOr with string and bool results, Primitive.h 142-175 -/
def attrStr (a : Attrs) (k : Str) (d : Str) : Str := (find a k).getD d
/-- Primitive.h 142-175 (attributeOr with a bool). -/
def attrBool (asBool : Str → Option Bool) (a : Attrs) (k : Str) (d : Bool) : Bool := ((find a k).bind asBool).getD d

/-- hasOverride, GenericTrafficRules.cpp 82-84 -/
def hasOverride (a : Attrs) (pre : Str) : Bool := a.any fun e => startswith e.1 pre

/-- getOverride, GenericTrafficRules.cpp 86-100 -/
def getOverride {T : Type} (as : Str → Option T) (a : Attrs) (pre override : Str) (d : T) : T :=
  match a.find? fun e => if e.1.length < pre.length then false else startswith override e.1 with
  | none => d
  | some e => (as e.2).getD d

/-- LaneChangeType, GenericTrafficRules.h 10. -/
inductive Change where
  | toRight | toLeft | both | none
  deriving DecidableEq

/-- GenericTrafficRules.cpp 14-15 -/
def canChangeToLeft (t : Change) : Bool := t == .both || t == .toLeft
/-- GenericTrafficRules.cpp 15. -/
def canChangeToRight (t : Change) : Bool := t == .both || t == .toRight

/-- VehicleChangeType, GenericTrafficRules.cpp 32-38 -/
def vehicleChange : List ((Str × Str) × Change) :=
  [((key "line_thin", key "dashed"), .both), ((key "line_thick", key "dashed"), .both),
   ((key "line_thin", key "dashed_solid"), .toRight), ((key "line_thick", key "dashed_solid"), .toRight),
   ((key "line_thin", key "solid_dashed"), .toLeft), ((key "line_thick", key "solid_dashed"), .toLeft)]

/-- PedestrianChangeType, GenericTrafficRules.cpp 39-40 -/
def pedestrianChange : List ((Str × Str) × Change) := [((key "curbstone", key "low"), .both)]

/-- getMapOrDefault, GenericTrafficRules.cpp 17-24 -/
def mapOr {K T : Type} [DecidableEq K] (m : List (K × T)) (k : K) (d : T) : T :=
  ((m.find? fun e => e.1 == k).map (·.2)).getD d

/-- getChangeType, GenericTrafficRules.cpp 30-56 -/
def getChangeType (type subtype participant : Str) : Change :=
  if startswith participant (key "vehicle") then mapOr vehicleChange (type, subtype) .none
  else if participant = key "pedestrian" then mapOr pedestrianChange (type, subtype) .none
  else if participant = key "bicycle" then
    let asVehicle := mapOr vehicleChange (type, subtype) .none
    if asVehicle ≠ .none then asVehicle else mapOr pedestrianChange (type, subtype) .none
  else .none

/-- getHardcodedChangeType, GenericTrafficRules.cpp 58-80 -/
def getHardcoded (asBool : Str → Option Bool) (a : Attrs) : Option Change :=
  if (find a (key "lane_change")).isSome then
    if attrBool asBool a (key "lane_change") false then some .both else some .none
  else if (find a (key "lane_change:left")).isSome && attrBool asBool a (key "lane_change:left") false then
    if attrBool asBool a (key "lane_change:right") false then some .both else some .toLeft
  else if (find a (key "lane_change:right")).isSome then
    if attrBool asBool a (key "lane_change:right") false then some .toRight else some .none
  else none

/-- laneChangeType, GenericTrafficRules.cpp 161-185 -/
def laneChangeType (e : Env P V) (r : Rules V) (b : LS) (virtualIsPassable : Bool) : Change :=
  let a := e.lsAttr b.data
  let type := attrStr a (key "type") []
  if (getHardcoded e.asBool a).isNone && virtualIsPassable && type == key "virtual" then .both
  else
    let t := match getHardcoded e.asBool a with
      | some t => t
      | none => getChangeType type (attrStr a (key "subtype") []) r.participant
    if b.inv then (if t = .toLeft then .toRight else if t = .toRight then .toLeft else t) else t

/-- isDrivingDir, GenericTrafficRules.cpp 102-115 -/
def isDrivingDir (e : Env P V) (h : LH) (participant : Str) : Bool :=
  if !h.inv then true
  else match (find (e.llAttr h.data) (key "one_way")).bind e.asBool with
    | some b => !b
    | none =>
      if hasOverride (e.llAttr h.data) (key "one_way") then
        !getOverride e.asBool (e.llAttr h.data) (key "one_way") (key "one_way" ++ (key ":" ++ participant)) true
      else participant == key "pedestrian"

/-- ParticipantMap, GenericTrafficRules.cpp 330-341 -/
def participantMap : List (Str × List Str) :=
  [([], [key "vehicle"]), (key "road", [key "vehicle", key "bicycle"]), (key "highway", [key "vehicle"]),
   (key "bicycle_lane", [key "bicycle"]), (key "play_street", [key "pedestrian", key "bicycle", key "vehicle"]),
   (key "emergency_lane", [key "vehicle:emergency"]), (key "exit", [key "pedestrian", key "bicycle", key "vehicle"]),
   (key "walkway", [key "pedestrian"]), (key "crosswalk", [key "pedestrian"]), (key "stairs", [key "pedestrian"]),
   (key "shared_walkway", [key "pedestrian", key "bicycle"])]

/-- canPass(type, location), GenericTrafficRules.cpp 327-348 -/
def canPassType (type participant : Str) : Option Bool :=
  ((participantMap.find? fun e => e.1 == type).map (·.2)).map fun l => l.any fun p => startswith participant p

/-- what lanelets and areas have in common, GenericTrafficRules.cpp 137-146 and 150-158 -/
def canPassPrim (asBool : Str → Option Bool) (r : Rules V) (regs : List Nat) (a : Attrs) : Bool :=
  match r.byRule regs with
  | some b => b
  | none =>
    if hasOverride a (key "participant") then
      getOverride asBool a (key "participant") (key "participant" ++ (key ":" ++ r.participant)) false
    else (canPassType (attrStr a (key "subtype") []) r.participant).getD false

/-- canPass(lanelet), GenericTrafficRules.cpp 133-147 -/
def canPass (e : Env P V) (r : Rules V) (h : LH) : Bool :=
  if !isDrivingDir e h r.participant then false
  else canPassPrim e.asBool r (e.w.lls h.data).regs (e.llAttr h.data)

/-- canPass(area), lines 149-159, GermanTrafficRules.h 16 -/
def canPassArea (e : Env P V) (r : Rules V) (ar : Nat) : Bool :=
  r.areas && canPassPrim e.asBool r (e.w.ars ar).regs (e.arAttr ar)

/-- isOneWay, GenericTrafficRules.cpp 350-352 -/
def isOneWay (e : Env P V) (r : Rules V) (h : LH) : Bool :=
  isDrivingDir e h r.participant != isDrivingDir e (invertL h) r.participant

/-- canPass(lanelet, lanelet), GenericTrafficRules.cpp 187-189 -/
def canPassLL [DecidableEq P] (e : Env P V) (r : Rules V) (a b : LH) : Bool :=
  follows e.w a b && canPass e r a && canPass e r b

/-- determineCommonLine(lanelet, area), GenericTrafficRules.cpp 191-195; back() and front() of empty linestrings are undefined (`none`);
the inner `Option` is the result -/
def commonLineAhead [DecidableEq P] (w : World P) (ll : LH) (ar : Nat) : Option (Option LS) := do
  let p1 ← (points w (leftBound w ll)).getLast?
  let p2 ← (points w (rightBound w ll)).getLast?
  (w.ars ar).outer.foldlM (fun found ls => match found with
    | some l => some (some l)
    | none => do
      let b ← (points w ls).getLast?
      let f ← (points w ls).head?
      return if b = p1 ∧ f = p2 then some ls else none) none

/-- canPass(lanelet, area), GenericTrafficRules.cpp 203-218 -/
def canPassLA [DecidableEq P] (e : Env P V) (r : Rules V) (a : LH) (b : Nat) : Option Bool :=
  if !canPass e r a || !canPassArea e r b then some false
  else if areaLeftOf e.w a b then some (canChangeToLeft (laneChangeType e r (leftBound e.w a) true))
  else if areaRightOf e.w a b then some (canChangeToRight (laneChangeType e r (rightBound e.w a) true))
  else do
    match ← commonLineAhead e.w a b with
    | some line => return canChangeToRight (laneChangeType e r line true)
    | none => return false

/-- canPass(area, lanelet), GenericTrafficRules.cpp 220-235 -/
def canPassAL [DecidableEq P] (e : Env P V) (r : Rules V) (a : Nat) (b : LH) : Option Bool :=
  if !canPassArea e r a || !canPass e r b then some false
  else if areaLeftOf e.w b a then some (canChangeToRight (laneChangeType e r (leftBound e.w b) true))
  else if areaRightOf e.w b a then some (canChangeToLeft (laneChangeType e r (rightBound e.w b) true))
  else do
    match ← commonLineAhead e.w (invertL b) a with
    | some line => return canChangeToLeft (laneChangeType e r line true)
    | none => return false

/-- canPass(area, area), GenericTrafficRules.cpp 237-246 -/
def canPassAA (e : Env P V) (r : Rules V) (a b : Nat) : Bool :=
  if !canPassArea e r a && canPassArea e r b then false
  else match commonLineAreas e.w a b with
    | none => false
    | some line => canChangeToLeft (laneChangeType e r line true)

/-- canChangeLane, GenericTrafficRules.cpp 248-260 -/
def canChangeLane (e : Env P V) (r : Rules V) (a b : LH) : Bool :=
  if !canPass e r a || !canPass e r b then false
  else
    let isLeft := leftOf e.w a b
    if !isLeft && !rightOf e.w a b then false
    else
      let type := laneChangeType e r (if isLeft then rightBound e.w a else leftBound e.w a) false
      if isLeft then canChangeToRight type else canChangeToLeft type

/-- getSpeedLimitFromType, GenericTrafficRules.cpp 262-292 -/
def limitFromType (r : Rules V) (a : Attrs) : Limit V :=
  if r.participant = key "pedestrian" then r.limits.pedestrian
  else if r.participant = key "bicycle" then r.limits.bicycle
  else if startswith r.participant (key "vehicle") then
    let location := attrStr a (key "location") (key "urban")
    let type := attrStr a (key "subtype") (key "road")
    mapOr [((key "urban", key "road"), r.limits.urbanRoad), ((key "nonurban", key "road"), r.limits.nonurbanRoad),
      ((key "urban", key "highway"), r.limits.urbanHighway), ((key "nonurban", key "highway"), r.limits.nonurbanHighway),
      ((key "urban", key "play_street"), r.limits.playStreet), ((key "nonurban", key "play_street"), r.limits.playStreet),
      ((key "urban", key "exit"), r.limits.urbanRoad)] (location, type) ⟨r.zero, true⟩
  else ⟨r.zero, true⟩

/-- speedLimit(regelems, attributes), GenericTrafficRules.cpp 294-313 -/
def speedLimit (asBool : Str → Option Bool) (asVel : Str → Option V) (r : Rules V) (regs : List Nat) (a : Attrs) :
    Limit V :=
  match r.regLimit regs with
  | some l => l
  | none =>
    if hasOverride a (key "speed_limit") || hasOverride a (key "speed_limit_mandatory") then
      let dflt := ((find a (key "speed_limit")).bind asVel).getD r.zero
      ⟨getOverride asVel a (key "speed_limit" ++ key ":") (key "speed_limit" ++ key ":" ++ r.participant) dflt,
       getOverride asBool a (key "speed_limit_mandatory") (key "speed_limit_mandatory" ++ key ":" ++ r.participant) true⟩
    else limitFromType r a

/-- GermanVehicle::speedLimit, GermanTrafficRules.cpp 42-50: `kind` tells the type of a SpeedLimit regulatory element,
`none` for others; `sign` converts the type, throwing InterpretationError -/
def germanRegLimit (kind : Nat → Option Str) (sign : Str → Except Unit V) : List Nat → Except Unit (Option (Limit V))
  | [] => .ok none
  | x :: rest => match kind x with
    | some t => match sign t with
      | .ok v => .ok (some ⟨v, true⟩)
      | .error e => .error e
    | none => germanRegLimit kind sign rest

/-- hasDynamicRules, GenericTrafficRules.cpp 127-131 -/
def hasDynamicRules (e : Env P V) (regAttr : Nat → Attrs) (h : LH) : Bool :=
  (e.w.lls h.data).regs.any fun x => attrBool e.asBool (regAttr x) (key "dynamic") false

/-! ### TrafficRulesFactory -/

/-- registry_, TrafficRulesFactory.h 38: a map from location and participant to a generator -/
abbrev Registry (G : Type) := List ((Str × Str) × G)

/-- registerStrategy: `registry_[key] = f`, TrafficRulesFactory.h 15-18 -/
def register {G : Type} (reg : Registry G) (location participant : Str) (g : G) : Registry G :=
  if reg.any (fun e => e.1 == (location, participant)) then
    reg.map fun e => if e.1 == (location, participant) then (e.1, g) else e
  else reg ++ [((location, participant), g)]

/-- TrafficRulesFactory.cpp 13, 17: find in the registry. -/
def lookup {G : Type} (reg : Registry G) (k : Str × Str) : Option G := (reg.find? fun e => e.1 == k).map (·.2)

/-- create, TrafficRulesFactory.cpp 10-25; the configuration handed to the generator has the entries location and
participant set -/
def create {G : Type} (reg : Registry G) (location participant : Str) (config : Str → Option Str) :
    Except Unit (G × (Str → Option Str)) :=
  let elem := lookup reg (location, participant)
  let elem := if elem.isNone && startswith participant (key "vehicle") then lookup reg (location, key "vehicle") else elem
  match elem with
  | some g => .ok (g, fun k => if k = key "participant" then some participant else
      if k = key "location" then some location else config k)
  | none => .error ()

/-- availableTrafficRules, TrafficRulesFactory.cpp 27-31 -/
def available {G : Type} (reg : Registry G) : List (Str × Str) := reg.map (·.1)

end Verif.Rules
