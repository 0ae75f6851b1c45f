import Mathlib.Data.List.Sort
import Mathlib.Data.List.Destutter
import Mathlib.Data.String.Basic
import Mathlib.Order.Basic

/-!
Model of lanelet2_validation: Validation.cpp, ValidatorFactory.cpp, Cli.cpp and validators/{CheckTags,DuplicatedPoints,PointsTooClose}.cpp.

Layers are the lists of their elements in iteration order. An attribute map is the list of its entries; conversion of attributes to bool is a
parameter (C10). Regular expressions are a parameter.
-/
namespace Verif.Valid

/-! ### issues -/

/-- Issue.h 9 -/
inductive Severity where
  | error | warning | info
  deriving DecidableEq

/-- Issue.h 10 -/
inductive Prim where
  | point | lineString | polygon | lanelet | area | regelem
  deriving DecidableEq

/-- Issue.h 44-63; an issue without primitive has none -/
structure Issue where
  severity : Severity
  prim : Option (Prim × Int)
  message : String
  deriving DecidableEq

/-- DetectedIssues, Validation.h 13-20 -/
structure Detected where
  check : String
  issues : List Issue
  deriving DecidableEq

/-! ### the map as the validators see it -/

/-- Attribute.h: AttributeMap. -/
abbrev Attrs := List (String × String)

/-- attrs.find(tag), HybridMap (C09); used by CheckTags.cpp -/
def find (m : Attrs) (k : String) : Option String := (m.find? fun e => decide (e.1 = k)).map (·.2)

/-- a point: address of its data, id, position and attributes; Point.h -/
structure Point (F : Type) where
  data : Nat
  id : Int
  pos : F × F × F
  attrs : Attrs

/-- LineString.h 220-360: id, points and attributes. -/
structure Line (F : Type) where
  id : Int
  pts : List (Point F)
  attrs : Attrs

/-- A lanelet, area or regulatory element: id and attributes (Primitive.h 31-48). -/
structure Elem where
  id : Int
  attrs : Attrs

/-- LaneletMap.h 313-370. -/
structure Map (F : Type) where
  points : List (Point F)
  lines : List (Line F)
  polygons : List (Line F)
  lanelets : List Elem
  areas : List Elem
  regelems : List Elem

variable {F : Type}

/-! ### CheckTags.cpp -/

/-- startsWith, CheckTags.cpp 19-21 -/
def startsWith (s sub : String) : Bool := decide (s.toList.take sub.toList.length = sub.toList)

/-- CheckTags.cpp 23-27 -/
def knownPointTags : List String := ["ele", "type", "subtype"]
/-- CheckTags.cpp 36-41 -/
def knownLineTags : List String := ["type", "subtype", "lane_change", "width", "height", "temporary", "color"]
/-- CheckTags.cpp 84-89 -/
def knownLaneletTags : List String := ["type", "subtype", "one_way", "name", "region", "speed_limit", "location", "participant"]
/-- CheckTags.cpp 109-114 -/
def knownAreaTags : List String := ["type", "subtype", "speed_limit", "location", "region", "name"]
/-- CheckTags.cpp 135-140 -/
def knownRegelemTags : List String := ["dynamic", "fallback", "sign_type", "speed_limit", "subtype", "type"]

/-- CheckTags.cpp 43-47 -/
def mandatoryLineTags : List String := ["type"]
/-- CheckTags.cpp 91-95 -/
def mandatoryLaneletTags : List String := ["type", "subtype", "location"]
/-- CheckTags.cpp 129-133 -/
def mandatoryAreaTags : List String := ["type", "subtype", "location"]
/-- CheckTags.cpp 142-146 -/
def mandatoryRegelemTags : List String := ["type", "subtype"]

/-- ValueMap, CheckTags.cpp 11 -/
abbrev Values := List (String × List String)

/-- CheckTags.cpp 29-34 -/
def pointValues : Values := [("type", ["dot", "end", "pole", "post", "start"])]

/-- CheckTags.cpp 49-82 -/
def lineValues : Values := [
  ("type", ["arrow", "bike_marking", "bump", "curbstone", "door", "fence", "gate", "guard_rail", "jersey_barrier", "keepout", "lift_gate",
    "line_thick", "line_thin", "pedestrian_marking", "rail", "road_border", "stop_line", "symbol", "traffic_light", "traffic_sign", "trajectory",
    "virtual", "visualization", "wall", "zebra_marking", "zig-zag"]),
  ("line_thicksubtype", ["dashed", "dashed_solid", "solid", "solid_dashed", "solid_solid"]),
  ("line_thinsubtype", ["dashed", "dashed_solid", "solid", "solid_dashed", "solid_solid"]),
  ("curbstonesubtype", ["high", "low"]),
  ("arrowsubtype", ["left", "left_right", "right", "straight", "straight_left", "straight_right"]),
  ("bike_markingsubtype", ["dashed", "solid"]),
  ("pedestrian_markingsubtype", ["dashed", "solid"]),
  ("stop_linesubtype", ["dashed", "solid"]),
  ("bumpsubtype", []),
  ("traffic_lightsubtype", ["red", "red_green", "red_yellow", "red_yellow_green"]),
  ("virtualsubtype", [])]

/-- CheckTags.cpp 97-107 -/
def laneletValues : Values := [
  ("type", ["lanelet"]),
  ("subtype", ["bicycle_lane", "bus_lane", "crosswalk", "emergency_lane", "highway", "play_street", "rail", "road", "shared_walkway", "stairs",
    "walkway"]),
  ("location", ["nonurban", "private", "urban"])]

/-- CheckTags.cpp 116-127 -/
def areaValues : Values := [
  ("type", ["multipolygon"]),
  ("subtype", ["bicycle_lane", "building", "bus_lane", "crosswalk", "emergency_lane", "exit", "freespace", "highway", "keepout", "parking",
    "play_street", "road", "shared_walkway", "stairs", "traffic_island", "vegetation", "walkway"]),
  ("location", ["nonurban", "private", "urban"])]

/-- CheckTags.cpp 201-206 -/
def regelemValues : Values := [("type", ["regulatory_element"])]

/-- checkKnownTags, CheckTags.cpp 148-159 -/
def checkKnownTags (attrs : Attrs) (known : List String) (id : Int) (p : Prim) : List Issue :=
  (attrs.filter fun a => !known.any fun t => startsWith a.1 t).map fun a =>
    ⟨.warning, some (p, id), "attribute " ++ a.1 ++ " is not a known lanelet2 tag."⟩

/-- checkMandatoryTags, CheckTags.cpp 161-170 -/
def checkMandatoryTags (attrs : Attrs) (tags : List String) (id : Int) (p : Prim) : List Issue :=
  (tags.filter fun t => decide (find attrs t = none)).map fun t =>
    ⟨.warning, some (p, id), "should have a " ++ t ++ " attribute."⟩

/-- the loop of std::lower_bound as libstdc++ has it: index of the first element that is not smaller; used by std::binary_search in validators/CheckTags.cpp -/
def lowerLoop (l : List String) (v : String) (first len : Nat) : Nat :=
  if h : 0 < len then
    let half := len / 2
    match l[first + half]? with
    | some m => if m < v then lowerLoop l v (first + half + 1) (len - half - 1) else lowerLoop l v first half
    | none => first
  else first
termination_by len
decreasing_by all_goals omega

/-- std::binary_search; CheckTags.cpp -/
def binarySearch (l : List String) (v : String) : Bool :=
  match l[lowerLoop l v 0 l.length]? with
  | some x => !decide (v < x)
  | none => false

/-- the key that is looked up, CheckTags.cpp 178-182: `type->first` is the name of the attribute, not its value -/
def lookupKey (attrs : Attrs) (combine : Bool) (k : String) : String :=
  if combine = true ∧ k = "subtype" ∧ (find attrs "type").isSome = true then "type" ++ k else k

/-- checkKnownTagValues, CheckTags.cpp 172-199 -/
def checkKnownTagValues (attrs : Attrs) (known : Values) (id : Int) (p : Prim) (combine : Bool) : List Issue :=
  attrs.filterMap fun a =>
    match (known.find? fun e => decide (e.1 = lookupKey attrs combine a.1)).map (·.2) with
    | none => none
    | some vs => if binarySearch vs a.2 then none
      else some ⟨.warning, some (p, id), "value " ++ a.2 ++ " is not a known value for " ++ a.1⟩

/-- CheckTags.cpp 210-211 -/
def boolAttributes : List String := ["one_way", "dynamic", "lane_change", "participant", "fallback", "temporary"]

/-- checkAttribute, CheckTags.cpp 208-223 -/
def checkAttribute (asBool : String → Option Bool) (attrs : Attrs) (id : Int) (p : Prim) : List Issue :=
  (attrs.filter fun a => (boolAttributes.any fun t => startsWith a.1 t) && (asBool a.2).isNone).map fun a =>
    ⟨.warning, some (p, id), "attribute " ++ a.1 ++ ": " ++ a.2 ++ " should be convertible to bool, but isn't."⟩

/-- BoolTags, CheckTags.cpp 230-245 -/
def boolTags (asBool : String → Option Bool) (m : Map F) : List Issue :=
  m.lines.flatMap (fun e => checkAttribute asBool e.attrs e.id .lineString) ++
  m.lanelets.flatMap (fun e => checkAttribute asBool e.attrs e.id .lanelet) ++
  m.areas.flatMap (fun e => checkAttribute asBool e.attrs e.id .area) ++
  m.regelems.flatMap (fun e => checkAttribute asBool e.attrs e.id .regelem)

/-- UnknownTags, CheckTags.cpp 247-265 -/
def unknownTags (m : Map F) : List Issue :=
  m.points.flatMap (fun e => checkKnownTags e.attrs knownPointTags e.id .point) ++
  m.lines.flatMap (fun e => checkKnownTags e.attrs knownLineTags e.id .lineString) ++
  m.lanelets.flatMap (fun e => checkKnownTags e.attrs knownLaneletTags e.id .lanelet) ++
  m.areas.flatMap (fun e => checkKnownTags e.attrs knownAreaTags e.id .area) ++
  m.regelems.flatMap (fun e => checkKnownTags e.attrs knownRegelemTags e.id .regelem)

/-- UnknownTagValue, CheckTags.cpp 267-287 -/
def unknownTagValue (m : Map F) : List Issue :=
  m.points.flatMap (fun e => checkKnownTagValues e.attrs pointValues e.id .point false) ++
  m.lines.flatMap (fun e => checkKnownTagValues e.attrs lineValues e.id .lineString true) ++
  m.lanelets.flatMap (fun e => checkKnownTagValues e.attrs laneletValues e.id .lanelet false) ++
  m.areas.flatMap (fun e => checkKnownTagValues e.attrs areaValues e.id .area false) ++
  m.regelems.flatMap (fun e => checkKnownTagValues e.attrs regelemValues e.id .regelem false)

/-- MandatoryTags, CheckTags.cpp 289-305 -/
def mandatoryTags (m : Map F) : List Issue :=
  m.lines.flatMap (fun e => checkMandatoryTags e.attrs mandatoryLineTags e.id .lineString) ++
  m.lanelets.flatMap (fun e => checkMandatoryTags e.attrs mandatoryLaneletTags e.id .lanelet) ++
  m.areas.flatMap (fun e => checkMandatoryTags e.attrs mandatoryAreaTags e.id .area) ++
  m.regelems.flatMap (fun e => checkMandatoryTags e.attrs mandatoryRegelemTags e.id .regelem)

/-! ### DuplicatedPoints.cpp, PointsTooClose.cpp -/

/-- hasDuplicates, DuplicatedPoints.cpp 12-23; points are equal if they share their data -/
def hasDuplicates : List (Point F) → Option Int
  | a :: b :: l => if a.data = b.data then some a.id else hasDuplicates (b :: l)
  | _ => none

/-- one pass of the loops, DuplicatedPoints.cpp 28-43 -/
def duplicateIssue (p : Prim) (name : String) (l : Line F) : Option Issue :=
  (hasDuplicates l.pts).map fun d =>
    ⟨.error, some (p, l.id), name ++ " contains the point " ++ toString d ++ " multiple times in succession. This is not allowed!"⟩

/-- DuplicatedPoints.cpp 26-45 -/
def duplicatedPoints (m : Map F) : List Issue :=
  m.lines.filterMap (duplicateIssue .lineString "Linestring") ++ m.polygons.filterMap (duplicateIssue .polygon "Polygon")

/-- one pass of the loop, PointsTooClose.cpp 16-24; `nearest` is pointLayer.nearest(…, 2) (C06), `close` is distance < 0.05 in 3d -/
def closeIssue (nearest : Point F → List (Point F)) (close : Point F → Point F → Bool) (p : Point F) : Option Issue :=
  match nearest p with
  | [a, b] =>
    let next := if a.data = p.data then b else a
    if close p next then
      some ⟨.warning, some (.point, p.id), "Point is very close to point " ++ toString next.id ++ ". This can lead to defects in the map"⟩
    else none
  | _ => none

/-- PointsTooClose.cpp 13-27 -/
def pointsTooClose (nearest : Point F → List (Point F)) (close : Point F → Point F → Bool) (m : Map F) : List Issue :=
  m.points.filterMap (closeIssue nearest close)

/-! ### Validation.cpp, ValidatorFactory.cpp -/

/-- getline(ss, substr, ','), repeated while the stream is good; Validation.cpp 14-27 -/
def pieces : List Char → List Char → List (List Char)
  | acc, [] => [acc]
  | acc, c :: l => if c = ',' then acc :: pieces [] l else pieces (acc ++ [c]) l

/-- parseFilterString, Validation.cpp 14-27; an invalid regular expression throws -/
def parseFilterString {R : Type} (compile : String → Option R) (s : String) : Option (List R) :=
  (((pieces [] s.toList).filter fun x => !x.isEmpty).map String.ofList).mapM compile

/-- matchSingleRegex, ValidatorFactory.cpp 7-15 -/
def matchSingle {R : Type} (regexMatch : R → String → Bool) (names : List String) (r : R) : List String :=
  names.filter fun n => regexMatch r n

/-- matchValidators, ValidatorFactory.cpp 17-29; the keys of a registry are sorted. Any sort of std::sort gives the same strings. -/
def matchValidators {R : Type} (regexMatch : R → String → Bool) (rs : List R) (names : List String) : List String :=
  if rs.isEmpty then names
  else ((rs.flatMap (matchSingle regexMatch names)).insertionSort (· ≤ ·)).destutter (· ≠ ·)

/-- `registry.at(name)` for the registered validators, sorted by name; ValidatorFactory.h 20-60 -/
abbrev Registry (V : Type) := List (String × V)

/-- createValidators, ValidatorFactory.cpp 31-38 -/
def createValidators {R V : Type} (regexMatch : R → String → Bool) (rs : List R) (reg : Registry V) : List (String × V) :=
  (matchValidators regexMatch rs (reg.map (·.1))).filterMap fun n => (reg.find? fun e => decide (e.1 = n)).map fun e => (n, e.2)

/-- the register functions, ValidatorFactory.cpp 65-77: std::map::emplace, the first registration of a name wins -/
def register {V : Type} (reg : Registry V) (name : String) (v : V) : Registry V :=
  match reg with
  | [] => [(name, v)]
  | e :: r => if name < e.1 then (name, v) :: e :: r else if e.1 < name then e :: register r name v else e :: r

/-- runValidators, Validation.cpp 34-45 -/
def runValidators {V : Type} (vs : List (String × V)) (f : V → List Issue) : List Detected :=
  vs.filterMap fun v => if (f v.2).isEmpty then none else some ⟨v.1, f v.2⟩

/-- everything the validation uses: `M` maps, `T` traffic rules, `G` routing graphs, `R` regular expressions; Validation.cpp 35-78, 120-155 -/
structure Env (M T G R : Type) where
  compile : String → Option R
  regexMatch : R → String → Bool
  mapValidators : Registry (M → List Issue)
  ruleValidators : Registry (M → List T → List Issue)
  graphValidators : Registry (G → T → List Issue)
  /-- TrafficRulesFactory::create, throws if there are no rules -/
  rules : String → String → Option T
  /-- RoutingGraph::build; a LaneletError with its message -/
  build : M → T → Except String G
  ruleName : T → String

variable {M T G R : Type}

/-- one pass of the loop of runRoutingGraphValidators, Validation.cpp 64-76 -/
def runGraph (env : Env M T G R) (vs : List (String × (G → T → List Issue))) (m : M) (t : T) : List Detected :=
  match env.build m t with
  | .error e => [⟨"general", [⟨.error, none, "Failed to create routing graph for " ++ env.ruleName t ++ ": " ++ e⟩]⟩]
  | .ok g => runValidators vs fun v => v g t

/-- runRoutingGraphValidators, Validation.cpp 58-77 -/
def runGraphValidators (env : Env M T G R) (rs : List R) (m : M) (ts : List T) : List Detected :=
  let vs := createValidators env.regexMatch rs env.graphValidators
  if vs.isEmpty then [] else ts.flatMap (runGraph env vs m)

/-- ValidationConfig, Validation.h 23-28 (the origin is part of the loader) -/
structure Config where
  checksFilter : String
  location : String
  participants : List String

/-- validateMap of a map, Validation.cpp 120-133; `none` if an exception leaves it. Validators do not throw. -/
def validateMap (env : Env M T G R) (m : M) (cfg : Config) : Option (List Detected) := do
  let rs ← parseFilterString env.compile cfg.checksFilter
  let fromMap := runValidators (createValidators env.regexMatch rs env.mapValidators) fun v => v m
  let ts ← cfg.participants.mapM fun p => env.rules cfg.location p
  let fromRules := runValidators (createValidators env.regexMatch rs env.ruleValidators) fun v => v m ts
  return fromMap ++ fromRules ++ runGraphValidators env rs m ts

/-- validateMap of a file, Validation.cpp 135-153; `loaded` is the result of load: the map and its errors, or the message of a LaneletError -/
def validateFile (env : Env M T G R) (loaded : Except String (M × List String)) (cfg : Config) : Option (List Detected) := do
  let _ ← parseFilterString env.compile cfg.checksFilter
  match loaded with
  | .error e => return [⟨"general", [⟨.error, none, "Failed to load map: " ++ e⟩]⟩]
  | .ok (m, errors) =>
    let general : List Detected := if errors.isEmpty then [] else [⟨"general", errors.map fun e => ⟨.error, none, e⟩⟩]
    let is ← validateMap env m cfg
    return general ++ is

/-- availabeChecks, Validation.cpp 100-102, ValidatorFactory.cpp 58-63 -/
def availableChecks (env : Env M T G R) (filter : String) : Option (List String) := do
  let rs ← parseFilterString env.compile filter
  return matchValidators env.regexMatch rs (env.mapValidators.map (·.1)) ++ matchValidators env.regexMatch rs (env.ruleValidators.map (·.1)) ++
    matchValidators env.regexMatch rs (env.graphValidators.map (·.1))

/-- toString(Severity), Issue.h 12-22 -/
def Severity.text : Severity → String
  | .error => "Error"
  | .warning => "Warning"
  | .info => "info"

/-- toString(Primitive), Issue.h 24-42 -/
def Prim.text : Prim → String
  | .point => "point"
  | .lineString => "linestring"
  | .polygon => "polygon"
  | .lanelet => "lanelet"
  | .area => "area"
  | .regelem => "regulatory element"

/-- Issue::buildReport, Issue.h 49-57; InvalId is 0 -/
def Issue.report (i : Issue) : String :=
  i.severity.text ++ ": " ++ (match i.prim with
    | some (p, id) => if id ≠ 0 then p.text ++ " " ++ toString id ++ " " else ""
    | none => "") ++ i.message

/-- IssueReport, Validation.h 31-34 -/
structure Report where
  warnings : List String
  errors : List String
  deriving DecidableEq

/-- buildReport, Validation.cpp 104-118, with errors() and warnings() 80-98 -/
def buildReport (ds : List Detected) : Report :=
  ⟨ds.flatMap fun d => (d.issues.filter fun i => decide (i.severity = .warning)).map fun i => i.report ++ " [" ++ d.check ++ "]",
   ds.flatMap fun d => (d.issues.filter fun i => decide (i.severity = .error)).map fun i => i.report ++ " [" ++ d.check ++ "]"⟩

/-- CommandLineConfig, Cli.h 6-11 -/
structure Cli where
  config : Config
  mapFile : String
  print : Bool
  help : Bool

/-- what the program writes: the report and the number it states; tools/lanelet2_validate/main.cpp -/
structure Output where
  report : Report
  count : Nat
  exitCode : Nat
  deriving DecidableEq

/-- runFromConfig with printAllIssues, Cli.cpp 55-88; the texts for help and print are left out -/
def runFromConfig (env : Env M T G R) (load : String → Except String (M × List String)) (cli : Cli) : Option Output :=
  if cli.help then some ⟨⟨[], []⟩, 0, 0⟩
  else if cli.print then (availableChecks env cli.config.checksFilter).map fun _ => ⟨⟨[], []⟩, 0, 0⟩
  else if cli.mapFile = "" then some ⟨⟨[], []⟩, 0, 1⟩
  else (validateFile env (load cli.mapFile) cli.config).map fun ds =>
    let r := buildReport ds
    ⟨r, r.warnings.length + r.errors.length, if ds.isEmpty then 0 else 1⟩

end Verif.Valid
