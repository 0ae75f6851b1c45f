import Mathlib.Data.List.Perm.Subperm
import Mathlib.Data.List.Forall2
import Mathlib.Algebra.Order.Ring.Int

/-!
Model of calls of the Python bindings with positional and keyword arguments: the `arg("name") = default` lists of
lanelet2_python/python_api/{core,io,geometry,matching,routing,traffic_rules}.cpp, and what Boost.Python does with them (function.cpp of
Boost.Python: the list names the last parameters; a parameter that is not given by position takes the keyword of its name, otherwise its
default; the call fails if fewer keywords were taken than given). The conversion of the values to the C++ types and the choice between
overloads are not modelled.
-/
namespace Verif.Py.Call

variable {V : Type}

/-- A C++ function with its parameters (`self` for the object of a method or the instance that a constructor fills) and the list of
keywords with defaults that follows it in `def(...)`, as in lanelet2_python/python_api/routing.cpp 263-264 or core.cpp 739 -/
structure Sig (V : Type) where
  name : String
  cpp : List String
  labels : List (String × Option V)

/-- The keywords belong to the last parameters, the first ones have no name: as in routing.cpp 263-264, where the list does not name the
graph (Boost.Python) -/
def Sig.argNames (s : Sig V) : List (Option (String × Option V)) :=
  List.replicate (s.cpp.length - s.labels.length) none ++ s.labels.map some

/-- The parameters that are not given by position, with the number of keywords taken: what a call of the functions defined in routing.cpp
263-312 and elsewhere does (Boost.Python) -/
def fill (kw : List (String × V)) : List (Option (String × Option V)) → Option (List V × Nat)
  | [] => some ([], 0)
  | none :: _ => none
  | some (name, d) :: rest =>
    match kw.lookup name with
    | some v => (fill kw rest).map fun r => (v :: r.1, r.2 + 1)
    | none =>
      match d with
      | some v => (fill kw rest).map fun r => (v :: r.1, r.2)
      | none => none

/-- The call of a function as defined in routing.cpp 263-312 and elsewhere (Boost.Python): the values of the parameters, or nothing if this
function does not take these arguments -/
def bind (s : Sig V) (pos : List V) (kw : List (String × V)) : Option (List V) :=
  let n := pos.length + kw.length
  if n + s.labels.countP (fun l => l.2.isSome) < s.cpp.length ∨ s.cpp.length < n then none
  else if kw.isEmpty ∧ s.cpp.length ≤ n then some pos
  else if s.labels.isEmpty then none
  else
    match fill kw (s.argNames.drop pos.length) with
    | none => none
    | some (vs, processed) => if pos.length + processed < n then none else some (pos ++ vs)

/-- The functions of the modules with more than one keyword, from the lines of lanelet2_python/python_api given with each, `d` gives the value of a default. The names of the parameters are those of
the C++ functions. -/
def table (d : String → V) : List (Sig V) :=
  [ -- core.cpp 451
    ⟨"Layer.nearest", ["self", "point", "n"], [("point", none), ("n", some (d "1"))]⟩,
    -- core.cpp 503, 531
    ⟨"BasicPoint2d", ["self", "x", "y"], [("x", some (d "0.")), ("y", some (d "0."))]⟩,
    ⟨"BasicPoint3d", ["self", "x", "y", "z"], [("x", some (d "0.")), ("y", some (d "0.")), ("z", some (d "0."))]⟩,
    -- core.cpp 546, 565
    ⟨"BoundingBox2d", ["self", "min", "max"], [("min", none), ("max", none)]⟩,
    ⟨"BoundingBox3d", ["self", "min", "max"], [("min", none), ("max", none)]⟩,
    -- core.cpp 739, 770
    ⟨"Point2d", ["self", "id", "point", "attributes"], [("id", none), ("point", none), ("attributes", some (d "AttributeMap()"))]⟩,
    ⟨"Point3d", ["self", "id", "point", "attributes"], [("id", none), ("point", none), ("attributes", some (d "AttributeMap()"))]⟩,
    -- core.cpp 743, 774
    ⟨"Point2d", ["self", "id", "x", "y", "z", "attributes"],
      [("id", none), ("x", none), ("y", none), ("z", some (d "0.")), ("attributes", some (d "AttributeMap()"))]⟩,
    ⟨"Point3d", ["self", "id", "x", "y", "z", "attributes"],
      [("id", none), ("x", none), ("y", none), ("z", some (d "0.")), ("attributes", some (d "AttributeMap()"))]⟩,
    -- core.cpp 789
    ⟨"GPSPoint", ["self", "lat", "lon", "alt"], [("lat", some (d "0.")), ("lon", some (d "0.")), ("ele", some (d "0"))]⟩,
    -- core.cpp 818, 819, 838, 856
    ⟨"LineString2d", ["self", "id", "points", "attributes"], [("id", none), ("points", none), ("attributes", none)]⟩,
    ⟨"LineString2d", ["self", "id", "points"], [("id", none), ("points", none)]⟩,
    ⟨"ConstLineString3d", ["self", "id", "points", "attributes"],
      [("id", none), ("points", none), ("attributes", some (d "AttributeMap()"))]⟩,
    ⟨"LineString3d", ["self", "id", "points", "attributes"],
      [("id", some (d "0")), ("points", some (d "Points3d{}")), ("attributes", some (d "AttributeMap()"))]⟩,
    -- core.cpp 918, 930, 942, 953
    ⟨"ConstPolygon2d", ["self", "id", "points", "attributes"],
      [("id", none), ("points", none), ("attributes", some (d "AttributeMap()"))]⟩,
    ⟨"ConstPolygon3d", ["self", "id", "points", "attributes"],
      [("id", none), ("points", none), ("attributes", some (d "AttributeMap()"))]⟩,
    ⟨"Polygon2d", ["self", "id", "points", "attributes"],
      [("id", none), ("points", none), ("attributes", some (d "AttributeMap()"))]⟩,
    ⟨"Polygon3d", ["self", "id", "points", "attributes"],
      [("id", none), ("points", none), ("attributes", some (d "AttributeMap()"))]⟩,
    -- core.cpp 1003-1004, 1045-1046
    ⟨"ConstLanelet", ["self", "id", "leftBound", "rightBound", "attributes", "regulatoryElements"],
      [("id", none), ("leftBound", none), ("rightBound", none), ("attributes", some (d "AttributeMap()")),
        ("regelems", some (d "RegulatoryElementPtrs{}"))]⟩,
    ⟨"Lanelet", ["self", "id", "leftBound", "rightBound", "attributes", "regulatoryElements"],
      [("id", none), ("leftBound", none), ("rightBound", none), ("attributes", some (d "AttributeMap()")),
        ("regelems", some (d "RegulatoryElementPtrs{}"))]⟩,
    -- core.cpp 1097, 1113
    ⟨"ConstLaneletWithStopLine", ["self", "lanelet", "stopLine"], [("lanelet", none), ("stopLine", some (d "None"))]⟩,
    ⟨"LaneletWithStopLine", ["self", "lanelet", "stopLine"], [("lanelet", none), ("stopLine", some (d "None"))]⟩,
    -- core.cpp 1149-1150, 1174-1175
    ⟨"ConstArea", ["self", "id", "outerBound", "innerBounds", "attributes", "regulatoryElements"],
      [("id", none), ("outerBound", none), ("innerBounds", some (d "InnerBounds{}")), ("attributes", some (d "AttributeMap{}")),
        ("regulatoryElements", some (d "RegulatoryElementPtrs{}"))]⟩,
    ⟨"Area", ["self", "id", "outerBound", "innerBounds", "attributes", "regulatoryElements"],
      [("id", none), ("outerBound", none), ("innerBounds", some (d "InnerBounds{}")), ("attributes", some (d "AttributeMap{}")),
        ("regulatoryElements", some (d "RegulatoryElementPtrs{}"))]⟩,
    -- core.cpp 1229-1230, 1259-1260, 1293, 1338-1340, 1389-1391
    ⟨"TrafficLight", ["self", "id", "attributes", "trafficLights", "stopLine"],
      [("id", none), ("attributes", none), ("trafficLights", none), ("stopLine", some (d "None"))]⟩,
    ⟨"RightOfWay", ["self", "id", "attributes", "rightOfWay", "yield", "stopLine"],
      [("id", none), ("attributes", none), ("rightOfWayLanelets", none), ("yieldLanelets", none), ("stopLine", some (d "None"))]⟩,
    ⟨"AllWayStop", ["self", "id", "attributes", "lltsWithStop", "signs"],
      [("id", none), ("attributes", none), ("lltsWithStop", none), ("signs", some (d "LineStringsOrPolygons3d{}"))]⟩,
    ⟨"TrafficSign", ["self", "id", "attributes", "trafficSigns", "cancellingTrafficSigns", "refLines", "cancelLines"],
      [("id", none), ("attributes", none), ("trafficSigns", none), ("cancellingTrafficSigns", some (d "TrafficSignsWithType{}")),
        ("refLines", some (d "LineStrings3d()")), ("cancelLines", some (d "LineStrings3d()"))]⟩,
    ⟨"SpeedLimit", ["self", "id", "attributes", "trafficSigns", "cancellingTrafficSigns", "refLines", "cancelLines"],
      [("id", none), ("attributes", none), ("trafficSigns", none), ("cancellingTrafficSigns", some (d "TrafficSignsWithType{}")),
        ("refLines", some (d "LineStrings3d()")), ("cancelLines", some (d "LineStrings3d()"))]⟩,
    -- geometry.cpp 40, 48, 300, 377, 388
    ⟨"findWithin2d", ["layer", "geometry", "maxDist"], [("layer", none), ("geometry", none), ("maxDist", some (d "0"))]⟩,
    ⟨"findWithin3d", ["layer", "geometry", "maxDist"], [("layer", none), ("geometry", none), ("maxDist", some (d "0"))]⟩,
    ⟨"ArcCoordinates", ["self", "length", "distance"], [("length", some (d "0.")), ("distance", some (d "0."))]⟩,
    ⟨"intersects3d", ["lanelet", "otherLanelet", "heightTolerance"],
      [("lanelet1", none), ("lanelet2", none), ("heightTolerance", some (d "3."))]⟩,
    ⟨"overlaps3d", ["lanelet", "otherLanelet", "heightTolerance"],
      [("lanelet1", none), ("lanelet2", none), ("heightTolerance", some (d "3."))]⟩,
    -- io.cpp 69-73
    ⟨"Origin", ["self", "lat", "lon", "alt"], [("lat", some (d "0.")), ("lon", some (d "0.")), ("lon", some (d "0"))]⟩,
    -- io.cpp 76, 77, 82, 85, 88
    ⟨"load", ["filename", "projector"], [("filename", none), ("projector", some (d "DefaultProjector()"))]⟩,
    ⟨"load", ["filename", "origin"], [("filename", none), ("origin", none)]⟩,
    -- io.cpp 78 with 39
    ⟨"loadRobust", ["filename", "projector"], [("filename", none)]⟩,
    ⟨"write", ["filename", "map", "projector", "params"],
      [("filename", none), ("map", none), ("projector", none), ("params", some (d "None"))]⟩,
    ⟨"write", ["filename", "map", "origin", "params"],
      [("filename", none), ("map", none), ("origin", none), ("params", some (d "None"))]⟩,
    ⟨"writeRobust", ["filename", "map", "projector", "params"],
      [("filename", none), ("map", none), ("projector", none), ("params", some (d "None"))]⟩,
    -- matching.cpp 125, 134-135, 144, 164-166
    ⟨"Pose2d", ["self", "x", "y", "phi"], [("x", some (d "0.")), ("y", some (d "0")), ("yaw", some (d "0."))]⟩,
    ⟨"Object2d", ["self", "objectId", "pose", "absoluteHull"],
      [("objectId", some (d "InvalId")), ("pose", some (d "Pose2d::Identity()")), ("absoluteHull", some (d "[]"))]⟩,
    ⟨"PositionCovariance2d", ["self", "varX", "varY", "covXY"],
      [("varX", some (d "0.")), ("varY", some (d "0.")), ("covXY", some (d "0."))]⟩,
    ⟨"ObjectWithCovariance2d", ["self", "objectId", "pose", "absoluteHull", "positionCovariance", "vonMisesKappa"],
      [("objectId", some (d "InvalId")), ("pose", some (d "Pose2d::Identity()")), ("absoluteHull", some (d "[]")),
        ("positionCovariance", some (d "PositionCovariance2d()")), ("vonMisesKappa", some (d "0."))]⟩,
    -- routing.cpp 141, 153, 232-233, 257, 261
    ⟨"RoutingCostDistance", ["self", "laneChangeCost", "minLaneChange"],
      [("laneChangeCost", none), ("minLaneChangeDistance", some (d "0"))]⟩,
    ⟨"RoutingCostTravelTime", ["self", "laneChangeCost", "minLaneChange"],
      [("laneChangeCost", none), ("minLaneChangeTime", some (d "0"))]⟩,
    ⟨"PossiblePathsParams", ["self", "costLimit", "elemLimit", "costId", "includeLc", "includeShorter"],
      [("routingCostLimit", some (d "None")), ("elementLimit", some (d "None")), ("routingCostId", some (d "0")),
        ("includeLaneChanges", some (d "false")), ("includeShorterPaths", some (d "false"))]⟩,
    ⟨"RoutingGraph", ["self", "laneletMap", "trafficRules", "routingCosts"],
      [("laneletMap", none), ("trafficRules", none), ("routingCost", some (d "defaultRoutingCosts()"))]⟩,
    ⟨"RoutingGraph", ["self", "laneletMap", "trafficRules", "routingCosts"],
      [("laneletSubmap", none), ("trafficRules", none), ("routingCost", some (d "defaultRoutingCosts()"))]⟩,
    -- routing.cpp 264, 266, 268, 271, 273
    ⟨"getRoute", ["self", "from", "to", "costId", "withLaneChange"],
      [("from", none), ("to", none), ("routingCostId", some (d "0")), ("withLaneChanges", some (d "true"))]⟩,
    ⟨"getRouteVia", ["self", "from", "via", "to", "costId", "withLaneChange"],
      [("from", none), ("via", none), ("to", none), ("routingCostId", some (d "0")), ("withLaneChanges", some (d "true"))]⟩,
    ⟨"shortestPath", ["self", "from", "to", "routingCostId", "withLaneChanges"],
      [("from", none), ("to", none), ("routingCostId", some (d "0")), ("withLaneChanges", some (d "true"))]⟩,
    ⟨"shortestPathWithVia", ["self", "start", "via", "end", "routingCostId", "withLaneChanges"],
      [("start", none), ("via", none), ("end", none), ("routingCostId", some (d "0")), ("withLaneChanges", some (d "true"))]⟩,
    ⟨"routingRelation", ["self", "from", "to", "includeConflicting"],
      [("from", none), ("to", none), ("includeConflicting", some (d "false"))]⟩,
    -- routing.cpp 248, 274-277
    ⟨"following", ["self", "lanelet", "withLaneChanges"], [("lanelet", none), ("withLaneChanges", some (d "false"))]⟩,
    -- routing.cpp 249, 278-291: besides, left, right, ...
    ⟨"besides", ["self", "lanelet", "routingCostId"], [("lanelet", none), ("routingCostId", some (d "0"))]⟩,
    -- routing.cpp 293-296
    ⟨"reachableSet", ["self", "lanelet", "maxRoutingCost", "routingCostId", "allowLaneChanges"],
      [("lanelet", none), ("maxRoutingCost", none), ("RoutingCostId", some (d "0")), ("allowLaneChanges", some (d "true"))]⟩,
    ⟨"reachableSetTowards", ["self", "lanelet", "maxRoutingCost", "routingCostId", "allowLaneChanges"],
      [("lanelet", none), ("maxRoutingCost", none), ("RoutingCostId", some (d "0")), ("allowLaneChanges", some (d "true"))]⟩,
    -- routing.cpp 297-299 with RoutingGraph.h 352-353, routing.cpp 302-305 with RoutingGraph.h 376-377
    ⟨"possiblePaths", ["self", "startPoint", "minRoutingCost", "routingCostId", "allowLaneChanges"],
      [("lanelet", none), ("minRoutingCost", none), ("RoutingCostId", some (d "0")), ("allowLaneChanges", some (d "false")),
        ("routingCostId", some (d "0"))]⟩,
    ⟨"possiblePathsTowards", ["self", "targetLanelet", "minRoutingCost", "routingCostId", "allowLaneChanges"],
      [("lanelet", none), ("minRoutingCost", none), ("RoutingCostId", some (d "0")), ("allowLaneChanges", some (d "false")),
        ("routingCostId", some (d "0"))]⟩,
    -- routing.cpp 301, 307
    ⟨"possiblePaths", ["self", "startPoint", "params"], [("lanelet", none), ("parameters", none)]⟩,
    ⟨"possiblePathsTowards", ["self", "targetLanelet", "params"], [("lanelet", none), ("parameters", none)]⟩,
    -- routing.cpp 308-312
    ⟨"possiblePathsMinLen", ["self", "startPoint", "minLanelets", "allowLaneChanges", "routingCostId"],
      [("lanelet", none), ("minLanelets", none), ("allowLaneChanges", some (d "false")), ("routingCostId", some (d "0"))]⟩,
    ⟨"possiblePathsTowardsMinLen", ["self", "targetLanelet", "minLanelets", "allowLaneChanges", "routingCostId"],
      [("lanelet", none), ("minLanelets", none), ("allowLaneChanges", some (d "false")), ("routingCostId", some (d "0"))]⟩,
    -- routing.cpp 313-344
    ⟨"forEachSuccessor", ["self", "from", "func", "lc", "costId"],
      [("lanelet", none), ("func", none), ("allowLaneChanges", some (d "true")), ("routingCostId", some (d "0"))]⟩,
    -- routing.cpp 353
    ⟨"getDebugLaneletMap", ["self", "routingCostId", "includeAdjacent", "includeConflicting"],
      [("routingCostId", some (d "0")), ("includeAdjacent", some (d "false")), ("includeConflicting", some (d "false"))]⟩,
    -- routing.cpp 406-415
    ⟨"Route.forEachSuccessor", ["self", "from", "func"], [("lanelet", none), ("func", none)]⟩,
    -- traffic_rules.cpp 57 with 12, and 105
    ⟨"SpeedLimitInformation", ["speedLimitKph", "isMandatory"], [("speedLimitMPS", none), ("isMandatory", some (d "true"))]⟩,
    ⟨"create", ["location", "participant"], [("location", none), ("participant", none)]⟩ ]

/-! ### Specification -/

/-- Specification: the value `v` of a parameter that is not given by position is the keyword of its name or else its default -/
def Takes (kw : List (String × V)) (param : Option (String × Option V)) (v : V) : Prop :=
  ∃ name d, param = some (name, d) ∧ ((name, v) ∈ kw ∨ (name ∉ kw.map (·.1) ∧ d = some v))

/-- Specification, the rules of Python: the arguments without keywords come first, the other parameters have the value of their keyword or
their default, and every keyword names one of these -/
def Binds (s : Sig V) (pos : List V) (kw : List (String × V)) (r : List V) : Prop :=
  pos.length ≤ s.cpp.length ∧ ∃ vs, r = pos ++ vs ∧ List.Forall₂ (Takes kw) (s.argNames.drop pos.length) vs ∧
    ∀ k ∈ kw.map (·.1), ∃ d, some (k, d) ∈ s.argNames.drop pos.length

/-- Specification: the keywords that are named differently from the parameter they stand for, by the documentation of the functions -/
def synonyms : List (String × String) :=
  [("ele", "alt"), ("regelems", "regulatoryElements"), ("rightOfWayLanelets", "rightOfWay"), ("yieldLanelets", "yield"),
    ("lanelet1", "lanelet"), ("lanelet2", "otherLanelet"), ("yaw", "phi"), ("minLaneChangeDistance", "minLaneChange"),
    ("minLaneChangeTime", "minLaneChange"), ("routingCostLimit", "costLimit"), ("elementLimit", "elemLimit"), ("routingCostId", "costId"),
    ("RoutingCostId", "routingCostId"), ("includeLaneChanges", "includeLc"), ("includeShorterPaths", "includeShorter"),
    ("laneletSubmap", "laneletMap"), ("routingCost", "routingCosts"), ("withLaneChanges", "withLaneChange"), ("lanelet", "startPoint"),
    ("lanelet", "targetLanelet"), ("lanelet", "from"), ("parameters", "params"), ("allowLaneChanges", "lc")]

/-- Specification: the keyword stands for the parameter -/
def Means (k p : String) : Prop := k = p ∨ (k, p) ∈ synonyms

/-- Specification: the functions whose keywords are wrong, by their name and number of parameters -/
def wrong : List (String × Nat) :=
  [("Origin", 4), ("possiblePaths", 5), ("possiblePathsTowards", 5), ("loadRobust", 2), ("SpeedLimitInformation", 2)]

/-! ### Proofs -/

theorem lookup_some {kw : List (String × V)} (hk : (kw.map (·.1)).Nodup) {k : String} {v : V} :
    kw.lookup k = some v ↔ (k, v) ∈ kw := by
  induction kw with
  | nil => simp
  | cons e kw ih =>
    obtain ⟨k', v'⟩ := e
    simp only [List.map_cons, List.nodup_cons] at hk
    by_cases h : k = k'
    · subst h
      simp only [List.lookup_cons_self, List.mem_cons, Prod.mk.injEq, true_and]
      constructor
      · intro h; injection h with h; exact .inl h.symm
      · rintro (rfl | h)
        · rfl
        · exact absurd (List.mem_map.mpr ⟨_, h, rfl⟩) hk.1
    · have hb : (k == k') = false := by simpa using h
      simp [List.lookup_cons, hb, h, ih hk.2]

theorem lookup_none {kw : List (String × V)} {k : String} : kw.lookup k = none ↔ k ∉ kw.map (·.1) := by
  induction kw with
  | nil => simp
  | cons e kw ih =>
    obtain ⟨k', v'⟩ := e
    by_cases h : k = k'
    · subst h; simp
    · have hb : (k == k') = false := by simpa using h
      simp [List.lookup_cons, hb, h, ih]

/-- Helper of the proofs: the names of the parameters that are given by keyword -/
def taken (kw : List (String × V)) (rest : List (Option (String × Option V))) : List String :=
  (rest.filterMap fun e => e.map (·.1)).filter fun k => k ∈ kw.map (·.1)

theorem fill_iff (kw : List (String × V)) (hk : (kw.map (·.1)).Nodup) (rest : List (Option (String × Option V))) (vs : List V) (c : Nat) :
    fill kw rest = some (vs, c) ↔ List.Forall₂ (Takes kw) rest vs ∧ c = (taken kw rest).length := by
  induction rest generalizing vs c with
  | nil => cases vs <;> simp [fill, taken, eq_comm]
  | cons e rest ih =>
    match e with
    | none =>
      simp only [fill, reduceCtorEq, false_iff, not_and]
      intro h
      cases h with
      | cons h _ => obtain ⟨_, _, h, _⟩ := h; simp at h
    | some (name, d) =>
      unfold fill
      cases hl : kw.lookup name with
      | some v =>
        have hm := (lookup_some hk).mp hl
        have hn : name ∈ kw.map (·.1) := List.mem_map.mpr ⟨_, hm, rfl⟩
        have ht : taken kw (some (name, d) :: rest) = name :: taken kw rest := by
          unfold taken
          rw [List.filterMap_cons_some (by rfl), List.filter_cons_of_pos (by simpa using hn)]
        simp only [Option.map_eq_some_iff, Prod.exists, Prod.mk.injEq, ht, List.length_cons]
        constructor
        · rintro ⟨a, b, hf, rfl, rfl⟩
          obtain ⟨h1, h2⟩ := (ih a b).mp hf
          exact ⟨.cons ⟨name, d, rfl, .inl hm⟩ h1, by omega⟩
        · rintro ⟨h1, h2⟩
          cases h1 with
          | @cons _ x _ xs h h1 =>
            obtain ⟨n', d', he, hx⟩ := h
            simp only [Option.some.injEq, Prod.mk.injEq] at he
            obtain ⟨rfl, rfl⟩ := he
            refine ⟨xs, (taken kw rest).length, (ih _ _).mpr ⟨h1, rfl⟩, ?_, by omega⟩
            rcases hx with hx | ⟨hx, _⟩
            · have := (lookup_some hk).mpr hx
              rw [hl] at this
              injection this with this
              rw [this]
            · exact absurd hn hx
      | none =>
        have hn := lookup_none.mp hl
        have ht : taken kw (some (name, d) :: rest) = taken kw rest := by
          unfold taken
          rw [List.filterMap_cons_some (by rfl), List.filter_cons_of_neg (by simpa using hn)]
        cases d with
        | none =>
          simp only [reduceCtorEq, false_iff, not_and]
          intro h
          cases h with
          | cons h _ =>
            obtain ⟨n', d', he, hx⟩ := h
            simp only [Option.some.injEq, Prod.mk.injEq] at he
            obtain ⟨rfl, rfl⟩ := he
            rcases hx with hx | ⟨_, hx⟩
            · exact absurd (List.mem_map.mpr ⟨_, hx, rfl⟩) hn
            · simp at hx
        | some v =>
          simp only [Option.map_eq_some_iff, Prod.exists, Prod.mk.injEq, ht]
          constructor
          · rintro ⟨a, b, hf, rfl, rfl⟩
            obtain ⟨h1, h2⟩ := (ih a b).mp hf
            exact ⟨.cons ⟨name, some v, rfl, .inr ⟨hn, rfl⟩⟩ h1, h2⟩
          · rintro ⟨h1, h2⟩
            cases h1 with
            | @cons _ x _ xs h h1 =>
              obtain ⟨n', d', he, hx⟩ := h
              simp only [Option.some.injEq, Prod.mk.injEq] at he
              obtain ⟨rfl, rfl⟩ := he
              refine ⟨xs, c, (ih _ _).mpr ⟨h1, h2⟩, ?_, rfl⟩
              rcases hx with hx | ⟨_, hx⟩
              · exact absurd (List.mem_map.mpr ⟨_, hx, rfl⟩) hn
              · injection hx with hx
                rw [hx]

theorem argNames_length (s : Sig V) (h : s.labels.length ≤ s.cpp.length) : s.argNames.length = s.cpp.length := by
  simp [Sig.argNames]
  omega

theorem argNames_names (s : Sig V) : s.argNames.filterMap (fun e => e.map (·.1)) = s.labels.map (·.1) := by
  unfold Sig.argNames
  rw [List.filterMap_append]
  have : List.filterMap (fun e : Option (String × Option V) => e.map (·.1))
      (List.replicate (s.cpp.length - s.labels.length) none) = [] := by
    rw [List.filterMap_eq_nil_iff]
    intro e he
    rw [List.eq_of_mem_replicate he]
    rfl
  rw [this, List.nil_append, List.filterMap_map]
  induction s.labels with
  | nil => rfl
  | cons a l ih => simp

/-- All keywords are taken iff as many are taken as are given. -/
theorem taken_all (kw : List (String × V)) (hk : (kw.map (·.1)).Nodup) (rest : List (Option (String × Option V)))
    (hr : (rest.filterMap fun e => e.map (·.1)).Nodup) :
    (taken kw rest).length ≤ kw.length ∧
      (kw.length ≤ (taken kw rest).length ↔ ∀ k ∈ kw.map (·.1), ∃ d, some (k, d) ∈ rest) := by
  have hsub : taken kw rest ⊆ kw.map (·.1) := by
    intro k hk
    have := (List.mem_filter.mp hk).2
    simpa using this
  have hnd : (taken kw rest).Nodup := hr.filter _
  have hsp : (taken kw rest).Subperm (kw.map (·.1)) := List.subperm_of_subset hnd hsub
  have hlen := hsp.length_le
  rw [List.length_map] at hlen
  refine ⟨hlen, fun h k hm => ?_, fun h => ?_⟩
  · have hp := hsp.perm_of_length_le (by rw [List.length_map]; exact h)
    have hm' := hp.mem_iff.mpr hm
    obtain ⟨e, he, hek⟩ := List.mem_filterMap.mp (List.mem_filter.mp hm').1
    cases e with
    | none => simp at hek
    | some e =>
      obtain ⟨n, d⟩ := e
      simp at hek
      subst hek
      exact ⟨d, he⟩
  · have : (kw.map (·.1)).Subperm (taken kw rest) := List.subperm_of_subset hk (by
      intro k hm
      obtain ⟨d, hd⟩ := h k hm
      refine List.mem_filter.mpr ⟨List.mem_filterMap.mpr ⟨_, hd, rfl⟩, by simpa using hm⟩)
    simpa using this.length_le

theorem takes_count (kw : List (String × V)) : ∀ (rest : List (Option (String × Option V))) (vs : List V),
    List.Forall₂ (Takes kw) rest vs → rest.length ≤ (taken kw rest).length + rest.countP (fun e => e.any fun l => l.2.isSome) := by
  intro rest vs h
  induction h with
  | nil => simp
  | @cons e v rest vs he _ ih =>
    obtain ⟨name, d, rfl, hx⟩ := he
    rcases hx with hx | ⟨hn, hd⟩
    · have hn : name ∈ kw.map (·.1) := List.mem_map.mpr ⟨_, hx, rfl⟩
      have ht : taken kw (some (name, d) :: rest) = name :: taken kw rest := by
        unfold taken
        rw [List.filterMap_cons_some (by rfl), List.filter_cons_of_pos (by simpa using hn)]
      rw [ht, List.countP_cons]
      simp only [List.length_cons]
      omega
    · subst hd
      have ht : taken kw (some (name, some v) :: rest) = taken kw rest := by
        unfold taken
        rw [List.filterMap_cons_some (by rfl), List.filter_cons_of_neg (by simpa using hn)]
      rw [ht, List.countP_cons]
      simp
      omega

theorem countP_argNames (s : Sig V) (n : Nat) :
    (s.argNames.drop n).countP (fun e => e.any fun l => l.2.isSome) ≤ s.labels.countP (fun l => l.2.isSome) := by
  refine le_trans ((List.drop_sublist n s.argNames).countP_le) ?_
  unfold Sig.argNames
  rw [List.countP_append, List.countP_map]
  have : List.countP (fun e : Option (String × Option V) => e.any fun l => l.2.isSome)
      (List.replicate (s.cpp.length - s.labels.length) none) = 0 := by
    rw [List.countP_eq_zero]
    intro e he
    rw [List.eq_of_mem_replicate he]
    simp
  rw [this, Nat.zero_add]
  exact le_of_eq (by congr)

/-- If the keywords of a function differ from each other, its parameters get their values by the rules of Python, for every call. -/
theorem bind_iff (s : Sig V) (hl : s.labels.length ≤ s.cpp.length) (hs : (s.labels.map (·.1)).Nodup) (pos : List V)
    (kw : List (String × V)) (hk : (kw.map (·.1)).Nodup) (r : List V) : bind s pos kw = some r ↔ Binds s pos kw r := by
  have hnames : ((s.argNames.drop pos.length).filterMap fun e => e.map (·.1)).Nodup := by
    have := argNames_names s
    rw [← List.take_append_drop pos.length s.argNames, List.filterMap_append] at this
    rw [← this] at hs
    exact (List.nodup_append.mp hs).2.1
  obtain ⟨hle, hall⟩ := taken_all kw hk _ hnames
  have hlen : (s.argNames.drop pos.length).length = s.cpp.length - pos.length := by simp [argNames_length s hl]
  have htl : (taken kw (s.argNames.drop pos.length)).length ≤ (s.argNames.drop pos.length).length :=
    le_trans (List.length_filter_le _ _) (List.length_filterMap_le _ _)
  unfold bind Binds
  simp only
  constructor
  · intro h
    split at h
    · simp at h
    · rename_i hn
      push Not at hn
      split at h
      · rename_i h1
        injection h with h
        subst h
        have hkw : kw = [] := by simpa using h1.1
        subst hkw
        refine ⟨by simpa using hn.2, [], by simp, ?_, by simp⟩
        have : s.argNames.drop pos.length = [] := by
          rw [← List.length_eq_zero_iff, hlen]
          have := h1.2
          simp at this
          omega
        rw [this]
        exact .nil
      · split at h
        · simp at h
        · cases hf : fill kw (s.argNames.drop pos.length) with
          | none => simp [hf] at h
          | some x =>
            obtain ⟨vs, c⟩ := x
            simp only [hf] at h
            obtain ⟨h1, rfl⟩ := (fill_iff kw hk _ _ _).mp hf
            split at h
            · simp at h
            · rename_i hc
              injection h with h
              subst h
              exact ⟨by omega, vs, rfl, h1, hall.mp (by omega)⟩
  · rintro ⟨hp, vs, rfl, hf, hkeys⟩
    have h1 := hall.mpr hkeys
    have h2 := takes_count kw _ _ hf
    have h3 := countP_argNames s pos.length
    rw [if_neg (by push Not; omega)]
    split
    · rename_i h4
      have hkw : kw = [] := by simpa using h4.1
      subst hkw
      have h5 := h4.2
      simp at h5
      have : vs.length = 0 := by rw [← hf.length_eq, hlen]; omega
      rw [List.length_eq_zero_iff] at this
      simp [this]
    · rename_i h4
      split
      · rename_i h5
        exfalso
        have h5' : s.labels = [] := by simpa using h5
        have hno : ∀ e ∈ s.argNames.drop pos.length, e = none := by
          intro e he
          have he := List.mem_of_mem_drop he
          simp only [Sig.argNames, h5', List.map_nil, List.append_nil] at he
          exact List.eq_of_mem_replicate he
        apply h4
        have hkw : kw = [] := by
          match kw with
          | [] => rfl
          | (k, v) :: _ =>
            obtain ⟨d, hd⟩ := hkeys k (by simp)
            simpa using hno _ hd
        refine ⟨by simp [hkw], ?_⟩
        match hd : s.argNames.drop pos.length with
        | [] => rw [hd] at hlen; simp at hlen; omega
        | e :: rest =>
          rw [hd] at hf
          cases hf with
          | cons he _ =>
            obtain ⟨_, _, he, _⟩ := he
            have := hno e (by rw [hd]; simp)
            rw [this] at he
            simp at he
      · rw [(fill_iff kw hk _ vs _).mpr ⟨hf, rfl⟩]
        simp only
        rw [if_neg (by omega)]

/-- Helper of the proofs: a signature without the values of its defaults -/
def Sig.bare (s : Sig V) : String × List String × List String := (s.name, s.cpp, s.labels.map (·.1))

/-- Helper of the proofs: the keyword of every parameter, if it has one -/
def bareNames (cpp labels : List String) : List (Option String) :=
  List.replicate (cpp.length - labels.length) none ++ labels.map some

/-- Helper of the proofs: a decidable form of the properties of the table -/
def okBare (b : String × List String × List String) : Bool :=
  decide (b.2.2.length ≤ b.2.1.length) && decide b.2.2.Nodup &&
    ((bareNames b.2.1 b.2.2).zip b.2.1).all fun x => match x.1 with
      | none => x.2 == "self"
      | some k => (k == x.2 || synonyms.contains (k, x.2)) && x.2 != "self"

theorem table_bare (d : String → V) : (table d).map Sig.bare = (table fun _ => ()).map Sig.bare := rfl

theorem table_ok (d : String → V) (s : Sig V) (hs : s ∈ table d) (hw : (s.name, s.cpp.length) ∉ wrong) : okBare s.bare = true := by
  have h : ∀ b ∈ (table fun _ => ()).map Sig.bare, (b.1, b.2.1.length) ∉ wrong → okBare b = true := by decide +kernel
  refine h s.bare ?_ hw
  rw [← table_bare d]
  exact List.mem_map.mpr ⟨s, hs, rfl⟩

/-- The calls of all functions but the five of `wrong` follow the rules of Python. -/
theorem table_binds (d : String → V) (s : Sig V) (hs : s ∈ table d) (hw : (s.name, s.cpp.length) ∉ wrong) (pos : List V)
    (kw : List (String × V)) (hk : (kw.map (·.1)).Nodup) (r : List V) : bind s pos kw = some r ↔ Binds s pos kw r := by
  have h := table_ok d s hs hw
  simp only [okBare, Sig.bare, Bool.and_eq_true, decide_eq_true_eq, List.length_map] at h
  exact bind_iff s h.1.1 (of_decide_eq_true h.1.2) pos kw hk r

theorem argNames_bare (s : Sig V) : s.argNames.map (fun e => e.map (·.1)) = bareNames s.cpp (s.labels.map (·.1)) := by
  simp [Sig.argNames, bareNames, Function.comp_def]

/-- The value of a keyword goes to the parameter that the keyword stands for, whatever else is given and however. -/
theorem keyword_reaches (d : String → V) (s : Sig V) (hs : s ∈ table d) (hw : (s.name, s.cpp.length) ∉ wrong) (pos : List V)
    (kw : List (String × V)) (hk : (kw.map (·.1)).Nodup) (r : List V) (hb : bind s pos kw = some r) (k : String) (v : V)
    (hv : (k, v) ∈ kw) : ∃ (i : Nat) (p : String), s.cpp[i]? = some p ∧ p ≠ "self" ∧ Means k p ∧ r[i]? = some v := by
  obtain ⟨hp, vs, rfl, hf, hkeys⟩ := (table_binds d s hs hw pos kw hk r).mp hb
  have h := table_ok d s hs hw
  simp only [okBare, Sig.bare, Bool.and_eq_true, decide_eq_true_eq, List.length_map, List.all_eq_true] at h
  obtain ⟨⟨hl, hnd⟩, hall⟩ := h
  obtain ⟨d', hd⟩ := hkeys k (List.mem_map.mpr ⟨_, hv, rfl⟩)
  obtain ⟨j, hj, hjd⟩ := List.mem_iff_getElem.mp hd
  have hj' : pos.length + j < s.argNames.length := by simp at hj; omega
  rw [List.getElem_drop] at hjd
  have hc : pos.length + j < s.cpp.length := by rw [← argNames_length s hl]; exact hj'
  have hbl : pos.length + j < (bareNames s.cpp (s.labels.map (·.1))).length := by rw [← argNames_bare, List.length_map]; exact hj'
  have hbn : (bareNames s.cpp (s.labels.map (·.1)))[pos.length + j] = some k := by
    simp only [← argNames_bare, List.getElem_map, hjd, Option.map_some]
  have hz := hall ((bareNames s.cpp (s.labels.map (·.1)))[pos.length + j], s.cpp[pos.length + j]) (by
    rw [List.mem_iff_getElem]
    exact ⟨pos.length + j, by rw [List.length_zip]; exact lt_min hbl hc, by rw [List.getElem_zip]⟩)
  simp only [hbn, Bool.and_eq_true, Bool.or_eq_true, beq_iff_eq, bne_iff_ne, ne_eq, List.contains_iff_mem] at hz
  refine ⟨pos.length + j, s.cpp[pos.length + j], by simp [hc], hz.2, hz.1, ?_⟩
  have hjv : j < vs.length := by rw [← hf.length_eq]; exact hj
  have ht := (List.forall₂_iff_get.mp hf).2 j hj hjv
  simp only [List.get_eq_getElem, List.getElem_drop, hjd] at ht
  obtain ⟨n', d'', he, hx⟩ := ht
  simp only [Option.some.injEq, Prod.mk.injEq] at he
  obtain ⟨rfl, rfl⟩ := he
  rw [List.getElem?_append_right (by omega), Nat.add_sub_cancel_left, List.getElem?_eq_getElem hjv]
  rcases hx with hx | ⟨hx, _⟩
  · have h1 := (lookup_some hk).mpr hx
    have h2 := (lookup_some hk).mpr hv
    rw [h1] at h2
    exact h2
  · exact absurd (List.mem_map.mpr ⟨_, hv, rfl⟩) hx

/-- The arguments without keywords are the first parameters in order, after the object itself; this holds for all functions. -/
theorem positional_reaches (s : Sig V) (pos : List V) (kw : List (String × V)) (r : List V) (hb : bind s pos kw = some r) (i : Nat)
    (hi : i < pos.length) : r[i]? = pos[i]? := by
  unfold bind at hb
  simp only at hb
  split at hb
  · simp at hb
  · split at hb
    · injection hb with hb; rw [hb]
    · split at hb
      · simp at hb
      · split at hb
        · simp at hb
        · split at hb
          · simp at hb
          · injection hb with hb
            subst hb
            rw [List.getElem?_append_left hi]

/-- Example: `graph.getRoute(a, to=b, withLaneChanges=False)` -/
example : ∃ s ∈ table (fun x => x), s.name = "getRoute" ∧
    bind s ["graph", "a"] [("withLaneChanges", "False"), ("to", "b")] = some ["graph", "a", "b", "0", "False"] :=
  ⟨⟨"getRoute", ["self", "from", "to", "costId", "withLaneChange"],
      [("from", none), ("to", none), ("routingCostId", some "0"), ("withLaneChanges", some "true")]⟩, by simp [table], rfl, by decide⟩

/-- Helper of the proofs: `Origin` with the values of its defaults -/
def originSig (a b c : V) : Sig V := ⟨"Origin", ["self", "lat", "lon", "alt"], [("lat", some a), ("lon", some b), ("lon", some c)]⟩

theorem origin_mem (d : String → V) : originSig (d "0.") (d "0.") (d "0") ∈ table d := by simp [table, originSig]

/-- `Origin(lat=a, lon=b)` creates an origin whose altitude is the longitude b, and no call with keywords for latitude and longitude can
give another altitude: even `Origin(lat=a, lon=b, alt=c)` is accepted and has altitude b. -/
theorem origin_altitude_counterexample (d : String → V) (self a b c : V) :
    bind (originSig (d "0.") (d "0.") (d "0")) [self] [("lat", a), ("lon", b)] = some [self, a, b, b] ∧
    bind (originSig (d "0.") (d "0.") (d "0")) [self] [("lat", a), ("lon", b), ("alt", c)] = some [self, a, b, b] := by
  constructor <;> simp [bind, originSig, Sig.argNames, fill, List.lookup]

/-- Helper of the proofs: `possiblePaths` with the values of its defaults -/
def possiblePathsSig (d : String → V) : Sig V :=
  ⟨"possiblePaths", ["self", "startPoint", "minRoutingCost", "routingCostId", "allowLaneChanges"],
      [("lanelet", none), ("minRoutingCost", none), ("RoutingCostId", some (d "0")), ("allowLaneChanges", some (d "false")),
        ("routingCostId", some (d "0"))]⟩

theorem possiblePaths_mem (d : String → V) : possiblePathsSig d ∈ table d := by simp [table, possiblePathsSig]

/-- The keywords of `possiblePaths` are shifted by one parameter: `graph.possiblePaths(l, c, allowLaneChanges=x)` uses x as the id of the
routing cost and 0 for the permission of lane changes, `routingCostId=y` permits lane changes by y, and the lanelet and the minimum cost
cannot be given by keyword. -/
theorem possiblePaths_shift_counterexample (d : String → V) (graph l c x : V) :
    bind (possiblePathsSig d) [graph, l, c] [("allowLaneChanges", x)] = some [graph, l, c, x, d "0"] ∧
    bind (possiblePathsSig d) [graph, l, c] [("routingCostId", x)] = some [graph, l, c, d "false", x] ∧
    bind (possiblePathsSig d) [graph] [("lanelet", l), ("minRoutingCost", c)] = none := by
  refine ⟨?_, ?_, ?_⟩ <;> simp [bind, possiblePathsSig, Sig.argNames, fill, List.lookup, List.countP, List.countP.go]

/-- Helper of the proofs: `SpeedLimitInformation` with the value of its default -/
def speedInfoSig (t : V) : Sig V :=
  ⟨"SpeedLimitInformation", ["speedLimitKph", "isMandatory"], [("speedLimitMPS", none), ("isMandatory", some t)]⟩

theorem speedInfo_mem (d : String → V) : speedInfoSig (d "true") ∈ table d := by simp [table, speedInfoSig]

/-- The constructor of `SpeedLimitInformation` takes the new object itself for the velocity, whatever is given: no call with a velocity can
work, and the keyword for it is always rejected. -/
theorem speedInfo_counterexample (t self : V) (pos : List V) (kw : List (String × V)) :
    (∀ r, bind (speedInfoSig t) (self :: pos) kw = some r → r.head? = some self) ∧
    ((kw.map (·.1)).Nodup → "speedLimitMPS" ∈ kw.map (·.1) → bind (speedInfoSig t) (self :: pos) kw = none) := by
  refine ⟨fun r hr => ?_, fun hk hm => ?_⟩
  · have := positional_reaches _ _ _ r hr 0 (by simp)
    rw [List.head?_eq_getElem?, this]
    rfl
  cases hb : bind (speedInfoSig t) (self :: pos) kw with
  | none => rfl
  | some r =>
    obtain ⟨_, vs, _, _, hkeys⟩ := (bind_iff _ (by simp [speedInfoSig]) (by simp [speedInfoSig]) _ _ hk _).mp hb
    obtain ⟨d, hd⟩ := hkeys _ hm
    simp [Sig.argNames, speedInfoSig] at hd
    have := List.mem_of_mem_drop hd
    simp at this

/-- `loadRobust` names its second parameter "filename": `loadRobust(filename=f, projector=p)` fails, and `loadRobust(p, filename=f)` takes
p for the name of the file. -/
theorem loadRobust_counterexample (f p : V) :
    bind ⟨"loadRobust", ["filename", "projector"], [("filename", none)]⟩ [] [("filename", f), ("projector", p)] = none ∧
    bind ⟨"loadRobust", ["filename", "projector"], [("filename", none)]⟩ [p] [("filename", f)] = some [p, f] := by
  constructor <;> simp [bind, Sig.argNames, fill, List.lookup]

/-- The function that sets `Object2d.absoluteHull`, matching.cpp 62-65 and 136-138: it has the list as only parameter, the attribute is set
by a call with the object and the list -/
def setHull : Sig V := ⟨"absoluteHull", ["l"], []⟩

/-- The hull of an object cannot be set, every assignment fails. -/
theorem setHull_counterexample (object hull : V) : bind setHull [object, hull] [] = none := by simp [bind, setHull]

end Verif.Py.Call
