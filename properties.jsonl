{"id": "C01", "title": "Ids handed out are globally unique", "statement": "Whatever mixture of utils::getId() and utils::registerId(id) calls is made by whatever number of threads, no two getId() calls ever return the same id, and a getId() that starts after a registerId(id) call has returned yields an id strictly greater than id (as long as the 64 bit counter does not overflow).", "quantifier": "all interleavings of the atomic steps of any number of concurrent getId/registerId calls, all registered ids", "why_tests_cant": "A test samples a handful of thread schedules; the compare-exchange loop has to be right for all of them.", "anchors": ["lanelet2_core/src/LaneletMap.cpp: getId, registerId, currId"]}
{"id": "C02", "title": "A map is self-contained after any sequence of adds", "statement": "After any sequence of LaneletMap::add calls, every primitive that is referenced by a primitive of the map (points of linestrings and polygons, bounds and custom centerline of lanelets, bounds of areas, regulatory elements of lanelets and areas, all live parameters of regulatory elements) exists in the corresponding layer of the map, even when lanelets and regulatory elements reference each other cyclically. add terminates.", "quantifier": "all finite object graphs (cyclic ones included) and all sequences of add calls", "why_tests_cant": "The object graph can be arbitrarily deep and cyclic; tests only contain a few fixed maps.", "anchors": ["lanelet2_core/src/LaneletMap.cpp: LaneletMap::add (all overloads), AddVisitor, AssignIdVisitor"]}
{"id": "C03", "title": "Adding never removes, replaces or re-adds", "statement": "add never removes an element nor changes which element an id resolves to; adding a primitive whose id already is in its layer changes nothing at all; adding the same primitive twice is the same as adding it once; every primitive in a layer is stored under its own, valid id.", "quantifier": "all maps reachable through add, all primitives", "why_tests_cant": "Needs all histories of adds including id collisions.", "anchors": ["lanelet2_core/src/LaneletMap.cpp: LaneletMap::add, PrimitiveLayer<T>::add"]}
{"id": "C04", "title": "Layer look-ups agree with each other", "statement": "For every layer and id: exists(id) is true iff get(id) returns an element iff find(id) is not end() (for id != InvalId); get on a missing or invalid id throws NoSuchPrimitiveError; get(id) returns an element whose id is id, namely the first element added under this id; iterating the layer visits each id once.", "quantifier": "all histories of adds to a layer, all ids", "why_tests_cant": "All histories, all ids.", "anchors": ["lanelet2_core/src/LaneletMap.cpp: PrimitiveLayer<T>::exists, get, find, add"]}
{"id": "C05", "title": "findUsages is exact", "statement": "After any history of adds, layer.findUsages(x) returns exactly the primitives of the layer that own x (linestrings/polygons containing a point, lanelets/areas with this bound or this regulatory element, regulatory elements with this parameter), none missing and none foreign.", "quantifier": "all histories of adds, all primitives x", "why_tests_cant": "Requires all histories; a secondary index must agree with the layer content at all times.", "anchors": ["lanelet2_core/src/LaneletMap.cpp: UsageLookup, PrimitiveLayer<T>::findUsages, PrimitiveLayer<T>::add"]}
{"id": "C06", "title": "geometry::findNearest returns the true nearest elements", "statement": "findNearest(layer, p, n) returns, for n >= 1, the min(n, size) elements with the smallest true distances in ascending order of distance: nothing that was left out is closer than anything returned. (The search may stop early on bounding box distances.)", "quantifier": "all layers, all query points, all n >= 1, for every distance function that is bounded below by the bounding box distance", "why_tests_cant": "Early termination of a branch-and-bound search is only right if it is right for all geometries.", "anchors": ["lanelet2_core/src/LaneletMap.cpp: geometry::findNearest, findNearestImpl, NSmallestElements"]}
{"id": "C07", "title": "geometry::findWithin2d/3d is exact and sorted", "statement": "findWithin2d(layer, geometry, maxDist) returns exactly the indexed elements whose distance to the geometry is <= maxDist, each with its true distance, in ascending order; with a negative maxDist nothing is returned.", "quantifier": "all layers, all query geometries, all maxDist", "why_tests_cant": "All geometries and thresholds.", "anchors": ["lanelet2_core/include/lanelet2_core/geometry/impl/LaneletMap.h: findWithin2d, findWithin3d"]}
{"id": "C08", "title": "Submaps hold only what was added; laneletMap() completes them", "statement": "A LaneletSubmap holds exactly the elements added explicitly (under their ids), and LaneletSubmap::laneletMap() yields a self-contained map that contains all elements of the submap.", "quantifier": "all histories of LaneletSubmap::add and all object graphs", "why_tests_cant": "All object graphs and histories.", "anchors": ["lanelet2_core/src/LaneletMap.cpp: LaneletSubmap::add, LaneletSubmap::laneletMap, utils::createSubmap"]}
{"id": "C09", "title": "Enum access and string access to attribute/parameter maps always agree", "statement": "After any history of insert, operator[], erase, clear, copy and move on a HybridMap (AttributeMap, RuleParameterMap), looking up a key by its enum value and by its string yields the same result, and every operation behaves like the operation on a plain std::map<string, value>; copies share nothing with the original.", "quantifier": "all histories of operations, all keys without embedded NUL", "why_tests_cant": "A redundant index of iterators has to be right after every history.", "anchors": ["lanelet2_core/include/lanelet2_core/utility/HybridMap.h: HybridMap"]}
{"id": "C10", "title": "Attribute conversions do not depend on the history of accesses", "statement": "For an attribute that was set from a string, asBool/asDouble/asId/asInt/asVelocity return a value that depends only on the current string: earlier accesses, copies and failed conversions have no influence, and after setValue no stale value is ever returned.", "quantifier": "all histories of setValue and as* calls, all strings", "why_tests_cant": "All histories of cache fills and resets.", "anchors": ["lanelet2_core/src/Attribute.cpp: Attribute::as*, setValue, AttributeCache", "lanelet2_core/include/lanelet2_core/Attribute.h"]}
{"id": "C11", "title": "Editing an inverted linestring equals editing its reversed point list", "statement": "Every mutation (insert, erase, push_back, pop_back, resize, clear, assignment) through a linestring handle, inverted or not, has on the sequence seen through that handle exactly the effect that the same operation has on a std::vector, returned iterators included; the opposite view always shows the reverse sequence; inverting twice is the identity.", "quantifier": "all histories of operations through any mix of inverted and not inverted handles on the same data", "why_tests_cant": "All positions, sizes and mixes of views.", "anchors": ["lanelet2_core/include/lanelet2_core/primitives/LineString.h: LineString3d (insert, erase, push_back, pop_back, resize, operator=), ConstLineStringImpl::segment, numSegments", "lanelet2_core/include/lanelet2_core/utility/ReverseAndForwardIterator.h"]}
{"id": "C12", "title": "Compound linestrings show the concatenation without repeated points", "statement": "Iterating a CompoundLineString/CompoundPolygon forwards yields the concatenation of the points of its elements in which every run of equal successive points is reduced to one; iterating backwards yields the reverse of that; ++ and -- are inverse to each other; size(), distance and random access agree with this sequence. Empty elements anywhere in the sequence do not matter.", "quantifier": "all lists of linestrings (also empty ones) with arbitrary repetitions of points", "why_tests_cant": "All partitions of all point lists into elements.", "anchors": ["lanelet2_core/include/lanelet2_core/utility/CompoundIterator.h: UniqueCompoundIterator", "lanelet2_core/include/lanelet2_core/primitives/CompoundLineString.h"]}
{"id": "C13", "title": "Lanelet inversion is consistent", "statement": "lanelet.invert() shows the right bound reversed as left bound and the left bound reversed as right bound; inverting twice is the identity; setting a bound through a handle makes exactly this bound visible through this handle and leaves the other untouched; leftOf/rightOf/follows are mirrored by inversion (leftOf(a,b) iff rightOf(a.invert(), b.invert()), follows(a,b) iff follows(b.invert(), a.invert())).", "quantifier": "all lanelets, all histories of bound changes through inverted and not inverted handles", "why_tests_cant": "All histories and bounds.", "anchors": ["lanelet2_core/include/lanelet2_core/primitives/Lanelet.h", "lanelet2_core/src/Lanelet.cpp", "lanelet2_core/include/lanelet2_core/geometry/impl/Lanelet.h: leftOf, rightOf, follows"]}
{"id": "C14", "title": "Cached centerlines and area polygons are never stale", "statement": "centerline() always equals the custom centerline if one with a valid id was set last, and otherwise the centerline computed from the current bounds; outerBoundPolygon/innerBoundPolygons of an area always equal the polygons of the current bounds, whatever bounds were set and whatever was queried before.", "quantifier": "all histories of setLeftBound/setRightBound/setCenterline/setOuterBound/setInnerBounds and queries", "why_tests_cant": "All histories of cache fill and reset.", "anchors": ["lanelet2_core/src/Lanelet.cpp: LaneletData::centerline, setLeftBound, setRightBound, setCenterline, resetCache", "lanelet2_core/include/lanelet2_core/primitives/Area.h: AreaData"]}
{"id": "C15", "title": "The computed centerline spans the lanelet and every point is a midpoint", "statement": "For bounds with at least two points each the centerline computation terminates, starts at the midpoint of the first points, ends at the midpoint of the last points, and each of its points is the midpoint of a left and a right bound point, where both indices never decrease along the centerline and at least one of them increases at every step.", "quantifier": "all left/right bounds and all outcomes of the geometric tests used to choose the next point", "why_tests_cant": "All bounds, all geometric predicates' outcomes.", "anchors": ["lanelet2_core/src/Lanelet.cpp: calculateCenterline"]}
{"id": "C16", "title": "Traffic rules: a lanelet is passable only in its legal direction and for allowed participants", "statement": "For a lanelet without regulatory elements overriding it, canPass(lanelet) holds iff the participant is permitted (by the participant overrides or else by the type) and the lanelet is not an inverted one-way lanelet; isOneWay gives the same answer for both directions; a lanelet that is not one-way is passable in one direction iff it is passable in the other.", "quantifier": "all attribute maps and participants", "why_tests_cant": "All attribute combinations.", "anchors": ["lanelet2_traffic_rules/src/GenericTrafficRules.cpp: canPass, isOneWay, isDrivingDir, hasOverride, getOverride"]}
{"id": "C17", "title": "Traffic rules: transitions require both ends to be passable", "statement": "canPass(from, to) implies that both from and to are passable for the participant and that they are geometrically connected, for all combinations of lanelets and areas.", "quantifier": "all pairs of lanelets/areas, all attributes", "why_tests_cant": "All attribute and geometry combinations.", "anchors": ["lanelet2_traffic_rules/src/GenericTrafficRules.cpp: canPass(ConstLanelet,ConstLanelet), canPass(ConstLanelet,ConstArea), canPass(ConstArea,ConstLanelet), canPass(ConstArea,ConstArea)"]}
{"id": "C18", "title": "Traffic rules: lane changes follow the marking of the shared bound, in both directions of travel", "statement": "canChangeLane(from, to) holds iff from and to share a bound as direct neighbours, both are passable, and the marking permits crossing from from's side; the decision is invariant under looking at both lanelets in the opposite (also passable) direction; explicit lane_change tags take precedence over the marking type.", "quantifier": "all lanelet pairs, all markings, all override tags, all participants", "why_tests_cant": "All tag combinations and inversions.", "anchors": ["lanelet2_traffic_rules/src/GenericTrafficRules.cpp: canChangeLane, laneChangeType, getChangeType, getHardcodedChangeType"]}
{"id": "C19", "title": "Traffic rules: the speed limit of a lanelet", "statement": "speedLimit(lanelet) is the limit of a regulatory element if there is one, else the one of the speed limit attributes of the lanelet if they are set for the participant, else the limit for the lanelet's type and location.", "quantifier": "all attribute maps, participants and regulatory elements", "why_tests_cant": "All attribute combinations.", "anchors": ["lanelet2_traffic_rules/src/GenericTrafficRules.cpp: speedLimit, getSpeedLimitFromType", "lanelet2_traffic_rules/src/GermanTrafficRules.cpp"]}
{"id": "C20", "title": "Registry look-up: exact name, then vehicle, then error", "statement": "TrafficRulesFactory::create(location, participant) uses the rules registered for exactly this location and participant if there are any, otherwise for vehicle subtypes the rules registered for 'vehicle', otherwise it throws InvalidInputError; later registrations replace earlier ones.", "quantifier": "all registration histories, all names", "why_tests_cant": "All registration histories.", "anchors": ["lanelet2_traffic_rules/src/TrafficRulesFactory.cpp"]}
{"id": "C21", "title": "shortestPath is optimal and complete", "statement": "shortestPath(from, to) returns a path exactly if to is reachable from from over the permitted relations; the path starts at from, ends at to, all its steps are edges of the graph, and no other path has lower routing cost.", "quantifier": "all routing graphs with non-negative costs (any number of parallel edges, cycles, zero costs), all start/end pairs", "why_tests_cant": "Optimality over all graphs and all competing paths.", "anchors": ["lanelet2_routing/src/RoutingGraph.cpp: shortestPathImpl, shortestPath", "lanelet2_routing/include/lanelet2_routing/internal/ShortestPath.h: DijkstraStyleSearch"]}
{"id": "C22", "title": "reachableSet is exact", "statement": "reachableSet(lanelet, maxRoutingCost) contains exactly the lanelets (with areas: exactly the lanelets and areas) for which a path with total cost <= maxRoutingCost exists, each once.", "quantifier": "all routing graphs, all starts, all limits", "why_tests_cant": "All graphs.", "anchors": ["lanelet2_routing/src/RoutingGraph.cpp: reachableSetImpl, reachableSet, reachableSetTowards"]}
{"id": "C23", "title": "forEachSuccessor visits by increasing cost, every vertex once, with its true minimal cost", "statement": "forEachSuccessor calls the callback for each reachable lanelet at most once, in order of non-decreasing cost, with the minimal cost over all paths whose inner lanelets were all accepted by the callback, and with a predecessor that was visited before; successors of a lanelet for which the callback returned false are only visited through other lanelets.", "quantifier": "all graphs, all (stateful) callbacks", "why_tests_cant": "All graphs and callbacks.", "anchors": ["lanelet2_routing/src/RoutingGraph.cpp: forEachSuccessor, forEachPredecessor", "lanelet2_routing/include/lanelet2_routing/internal/ShortestPath.h"]}
{"id": "C24", "title": "possiblePaths returns maximal shortest paths", "statement": "Each path returned by possiblePaths is a path of the graph from the start; it is a cheapest path to its end; no returned path is a proper prefix of another; with a cost limit each path reaches the limit for the first time at its last lanelet unless shorter paths are kept, in which case every reachable lanelet is on some path.", "quantifier": "all routing graphs, all limits", "why_tests_cant": "All graphs and limits.", "anchors": ["lanelet2_routing/src/RoutingGraph.cpp: possiblePathsImpl, StopIfCostMoreThan, StopIfLaneletsMoreThan, buildPath"]}
{"id": "C25", "title": "shortestPathVia visits the via points in order", "statement": "shortestPathVia(start, via, end) returns a path iff each leg is reachable; it passes the via lanelets in the given order; its cost is the sum of the optimal costs of the legs.", "quantifier": "all graphs, all lists of via points", "why_tests_cant": "All graphs and via lists.", "anchors": ["lanelet2_routing/src/RoutingGraph.cpp: shortestPathViaImpl"]}
{"id": "C26", "title": "Relation filters select exactly the documented relations", "statement": "Relation queries of a routing graph only report the relations they document; in particular routingRelation(from, to, includeConflicting=false), following, previous, left, right ... never report a Conflicting relation when it was not asked for.", "quantifier": "all graphs and relation sets", "why_tests_cant": "All graphs, all flag combinations.", "anchors": ["lanelet2_routing/include/lanelet2_routing/internal/Graph.h: withoutConflicting, EdgeCostFilter, getEdgeInfo", "lanelet2_routing/src/RoutingGraph.cpp: routingRelation"]}
{"id": "C27", "title": "Neighbour queries are consistent and complete", "statement": "besides(ll) lists all reachable neighbours from left to right with ll in the middle; left/adjacentLeft and right/adjacentRight are mutually exclusive for graphs with at most one relation per pair; leftRelations/lefts/adjacentLefts agree with single step queries; the queries terminate.", "quantifier": "all graphs (with acyclic neighbour relation for termination)", "why_tests_cant": "All graphs.", "anchors": ["lanelet2_routing/src/RoutingGraph.cpp: besides, left, lefts, leftRelations, getUntilEnd"]}
{"id": "C28", "title": "Routing cost: graph edges correspond to the traffic rules", "statement": "The routing graph contains a Successor edge from a to b iff both are passable, b follows a and canPass(a,b); Left/Right edges exist exactly for permitted lane changes between neighbours and AdjacentLeft/AdjacentRight for neighbours without permission; Conflicting edges between lanelets are symmetric, and overlapping lanelets of the graph that are not connected otherwise have them.", "quantifier": "all maps, all traffic rules", "why_tests_cant": "All maps and rules.", "anchors": ["lanelet2_routing/src/RoutingGraphBuilder.cpp: addFollowingEdges, addSidewayEdge, addConflictingEdge, addAreaEdge"]}
{"id": "C29", "title": "Every lane change is considered exactly once", "statement": "While building the graph every pair of neighbouring lanelets with a permitted lane change gets exactly one Left (or Right) edge for each cost module, whatever the iteration order of the hash map, and the chain building terminates.", "quantifier": "all sets of lane change pairs, all iteration orders", "why_tests_cant": "All iteration orders of an unordered container.", "anchors": ["lanelet2_routing/src/RoutingGraphBuilder.cpp: LaneChangeLaneletsCollector, addLaneChangeEdges"]}
{"id": "C30", "title": "A route contains its shortest path and its lanes are well-formed", "statement": "Every lanelet of the shortest path is in the route; remainingLane(ll) starts with ll, follows the following relation, and never repeats a lanelet except that it stops at a circle; fullLane(ll) contains ll; remainingShortestPath(ll) is the suffix of the shortest path that starts at ll.", "quantifier": "all route graphs and lanelets", "why_tests_cant": "All graphs.", "anchors": ["lanelet2_routing/src/Route.cpp: remainingLaneImpl, fullLane, remainingShortestPath", "lanelet2_routing/src/RouteBuilder.cpp"]}
{"id": "C31", "title": "Route validity check detects broken relations", "statement": "Route::checkValidity reports an error iff a relation that must be mirrored (left/right) is not mirrored.", "quantifier": "all route graphs", "why_tests_cant": "All graphs.", "anchors": ["lanelet2_routing/src/Route.cpp: checkValidity, checkRelationIs"]}
{"id": "C32", "title": "Reading OSM relations resolves members correctly", "statement": "After reading an OSM document, each relation holds exactly the members whose targets exist in the document, in document order, each under its role and pointing to the primitive with the referenced id; references to missing primitives are reported as errors; forward references between relations work.", "quantifier": "all OSM documents (also with dangling, forward and self references)", "why_tests_cant": "All documents and member orders.", "anchors": ["lanelet2_io/src/OsmFile.cpp: OsmFileParser::readRelations, removeAndFixPlaceholders, readNodes, readWays"]}
{"id": "C33", "title": "Writing relations keeps exactly the writable members", "statement": "When a map is written, each written relation holds exactly the parameters that are part of the map; parameters outside of the map are dropped with an error and do not disturb the remaining members.", "quantifier": "all maps, all regulatory elements", "why_tests_cant": "All combinations of missing members.", "anchors": ["lanelet2_io/src/OsmHandlerWrite.cpp: removeAndFixPlaceholders, resolveUnparsedMembers, tryInsertMembers"]}
{"id": "C34", "title": "A map written to OSM and read back is the same map", "statement": "Take any map with unique ids per OSM primitive type in which everything that is referenced is contained. Its attributes do not contradict the tags that OSM needs, linestrings are not empty, the directions of lanelet bounds follow from their positions, the boundaries of areas are rings that meet in distinct points and are valid in one direction only, and parameters of regulatory elements are not inverted handles. Then writing it to an OSM file and loading the file reports no errors and yields a map with the same ids, attributes (plus the tags), point sequences, bounds with their directions, rings (possibly starting at the second linestring), regulatory elements and parameters, at the positions obtained by projecting back and forth.", "quantifier": "all such maps, all projections, all hash orders", "why_tests_cant": "All maps and all orders of the hash maps.", "anchors": ["lanelet2_io/src/OsmHandlerWrite.cpp: ToFileWriter", "lanelet2_io/src/OsmHandlerLoad.cpp: FromFileLoader", "lanelet2_io/src/OsmFile.cpp"]}
{"id": "C35", "title": "A map loaded without errors is self-contained and complete", "statement": "Whatever the file contains, loading terminates and produces a self-contained map. If no error is reported, each lanelet/multipolygon/regulatory element relation of the file is in the map with the bounds and members of the file.", "quantifier": "all OSM files", "why_tests_cant": "All files, including malformed ones.", "anchors": ["lanelet2_io/src/OsmHandlerLoad.cpp: FromFileLoader"]}
{"id": "C36", "title": "Multipolygon rings are assembled correctly", "statement": "assembleBoundary turns a list of linestrings into rings: each ring is a sequence of input linestrings (possibly inverted) where each ends where the next starts and the last ends where the first starts; every input linestring is used at most once and, if no error is reported, every one is used; the assembly terminates.", "quantifier": "all lists of linestrings", "why_tests_cant": "All sets of linestrings and orders.", "anchors": ["lanelet2_io/src/OsmHandlerLoad.cpp: assembleBoundary"]}
{"id": "C37", "title": "Ids created after loading never collide with ids of the file", "statement": "After a map was loaded (OSM or binary) no id returned by utils::getId() equals an id of the loaded map.", "quantifier": "all files", "why_tests_cant": "All id sets (negative, huge, unordered).", "anchors": ["lanelet2_io/src/OsmHandlerLoad.cpp: registerIds", "lanelet2_io/src/BinHandler.cpp"]}
{"id": "C38", "title": "Trailing zero stripping preserves coordinates", "statement": "The coordinate string written to the OSM file denotes the same number as the fixed precision string it was made from and never becomes empty.", "quantifier": "all fixed precision decimal strings", "why_tests_cant": "All strings.", "anchors": ["lanelet2_io/src/OsmFile.cpp: toJosmStyle"]}
{"id": "C39", "title": "Serialization restores cyclic lanelet/regulatory element graphs", "statement": "Saving a map to the binary format and loading it restores the same object graph (ids, attributes, inversion of bounds, shared objects stay shared) even when lanelets and regulatory elements reference each other.", "quantifier": "all maps", "why_tests_cant": "All (cyclic) object graphs.", "anchors": ["lanelet2_io/include/lanelet2_io/io_handlers/Serialize.h", "lanelet2_io/src/BinHandler.cpp"]}
{"id": "C40", "title": "Regulatory elements keep their parameters consistent", "statement": "For AllWayStop, if at least one stop line exists each yielding lanelet has its own stop line and getStopLine(lanelet) returns the one it was added with, after any history of add/remove; for RightOfWay getManeuver reports RightOfWay iff the lanelet has right of way, else Yield iff it has to yield; TrafficLight/TrafficSign remove undoes add.", "quantifier": "all histories of add/remove calls", "why_tests_cant": "All histories.", "anchors": ["lanelet2_core/src/BasicRegulatoryElements.cpp: AllWayStop, RightOfWay, TrafficLight, TrafficSign, findAndErase"]}
{"id": "C41", "title": "Projection on a segment gives the nearest point", "statement": "geometry::project(segment, p) / distance for a point and a segment: the returned point lies on the segment and no point of the segment is closer.", "quantifier": "all segments and points with exact arithmetic (also degenerate segments)", "why_tests_cant": "All coordinates.", "anchors": ["lanelet2_core/src/LineStringGeometry.cpp: projectedPoint(segment, point)"]}
{"id": "C42", "title": "Nearest segment search is exact with and without index", "statement": "For linestrings of any length project()/projectedPoint find a segment of minimal distance; the search with the R-tree (long linestrings) returns the same distance as brute force; swapping the arguments swaps the results.", "quantifier": "all linestrings, all distance functions bounded below by box distances", "why_tests_cant": "All geometries on both sides of the size threshold.", "anchors": ["lanelet2_core/src/LineStringGeometry.cpp: projectedPointL2LWithTree, projectedPointL2PWithTree, distForAllSegments, projectedPointOrdered"]}
{"id": "C43", "title": "Points at a distance along a linestring", "statement": "interpolatedPointAtDistance(ls, d) lies on the linestring at arc length d from the start (for negative d from the end) up to 1e-8, clamped to the ends; nearestPointAtDistance(ls, d) is a point of the linestring whose arc length is closest to d; lengthRatios sum to one and accumulatedLengthRatios are non-decreasing and end in one.", "quantifier": "all linestrings with positive length, all d", "why_tests_cant": "All geometries.", "anchors": ["lanelet2_core/include/lanelet2_core/geometry/impl/LineString.h: interpolatedPointAtDistance, nearestPointAtDistance, lengthRatios, accumulatedLengthRatios"]}
{"id": "C44", "title": "Arc coordinates locate the projection", "statement": "toArcCoordinates(ls, p).length is the arc length from the start of ls to the projection of p on ls, and fromArcCoordinates undoes it.", "quantifier": "all linestrings, all points", "why_tests_cant": "All geometries, e.g. self touching linestrings.", "anchors": ["lanelet2_core/include/lanelet2_core/geometry/impl/LineString.h: toArcCoordinates, fromArcCoordinates"]}
{"id": "C45", "title": "approximatedLength2d never overestimates", "statement": "approximatedLength2d(lanelet) is at most the length of the left bound and at least the distance of its end points, and exact for left bounds with less than 20 points; no point outside of the bound is accessed, even for empty bounds.", "quantifier": "all bounds in any metric space", "why_tests_cant": "All polylines.", "anchors": ["lanelet2_core/include/lanelet2_core/geometry/impl/Lanelet.h: approximatedLength2d"]}
{"id": "C46", "title": "Lanelet sequences look the same from both directions", "statement": "The bounds of a LaneletSequence are the duplicate free concatenation of the bounds of its lanelets; inverting the sequence gives the inverted bounds on swapped sides; iterating an inverted sequence gives the inverted lanelets in reverse order.", "quantifier": "all lists of lanelets", "why_tests_cant": "All lists.", "anchors": ["lanelet2_core/include/lanelet2_core/primitives/LaneletSequence.h", "lanelet2_core/src/LaneletSequence.cpp"]}
{"id": "C47", "title": "Validators report every problem exactly", "statement": "The duplicated points validator reports a linestring/polygon iff it has two equal successive points; the mandatory tags validator reports a primitive iff a mandatory tag is missing; the unknown tag value validator reports a known tag with an unknown value; a validator is run at most once and iff its name matches one of the filters (or there are no filters).", "quantifier": "all maps, attribute maps, filters", "why_tests_cant": "All maps.", "anchors": ["lanelet2_validation/src/validators/mapping/*.cpp", "lanelet2_validation/src/ValidatorFactory.cpp", "lanelet2_validation/src/Validation.cpp"]}
{"id": "C48", "title": "Matching returns both directions of all close lanelets in order", "statement": "getDeterministicMatches returns for every lanelet within maxDist both the lanelet and its inverted version and nothing else, ordered by distance; removeNonRuleCompliantMatches removes exactly the matches the traffic rules do not permit, and keeps the order.", "quantifier": "all maps, objects, thresholds and rules", "why_tests_cant": "All maps.", "anchors": ["lanelet2_matching/src/LaneletMatching.cpp"]}
{"id": "C49", "title": "Convex partition and triangulation of polygons", "statement": "convexPartition of a simple clockwise polygon succeeds and gives convex polygons made of the polygon's points that yield the polygon if merged; triangulate gives n-2 index triangles that make up the polygon. Splitting a convex polygon yields n-2 triangles that cover exactly its indices; merging two polygons over a common edge gives the cyclic sequence in which the edge is replaced by the rest of the other polygon.", "quantifier": "all polygons, all Voronoi diagrams, all orders of the connections", "why_tests_cant": "All sizes, shapes, rotations and traversal orders.", "anchors": ["lanelet2_core/src/PolygonTriangulationGeometry.cpp", "lanelet2_core/include/lanelet2_core/geometry/Polygon.h"]}
{"id": "C50", "title": "Bounding boxes contain their geometry and intersection tests are sound", "statement": "boundingBox2d/3d of a linestring, polygon, lanelet or regulatory element contains all its points and is the smallest such box; extending is commutative, associative and monotone; intersects is true iff some point is in both boxes.", "quantifier": "all primitives", "why_tests_cant": "All geometries.", "anchors": ["lanelet2_core/include/lanelet2_core/primitives/BoundingBox.h", "lanelet2_core/include/lanelet2_core/geometry/impl/LineString.h: boundingBox", "lanelet2_core/src/RegulatoryElementGeometry.cpp"]}
{"id": "C51", "title": "The lane polygon of a path is closed and made of the bounds", "statement": "For a lanelet path the enclosing polygon consists of the left bound points from start to end and the right bound points from end to start, without repeated successive points.", "quantifier": "all lanelet paths", "why_tests_cant": "All paths.", "anchors": ["lanelet2_routing/src/LaneletPath.cpp: getEnclosingPolygon3d"]}
{"id": "C52", "title": "Routing costs never go below zero and lane changes respect the minimum length", "statement": "Travel and lane change costs of the shipped cost modules are non-negative for non-negative speed limits, so the search invariants hold; with positive speed limits they are the mean length or travel time of both lanelets; a lane change over a shorter distance than the minimum gets infinite cost and thus no Left/Right edge; a negative cost, of any cost module, is rejected with an error rather than entering the graph, so all edges of any built graph have finite, non-negative cost.", "quantifier": "all lanelet lists, all parameters", "why_tests_cant": "All inputs.", "anchors": ["lanelet2_routing/include/lanelet2_routing/RoutingCost.h", "lanelet2_routing/src/RoutingCost.cpp", "lanelet2_routing/include/lanelet2_routing/internal/Graph.h: addEdge"]}
{"id": "C53", "title": "Concurrent conversions of an attribute are safe", "statement": "asBool, asDouble, asId, asInt and asVelocity are const; several threads may call them on the same attribute at the same time without undefined behaviour, and each gets the value of the string.", "quantifier": "all numbers of threads, all schedules, all combinations of conversions", "why_tests_cant": "A test sees a few schedules; the window between loading the cache pointer and using it is a few instructions.", "anchors": ["lanelet2_core/src/Attribute.cpp: store, load, as*"]}
{"id": "C54", "title": "Writing a map to an OSM document and reading it back", "statement": "A map that OSM can represent and none of whose primitives has an attribute called 'ele', written to an OSM document and loaded from it, gives the same map without errors: same ids, attributes, references, rings, parameters. Only positions may change, and only by what projecting back and forth and the text of the coordinates do to them. An attribute called 'ele' is taken for the height and lost.", "quantifier": "all maps, all projections, all ways to print and parse numbers", "why_tests_cant": "Nested references, order of tags and members and forward references between relations have no bound.", "anchors": ["lanelet2_io/src/OsmFile.cpp: write, read", "lanelet2_io/src/OsmHandlerWrite.cpp: write", "lanelet2_io/src/OsmHandlerLoad.cpp: parse"]}
{"id": "C55", "title": "Validity check of a routing graph", "statement": "RoutingGraph::checkValidity returns no error iff every lanelet and area has at most one left, adjacent left, right and adjacent right neighbour, none has both a left and an adjacent left (right and adjacent right) lanelet, and every such neighbouring lanelet has the lanelet as its neighbour on the opposite side. Whenever lanes can be counted to the left and to the right (no chain of neighbours is a circle) it returns; otherwise it may run forever.", "quantifier": "all routing graphs, all iteration orders of its lookup", "why_tests_cant": "Graphs of any size with any combination of edges; tests check the graphs of one small map.", "anchors": ["lanelet2_routing/src/RoutingGraph.cpp: checkValidity, neighboringLaneletImpl, leftRelations, rightRelations"]}
{"id": "C56", "title": "Relations of a route are those of the map", "statement": "The relations between two lanelets of a route (following, previous, left, right, adjacent, conflicting) are exactly those of the routing graph between these lanelets for the requested cost id, each once and with the same cost; every lanelet of a route is reachable from its first one within the route; conflictingInMap(ll) gives exactly the lanelets and areas conflicting with ll in the routing graph, and allConflictingInMap those of all its lanelets.", "quantifier": "all routing graphs, all shortest paths, with and without lane changes", "why_tests_cant": "Routes of any size; a relation that is lost or doubled shows only for some combinations of edges.", "anchors": ["lanelet2_routing/src/RouteBuilder.cpp: RouteConstructionVisitor, getRouteFromShortestPath", "lanelet2_routing/src/Route.cpp: conflictingInMap, allConflictingInMap, followingRelations, previousRelations"]}
{"id": "C57", "title": "Lanes of a route", "statement": "Two lanelets of a route have the same lane id iff they are in the same lane, i.e. one gets from one to the other along lanelets each of which has the next one as its only follower in the route and is the only predecessor of it.", "quantifier": "all routes", "why_tests_cant": "Forks and merges in any combination; lanes can be circles.", "anchors": ["lanelet2_routing/src/RouteBuilder.cpp: RouteConstructionVisitor, setLaneIds", "lanelet2_routing/include/lanelet2_routing/Route.h"]}
{"id": "C58", "title": "A route holds the adjacent lanelets that lead to the goal, and building it ends", "statement": "getRoute returns for every start and end and never shows undefined behaviour. The lanelets of the route that are not on the shortest path are next to it and lead to the goal without leaving the route; lanelets that can be used to get to the goal without leaving the road of the shortest path are on the route, those from which one cannot get there are not.", "quantifier": "all routing graphs, all starts and ends", "why_tests_cant": "The construction goes on until nothing changes; its result depends on the whole graph.", "anchors": ["lanelet2_routing/include/lanelet2_routing/Route.h", "lanelet2_routing/src/RouteBuilder.cpp: RouteUnderConstruction, VisitedLaneletGraph", "lanelet2_routing/README.md"]}
{"id": "C59", "title": "Curvature of three points", "statement": "signedCurvature2d(p1, p2, p3) is, in magnitude, the inverse of the radius of the circle through the points; it is positive for a turn to the left, negative for a turn to the right, zero exactly for points of one line, and changes its sign if the points are taken in the other direction. It is infinite exactly if points nearly coincide, which includes straight lines with very dense points. curvature2d is its magnitude.", "quantifier": "all triples of points of the plane", "why_tests_cant": "Sign and radius can be wrong for some positions only; tests check a few triangles.", "anchors": ["lanelet2_core/include/lanelet2_core/geometry/impl/LineString.h: signedCurvature2d, curvature2d"]}
{"id": "C60", "title": "Offset of a linestring", "statement": "offset(line, d) throws InvalidInputError for fewer than two points. Otherwise it returns a line that runs parallel to the given one at the distance d to the left (to the right for negative d), begins beside its first and ends beside its last point, all of whose points are between 1 and sqrt(2) times the distance away from the line, without self-intersections; corners of more than 90 degrees on the outer side get an additional point. It throws GeometryError exactly if the line is inverted by the offset, i.e. if a point of the result would be closer than the distance. offsetNoThrow returns the line without that check.", "quantifier": "all linestrings of the plane, all distances", "why_tests_cant": "Every sequence of corners and any ratio of distance and segment lengths; tests have a few lines, all with offsets to the left.", "anchors": ["lanelet2_core/include/lanelet2_core/geometry/LineString.h: offset, offsetNoThrow", "lanelet2_core/include/lanelet2_core/geometry/impl/LineString.h: extractConvex, joinSubStrings, checkForInversion"]}
{"id": "C61", "title": "Projections can be undone and keep angles", "statement": "For every projector, projecting a position to local coordinates and back gives the position (for the elliptical Mercator projection: within 0.5 billionths of a degree), and projecting local coordinates to a position and back gives the coordinates. The Mercator projections scale lengths to the east and to the north alike. The UTM projector with offset gives coordinates relative to the origin, the one that rejects the padding area projects exactly the positions in the zone and hemisphere of the origin. The origin is at 0, 0 if the projector applies it as an offset, and different positions get different coordinates.", "quantifier": "for all origins and positions between the poles, and all flags", "why_tests_cant": "A continuum of positions and an iterative solution whose convergence near the poles can not be sampled; tests compare a handful of positions with a tolerance.", "anchors": ["lanelet2_io/include/lanelet2_io/Projection.h: SphericalMercatorProjector", "lanelet2_projection/include/lanelet2_projection/Mercator.h: Mercator", "lanelet2_projection/src/UTM.cpp: UtmProjector"]}
{"id": "C62", "title": "Borders between lanelets and areas", "statement": "Two areas are adjacent iff they have a common edge that they pass in opposite directions; the answer does not depend on their order. Areas with a common linestring are adjacent. determineCommonLine for an area and a lanelet gives a linestring of the area's boundary that is a bound of the lanelet or connects the ends of its bounds at its start or end, and gives nothing only if there is none; an area that follows a lanelet has such a line. overlaps2d is symmetric, does not depend on the direction of the lanelets and says for lanelets that are not neighbours whether their insides have common points.", "quantifier": "all areas and lanelets, also inverted ones", "why_tests_cant": "All combinations of directions of shared linestrings and of points in boundaries; tests use a few hand-made maps.", "anchors": ["lanelet2_core/include/lanelet2_core/geometry/impl/Area.h: adjacent, determineCommonLine*", "lanelet2_core/include/lanelet2_core/geometry/impl/Lanelet.h: overlaps2d"]}
{"id": "C63", "title": "Positions of intersections along both centerlines", "statement": "intersectCenterlines2d returns the intersections of the centerlines of two lanelets and appends to the two vectors the distances of these points along the centerline of the first and of the second lanelet.", "quantifier": "all pairs of centerlines", "why_tests_cant": "All polylines; tests only look at the number of intersections.", "anchors": ["lanelet2_core/include/lanelet2_core/geometry/impl/Lanelet.h: intersectCenterlines2d"]}
{"id": "C64", "title": "Handlers for files and how errors reach the caller", "statement": "load and write use the handler that was registered last for the extension of the file (from the last dot of the file name on), or under the given name; if there is none they throw UnsupportedExtensionError or UnsupportedIOHandlerError, and load throws FileNotFoundError before anything else if there is no file. The available names and extensions are the registered ones, sorted, each once; the order of registration only matters if two handlers share a name or extension. Exceptions of the handler reach the caller. Problems found by the handler are all reported: they replace the contents of the vector of errors, if the caller passed one, otherwise they are thrown as ParseError (load) or WriteError (write); without problems nothing is thrown. A map with positions cannot be loaded from an osm file without an origin.", "quantifier": "all sequences of registrations, all files, handlers and error vectors", "why_tests_cant": "Registrations of plugins in any order; tests only see the handlers of the library and a few files.", "anchors": ["lanelet2_io/src/Io.cpp", "lanelet2_io/src/Factory.cpp", "lanelet2_io/include/lanelet2_io/io_handlers/Factory.h", "lanelet2_io/include/lanelet2_io/io_handlers/IoHandler.h", "lanelet2_io/src/OsmHandlerLoad.cpp: OsmParser::parse", "lanelet2_io/src/OsmHandlerWrite.cpp: OsmWriter::write"]}
{"id": "C65", "title": "Paths on a map are legal and shortest", "statement": "For a map, traffic rules and a cost module, RoutingGraph::build followed by shortestPath gives the shortest legal trip: every lanelet on it may be used by the participant in this direction, every step leads to a lanelet whose two bounds begin where those of the last one end, or, if requested, is a lane change over a bound that may be crossed from this side; its cost (half the length or travel time of every two lanelets joined, plus the cost of lane changes) is minimal among all such trips; nothing is returned only if there is none. reachableSet gives exactly the lanelets with a legal trip that costs at most the limit.", "quantifier": "all maps, attributes, participants, costs, start and end lanelets", "why_tests_cant": "The whole chain from tags to paths over all maps; tests use one map and compare a few paths.", "anchors": ["lanelet2_routing/src/RoutingGraph.cpp: build, shortestPath, reachableSet", "lanelet2_routing/src/RoutingGraphBuilder.cpp", "lanelet2_routing/include/lanelet2_routing/RoutingCost.h", "lanelet2_traffic_rules/src/GenericTrafficRules.cpp"]}
{"id": "C66", "title": "Looking up parameters of regulatory elements", "statement": "find<T>(id) returns a parameter of this type and id that still exists, the first in the order of the roles, and nothing only if there is none; find without a type does the same for parameters of any type. has(element, id) is true exactly if a parameter, a point of it or of its bounds, or another member of it (a bound, a hole, a regulatory element) has the id. Visitors see every parameter once with its role. getParameters<T>(role) gives the parameters of the role and type that still exist, in their order; expired lanelets and areas never show up. addParameter changes only its role.", "quantifier": "all regulatory elements with any roles and parameters, also expired ones, all ids", "why_tests_cant": "Combinations of roles, types, expired references and nested ids; tests look for one id in one element.", "anchors": ["lanelet2_core/include/lanelet2_core/primitives/RegulatoryElement.h: find, getParameters, addParameter", "lanelet2_core/src/RegulatoryElement.cpp: applyVisitor, has, getParameters", "lanelet2_core/src/Lanelet.cpp: has", "lanelet2_core/include/lanelet2_core/primitives/Area.h: has"]}
{"id": "C67", "title": "Queries of the routing graph in terms of the map", "statement": "For a map, traffic rules and a cost module, after RoutingGraph::build: following (previous) gives exactly the lanelets the participant may use whose bounds begin (end) where those of the lanelet end (begin), with lane changes also those to (from) which they may change. left and right give only lanelets that share the bound on that side, may be used and may be changed to, adjacentLeft and adjacentRight only those to which they may not change; if neighbours are unique and connected in no other way, nothing is missing, and the neighbour has the lanelet as its neighbour on the other side. Conflicts are mutual, between lanelets that overlap or are the two directions of one. possiblePaths and possiblePathsTowards give legal trips without repeated lanelets from (to) the lanelet that reach the limit of the cost; every lanelet that is first reached beyond the limit is the end of one, and with shorter paths every lanelet that is reached within the limit is on one. shortestPathVia gives shortest legal trips between consecutive lanelets, joined, and nothing exactly if one of them does not exist.", "quantifier": "all maps, attributes, participants, costs, lanelets, limits and lists of lanelets", "why_tests_cant": "The whole chain from tags to the results of queries over all maps; tests use one map and look at a few lanelets.", "anchors": ["lanelet2_routing/src/RoutingGraph.cpp: following, previous, left, right, adjacentLeft, adjacentRight, conflicting, possiblePaths, possiblePathsTowards, shortestPathVia", "lanelet2_routing/src/RoutingGraphBuilder.cpp", "lanelet2_traffic_rules/src/GenericTrafficRules.cpp"]}
{"id": "C68", "title": "Routes on a map", "statement": "For a map, traffic rules and a cost module, after RoutingGraph::build: getRoute gives nothing exactly if there is no legal trip between the lanelets, otherwise a route whose shortest path is the shortest legal trip and which contains it; getRouteVia the same with shortest legal trips between consecutive lanelets. Only lanelets on which the participant may drive are on a route. followingRelations and previousRelations of a lanelet are exactly the lanelets of the route that begin where it ends and end where it begins. Every lanelet of the route leads to the destination by a legal trip along lanelets of the route. Lanelets that conflict with one of the route overlap with it or are its other direction, and overlapping lanelets that neither follow nor neighbour it are reported.", "quantifier": "all maps, attributes, participants, costs, lanelets and lists of lanelets", "why_tests_cant": "The whole chain from tags to routes over all maps; tests use one map and look at a few routes.", "anchors": ["lanelet2_routing/src/RoutingGraph.cpp: getRoute, getRouteVia", "lanelet2_routing/src/RouteBuilder.cpp", "lanelet2_routing/src/Route.cpp", "lanelet2_routing/src/RoutingGraphBuilder.cpp", "lanelet2_traffic_rules/src/GenericTrafficRules.cpp"]}
{"id": "C69", "title": "Debug maps and exports of routing graphs", "statement": "getDebugLaneletMap of a routing graph fails exactly if there is no such cost module. Otherwise the map has exactly one point per element of the graph, with its id. Two elements are joined by a linestring exactly if the graph has a relation between them of a kind that is shown (adjacent and conflicting ones only if asked for); there is one per pair, it leads along such a relation, has its kind and cost, and has the kind and cost of the opposite relation exactly if there is one. exportGraphML and exportGraphViz fail exactly without a file name, for cost modules that do not exist or if the file cannot be opened; otherwise they write all elements and exactly the relations of the cost module that are not excluded, each once, with the name (and in GraphViz files the colour) of its kind.", "quantifier": "all routing graphs, cost modules, kinds of relations and orders of hash maps", "why_tests_cant": "All graphs and iteration orders; tests look at the numbers of points and linestrings of one graph or only check that no exception is thrown.", "anchors": ["lanelet2_routing/src/RoutingGraph.cpp: getDebugLaneletMap, exportGraphML, exportGraphViz", "lanelet2_routing/include/lanelet2_routing/internal/RoutingGraphVisualization.h", "lanelet2_routing/include/lanelet2_routing/Forward.h: relationToString"]}
{"id": "C70", "title": "Debug maps of routes", "statement": "getDebugLaneletMap of a route has exactly one point per lanelet of the route. It has the id of the lanelet, its lane and a mark exactly if the lanelet is on the shortest path. Every two lanelets that are related are joined by a linestring that lists the relations between them in both directions.", "quantifier": "all routes and orders of containers", "why_tests_cant": "All routes; tests look at the map of a few routes.", "anchors": ["lanelet2_routing/src/Route.cpp: getDebugLaneletMap", "lanelet2_core/src/LaneletMap.cpp: createMap, add"]}
{"id": "C71", "title": "Conflicts across routing graphs", "statement": "RoutingGraphContainer::conflictingInGraph reports exactly the lanelets of the graph that overlap with the lanelet (unless they are neighbours) or are its other direction, and that are not the lanelet itself; with a height of the participant only those whose difference in height is less. It fails exactly if there is no such graph. Conflicts are mutual and grow with the height. conflictingInGraphs and conflictingOfRouteInGraphs give the answers of every graph in their order; conflicts of a route are the conflicts of its lanelets, each once.", "quantifier": "all maps, graphs, lanelets, routes and heights", "why_tests_cant": "All maps and combinations of graphs; tests look at a few lanelets of one map.", "anchors": ["lanelet2_routing/include/lanelet2_routing/RoutingGraphContainer.h", "lanelet2_core/include/lanelet2_core/geometry/impl/Lanelet.h: overlaps2d, overlaps3d"]}
{"id": "C72", "title": "Aligned bounds", "statement": "align returns the two given linestrings, each possibly inverted, so that the first is to the left of the second and both have the same direction. The bounds of a lane are found again from any of the four combinations of directions; calling align again changes nothing. Linestrings without points and pairs of single points are returned as they are. It never fails.", "quantifier": "all pairs of linestrings in all directions", "why_tests_cant": "All shapes and directions; tests align two straight lines.", "anchors": ["lanelet2_core/include/lanelet2_core/geometry/LineString.h: align", "lanelet2_core/include/lanelet2_core/geometry/impl/LineString.h: align"]}
{"id": "C73", "title": "Shifting a point of a linestring sideways", "statement": "lateralShiftPointAtIndex moves the point with the given index (from the end if negative) by exactly the given distance, to the left if it is positive, orthogonally to the line through its neighbours. It throws InvalidInputError exactly if there is no such point or the linestring has less than two points.", "quantifier": "all linestrings, indices and distances", "why_tests_cant": "All corners, repeated points, signs and indices; tests shift points of one line.", "anchors": ["lanelet2_core/include/lanelet2_core/geometry/LineString.h: lateralShiftPointAtIndex", "lanelet2_core/include/lanelet2_core/geometry/impl/LineString.h: lateralShiftPointAtIndex, fromArcCoords"]}
{"id": "C74", "title": "Crossings with heights", "statement": "intersects3d is true exactly if the linestrings cross in the plane at a point where their heights differ by less than the tolerance; overlaps3d is true exactly if the shapes overlap in the plane and their heights differ by less than the tolerance where they do.", "quantifier": "all linestrings, lanelets, polygons and tolerances", "why_tests_cant": "All shapes and slopes; tests use level lines at two heights.", "anchors": ["lanelet2_core/include/lanelet2_core/geometry/impl/LineString.h: intersects3d", "lanelet2_core/include/lanelet2_core/geometry/impl/Lanelet.h: intersects3d, overlaps3d", "lanelet2_core/include/lanelet2_core/geometry/impl/Polygon.h: overlaps3d"]}
{"id": "C75", "title": "Equality of OSM files", "statement": "Two osm::File objects compare equal exactly if they have primitives with the same ids, ways with the same nodes in the same order and relations with the same members in the same order. Comparison is reflexive, symmetric and transitive and never fails; a file that is written and read again compares equal to the original.", "quantifier": "all files without null pointers", "why_tests_cant": "All pairs of files; tests only compare a file with itself after it was written and read.", "anchors": ["lanelet2_io/include/lanelet2_io/io_handlers/OsmFile.h: operator==", "lanelet2_io/src/OsmFile.cpp: operator=="]}
{"id": "C76", "title": "Maps from lists of primitives", "statement": "utils::createMap gives a map with exactly the given primitives and what they reference, utils::createSubmap one with exactly the given primitives. An id is resolved to the first of them with this id. Created maps are self-contained, usages and searches are as exact as if the elements had been added, ids of elements do not change and ids of the map are not given again.", "quantifier": "all lists of primitives, also with repeated elements and shared points, and all ids", "why_tests_cant": "All lists and all sharing of ids; tests create maps from one or two elements.", "anchors": ["lanelet2_core/src/LaneletMap.cpp: createMap, createSubmap, createConstMap, createConstSubmap, toMap"]}
{"id": "C77", "title": "Routing after saving and loading", "statement": "If a map can be represented as an OSM file, then writing it and loading the file again changes no answer of the routing graph: the same lanelets may be used in the same directions, a route is found iff one was found before, every route found is a legal trip in terms of the ids, tags, bounds and points of the original map, and its costs are the same (with the same lengths) or differ by at most the change of the lengths of its lanelets. The same lanelets are reachable. This holds wherever the primitives are in memory and in whatever order layers are iterated.", "quantifier": "all maps that OSM can represent, all participants, cost modules and limits, all pairs of lanelets and directions", "why_tests_cant": "Composes writing, reading, traffic rules, graph construction and search, each over all maps; tests check them one by one on the example map.", "anchors": ["lanelet2_io/src/OsmHandlerWrite.cpp", "lanelet2_io/src/OsmHandlerLoad.cpp", "lanelet2_routing/src/RoutingGraph.cpp: build, shortestPath, reachableSet", "lanelet2_traffic_rules/src/GenericTrafficRules.cpp"]}
{"id": "C78", "title": "Python: linestrings and polygons behave like lists", "statement": "In Python, a linestring or polygon and its invert() behave like a list and the same list read from behind: ls[i] (negative indices count from the end), ls[i] = p, del ls[i], append, len and iteration return, raise and change exactly what they would for a list, in any order and mixture of both directions. Other linestrings do not change.", "quantifier": "all linestrings, all sequences of statements and all indices that fit in 64 bits", "why_tests_cant": "All sequences of statements through both directions and all indices; tests index a few points.", "anchors": ["lanelet2_python/include/lanelet2_python/internal/converter.h: getItem, setItem, delItem", "lanelet2_python/python_api/core.cpp: IsLineString, IsConstLineString"]}
{"id": "C79", "title": "Python: holes of areas", "statement": "In Python, area.innerBounds behaves like a list of lists of linestrings; a change of it changes the holes of the area, and the polygons of the area (innerBoundPolygons) are those of its current holes.", "quantifier": "all areas and all sequences of statements", "why_tests_cant": "All sequences of statements; tests read the holes only.", "anchors": ["lanelet2_python/python_api/core.cpp: InnerBounds, Area", "lanelet2_core/include/lanelet2_core/primitives/Area.h: setInnerBounds"]}
{"id": "C80", "title": "make_ids_positive.py", "statement": "The script writes a file that loads to the same map as its input: same positions, attributes, references and directions. All elements with negative ids have new ids that are positive, pairwise different and not used in the input; all other elements keep their ids.", "quantifier": "all maps that OSM can represent, whatever ids they use and in whatever order layers are iterated", "why_tests_cant": "Composes loading, the counter of ids, changes through shared data and writing over all maps; there is no test of the script.", "anchors": ["lanelet2_python/scripts/make_ids_positive.py", "lanelet2_core/src/LaneletMap.cpp: uniqueId", "lanelet2_io/src/OsmHandlerWrite.cpp", "lanelet2_io/src/OsmHandlerLoad.cpp"]}
{"id": "C81", "title": "print_ids.py", "statement": "Without --has-id the script prints all ids of all layers in order. With --has-id it prints a layer that has the id, or that the map does not have it.", "quantifier": "all maps and ids", "why_tests_cant": "All maps and ids; there is no test of the script.", "anchors": ["lanelet2_python/scripts/print_ids.py"]}
{"id": "C82", "title": "Python: printed forms", "statement": "repr() of every element ends, however lanelets, areas and regulatory elements refer to each other. Evaluating the printed form gives an equal element: same id, same points and bounds in order, same attributes, same regulatory elements.", "quantifier": "all points, linestrings, polygons, lanelets, areas and regulatory elements, all references between them", "why_tests_cant": "Regulatory elements and lanelets refer to each other in cycles of any shape, and coordinates are all numbers; tests print a few.", "anchors": ["lanelet2_python/include/lanelet2_python/internal/repr.h", "lanelet2_python/python_api/core.cpp: __repr__ and constructors"]}
{"id": "C83", "title": "Python: keyword arguments", "statement": "In a call of a function of the Python module every value given by keyword becomes the value of the parameter that the keyword stands for, values given by position become the first parameters in order, parameters that are not given have their default, and a keyword that the function does not have is rejected.", "quantifier": "all functions with more than one keyword, all ways to split the arguments of a call into positional and keyword arguments", "why_tests_cant": "The number of ways to call a function grows exponentially with its parameters, for dozens of functions; tests use a few positional calls.", "anchors": ["lanelet2_python/python_api/core.cpp", "lanelet2_python/python_api/io.cpp", "lanelet2_python/python_api/routing.cpp", "lanelet2_python/python_api/matching.cpp", "lanelet2_python/python_api/geometry.cpp", "lanelet2_python/python_api/traffic_rules.cpp"]}
{"id": "C84", "title": "Python: classes of regulatory elements", "statement": "A regulatory element that is created with a class of the Python module and added to a lanelet is returned by the method of the lanelet for this class (trafficLights, trafficSigns, speedLimits, rightOfWay, allWayStop), after all that were there before, is respected by the traffic rules as an element of this class, and keeps its class when the map is saved and loaded.", "quantifier": "all classes, all lanelets with any regulatory elements", "why_tests_cant": "Holds for all contents of a lanelet and all classes; the tests never ask for the speed limits that they create.", "anchors": ["lanelet2_python/python_api/core.cpp: classes of regulatory elements and methods of Lanelet", "lanelet2_core/src/BasicRegulatoryElements.cpp", "lanelet2_traffic_rules/src/GermanTrafficRules.cpp"]}
{"id": "C85", "title": "Python: units of speed limits", "statement": "A speed limit that is set in km/h or m/s is read back as the same value in the same unit, and as the value times or by 3.6 in the other unit. Setting it does not change whether it is mandatory. The constructor takes the velocity in the unit that its keyword names.", "quantifier": "all velocities", "why_tests_cant": "All numbers in two units and two directions.", "anchors": ["lanelet2_python/python_api/traffic_rules.cpp", "lanelet2_core/include/lanelet2_core/utility/Units.h"]}
{"id": "C86", "title": "Python: attributes are a dictionary of text", "statement": "The attributes of an element in Python answer like a dictionary from text to text, whatever was set, deleted or assigned before: attributes[key], key in attributes, len, keys, values, items, == and iteration agree with the dictionary that received the same operations, and raise the same exceptions.", "quantifier": "all scripts that make attribute maps, set and delete entries and assign attributes, in any order and number, all keys and values", "why_tests_cant": "All sequences of operations over all keys; known keys are served through a second data structure.", "anchors": ["lanelet2_python/python_api/core.cpp: AttributeMap, MapItem, DictToAttributeMapConverter, IsHybridMap", "lanelet2_core/include/lanelet2_core/utility/HybridMap.h"]}
{"id": "C87", "title": "Python: layers are dictionaries with ids as keys", "statement": "A layer of a map answers in Python like a dictionary from ids to elements: layer[id] is the element with the id or a KeyError, id in layer, elem in layer and len agree with it, and the loop visits every element once.", "quantifier": "all layers, all histories of additions, all ids and elements", "why_tests_cant": "All histories of adding elements and changing their ids.", "anchors": ["lanelet2_python/python_api/core.cpp: wrapLayer, LaneletMapLayers", "lanelet2_core/src/LaneletMap.cpp: PrimitiveLayer"]}
{"id": "C88", "title": "Overlapping polygons and areas", "statement": "Two polygons overlap iff their insides have a common point, two areas iff a point is in both (holes do not belong to an area), an area and a lanelet iff they have a common inner point. The answer does not depend on the order of the arguments. Polygons that only touch along an edge do not overlap.", "quantifier": "all polygons without self-intersection, all areas with any number of holes, all lanelets", "why_tests_cant": "All shapes and all ways they can touch; tests use a few squares.", "anchors": ["lanelet2_core/include/lanelet2_core/geometry/impl/Polygon.h: touches2d, overlaps2d", "lanelet2_core/include/lanelet2_core/geometry/impl/Area.h: overlaps2d"]}
{"id": "C89", "title": "Route: searches and length", "statement": "forEachSuccessor and forEachPredecessor of a route visit only lanelets of the route, each at most once, in order of increasing cost, over the relations of the routing graph between lanelets of the route, and stop early only if the function throws. On a route without lane changes the search backwards from the destination visits every lanelet of the route. length2d is the sum of the lengths of the lanelets of the shortest path of the route.", "quantifier": "all routing graphs, routes, functions with state and start lanelets", "why_tests_cant": "All graphs and all functions of the user; the order of visits depends on a priority queue.", "anchors": ["lanelet2_routing/src/Route.cpp: forEachSuccessor, forEachPredecessor, length2d"]}
{"id": "C90", "title": "Geocentric and local cartesian projector", "statement": "Different positions on earth get different coordinates, and reverse gives the position back. Local coordinates are a rigid motion of the geocentric ones, so that distances between projected points are real distances. The origin is projected to zero; x points east, y north and z up: a place east of the origin has a positive x, one north of it a positive y, one above it differs in z only.", "quantifier": "all origins and all positions between the poles, down to thousands of kilometres below the ground", "why_tests_cant": "All pairs of positions; injectivity needs the geometry of the ellipsoid.", "anchors": ["lanelet2_projection/src/Geocentric.cpp", "lanelet2_projection/src/LocalCartesian.cpp"]}
{"id": "C91", "title": "Python: values keep their meaning on the way between Python and C++", "statement": "What a C++ function returns to Python, handed to a function that takes the same type, arrives as the same value, at every depth of lists, pairs, optional values and variants. A Python object is accepted exactly if it describes a value of the type: instances of the class or a derived one, any iterable for a list with its elements in order, None for a missing value. Of several definitions of a name the one that takes the arguments runs, whatever the order of the definitions. Properties of objects can be read and assigned.", "quantifier": "all types built from the registered converters, all Python objects, lists and tuples of any length and nesting, all sets of overloads and all orders of definition", "why_tests_cant": "All nestings of types and values and all orders of definition; a test of the bindings uses one call.", "anchors": ["lanelet2_python/include/lanelet2_python/internal/converter.h", "lanelet2_python/python_api/core.cpp: converter registrations", "lanelet2_python/python_api/matching.cpp: ruleCheckWrapper, hullFromList", "lanelet2_python/python_api/io.cpp: DictToConfigurationConverter"]}
{"id": "C92", "title": "Python: geometry functions work in the dimension of their arguments", "statement": "A function of lanelet2.geometry computes in the dimension of its arguments and in the dimension that its name says, never mixes objects of different dimension, and refuses None. Which function runs does not depend on the order of the definitions. distance(a, b) works whenever distance(b, a) does. to2D gives the 2D view of the same data of every 3D object and to3D goes back.", "quantifier": "all functions of the module with all their overloads, all lists of Python objects as arguments", "why_tests_cant": "Hundreds of overloads times all combinations of classes, of which tests call a handful.", "anchors": ["lanelet2_python/python_api/geometry.cpp"]}
{"id": "C93", "title": "Python: routing costs written in Python", "statement": "A class in Python that derives from a routing cost and overrides one or both functions is used by the routing graph with the overridden functions, for all pairs of lanelets, and with those of its base class otherwise. The override can call the function of the base class. An error in the override is an exception in Python.", "quantifier": "all Python classes derived from the routing costs, all overrides, all lanelets and areas", "why_tests_cant": "All classes a user may write and all ways they may fail.", "anchors": ["lanelet2_python/python_api/routing.cpp: RoutingCostBaseWrapper, RoutingCostWrapper, makeRoutingGraph"]}
{"id": "C94", "title": "Equality and hash of handles", "statement": "Two handles (points, linestrings, polygons, lanelets, areas, compound linestrings, lanelets or areas) are equal exactly if they show the same and will always show the same, whatever is done to the data behind them. Equality is an equivalence, equal handles have the same hash, and hash containers keyed by handles find every element they contain with every equal handle and no other, also in Python.", "quantifier": "all handles, all states of the data, all sequences of insertions, removals and changes of ids", "why_tests_cant": "All later changes of the data and all sequences of operations on containers.", "anchors": ["lanelet2_core/include/lanelet2_core/primitives/Primitive.h: operator==, HashBase, setId", "lanelet2_core/include/lanelet2_core/primitives/LineString.h: operator==", "lanelet2_core/include/lanelet2_core/primitives/CompoundLineString.h: operator==, lineStrings", "lanelet2_core/include/lanelet2_core/primitives/Lanelet.h: operator==", "lanelet2_core/include/lanelet2_core/primitives/LaneletOrArea.h: equals", "lanelet2_python/python_api/routing.cpp: LaneletPath"]}
{"id": "C95", "title": "Routing with rounded costs", "statement": "Costs are added up with the rounding of double precision numbers. shortestPath still returns nothing exactly if there is no permitted path, and otherwise a permitted path whose real cost exceeds that of any other permitted path at most by the accumulated rounding error, a factor of about 1 + n * 2^-52 for paths of n lanelets. reachableSet holds everything whose real cost is below the limit by more than this error, and nothing whose real cost is above by more than it.", "quantifier": "all maps, rules and cost modules with costs in any binary floating point format, all start and goal lanelets and limits", "why_tests_cant": "Errors accumulate along paths of any length and decide between paths of nearly the same cost.", "anchors": ["lanelet2_routing/include/lanelet2_routing/internal/ShortestPath.h: DijkstraStyleSearch::query", "lanelet2_routing/include/lanelet2_routing/internal/Graph.h: EdgeInfo, addEdge", "lanelet2_routing/src/RoutingGraph.cpp: shortestPath, reachableSet"]}
{"id": "C96", "title": "Python: points taken from linestrings", "statement": "A variable of a Python script to which a point was assigned, by p = ls[i], from a loop, a layer or a constructor, stays this point until something else is assigned to it, whatever is done to linestrings in between, so that scripts that work on linestrings through variables (exchange of points, moving points between linestrings, deleting, appending) do what they do with lists. Looking at a variable is always defined.", "quantifier": "all scripts over any number of linestrings and variables, inverted views included, all growth strategies of the memory", "why_tests_cant": "What a variable points to depends on all statements since its assignment and on when memory is reallocated.", "anchors": ["lanelet2_python/python_api/core.cpp: IsLineString, IsConstLineString", "lanelet2_python/include/lanelet2_python/internal/converter.h: getItem, setItem, delItem", "lanelet2_core/include/lanelet2_core/primitives/LineString.h: operator[], push_back, erase"]}
{"id": "C97", "title": "References to elements of layers", "statement": "A loop over a layer of a map sees every element once. A reference obtained by dereferencing an iterator of a layer (const auto& e = *it, const auto& e = *layer.find(id)) stays this element while the layer is not changed, whether the iterator is moved on, assigned, copied or destroyed, for every layer, constant or not. find gives the element with this id or the end.", "quantifier": "all programs over any number of iterators and references, layers with any number of elements", "why_tests_cant": "All interleavings of uses of iterators and references; references to dead objects usually still show the old value in a test.", "anchors": ["lanelet2_core/include/lanelet2_core/utility/TransformIterator.h", "lanelet2_core/include/lanelet2_core/LaneletMap.h: PrimitiveLayer::iterator, const_iterator", "lanelet2_core/src/LaneletMap.cpp: PrimitiveLayer::find, begin, end"]}
{"id": "C98", "title": "Helpers for containers leave their arguments alone", "statement": "utils::concatenate and concatenateRange return the elements of all ranges one after the other and do not change what the ranges refer to, so that the primitives of a map are the same after the call. transform, find, findIf, contains, invert, sum, orderedPair and strequal compute what their names say.", "quantifier": "all containers, ranges (overlapping, repeated and reversed ones included) and functions, named and temporary arguments", "why_tests_cant": "All contents and all ways to pass the argument; moved from elements only show when something looks at the source again.", "anchors": ["lanelet2_core/include/lanelet2_core/utility/Utilities.h", "lanelet2_core/src/LaneletMap.cpp: createMap"]}
{"id": "C99", "title": "Queries of a map show its current state", "statement": "search over a layer gives exactly the elements whose bounding box now intersects the area, findUsages exactly the elements that now refer to the given primitive, and findNearest the nearest elements by their current geometry, also after points were moved, points were added to or removed from linestrings, or lanelets and areas were given other bounds or regulatory elements.", "quantifier": "all programs that add primitives and change them in any order, all areas and primitives asked for", "why_tests_cant": "All interleavings of additions, changes and queries; an outdated index only shows for queries that tell old and new state apart.", "anchors": ["lanelet2_core/src/LaneletMap.cpp: PrimitiveLayer::Tree, UsageLookup, PrimitiveLayer::add, search, findUsages, findNearestImpl", "lanelet2_core/include/lanelet2_core/primitives/Point.h", "lanelet2_core/include/lanelet2_core/primitives/LineString.h", "lanelet2_core/include/lanelet2_core/primitives/Lanelet.h: setLeftBound, setRightBound"]}
{"id": "C100", "title": "How long primitives live", "statement": "A point, linestring, lanelet, area, regulatory element, map or submap exists exactly as long as some handle of the program leads to it, directly or by what primitives refer to; when the last handle is gone, everything is released, and no operation uses something that was released. A regulatory element does not keep the lanelets and areas it refers to: its weak reference gives the lanelet or area exactly while it exists, and NullptrError otherwise. While a map exists, everything that an added element leads to lives with it, also by references of regulatory elements. While a submap exists, the lanelets and areas that its regulatory elements, and those of its lanelets and areas, refer to do not expire.", "quantifier": "all programs that create primitives, maps and submaps, copy and drop handles, follow references, change what primitives refer to and add to maps and submaps, in any order", "why_tests_cant": "All orders of creating and dropping handles and all graphs of references; leaks and expired references depend on the whole graph.", "anchors": ["lanelet2_core/include/lanelet2_core/primitives/Primitive.h: constData_", "lanelet2_core/include/lanelet2_core/primitives/Lanelet.h: LaneletData, WeakLanelet", "lanelet2_core/include/lanelet2_core/primitives/Area.h: AreaData, WeakArea", "lanelet2_core/include/lanelet2_core/primitives/RegulatoryElement.h: RuleParameter", "lanelet2_core/src/LaneletMap.cpp: LaneletMap::add, LaneletSubmap::add, LaneletSubmap::trackParameters"]}
{"id": "C101", "title": "Finding by id what uses a primitive", "statement": "utils::has(x, id) is true exactly if something that x consists of has the id: a point of a linestring or polygon; a bound, a point of a bound or a regulatory element of a lanelet or area; for a regulatory element a parameter that is not expired, or something that the parameter consists of. utils::findUsages(layer, id) gives exactly the elements of the layer for which has is true, each once, and agrees with what layer.findUsages gives for the primitive itself.", "quantifier": "all primitives, all ids, all maps filled by add in any order", "why_tests_cant": "All combinations of shared and nested primitives and ids; a missing kind of part only shows for an id that occurs nowhere else.", "anchors": ["lanelet2_core/src/Lanelet.cpp: utils::has", "lanelet2_core/include/lanelet2_core/primitives/Area.h: utils::has", "lanelet2_core/include/lanelet2_core/primitives/LineString.h: utils::has", "lanelet2_core/src/RegulatoryElement.cpp: HasIdVisitor, utils::has", "lanelet2_core/src/LaneletMap.cpp: utils::findUsages"]}
{"id": "C102", "title": "Triangulation sees all corners", "statement": "For convexPartition and triangulate, corners of a polygon that differ by a millimetre or more are different corners at their places, as documented: no corner is moved by more than a millimetre inside the triangulation, and three corners that turn clockwise by more than a millimetre's error do so in the triangulation.", "quantifier": "all corners with rational coordinates, all sizes of triangles", "why_tests_cant": "All distances and places of corners; merged or turned corners only show for points that are close to each other or nearly on a line.", "anchors": ["lanelet2_core/src/PolygonTriangulationGeometry.cpp: toVoronoi, point_traits", "lanelet2_core/include/lanelet2_core/geometry/Polygon.h: convexPartition, triangulate"]}
{"id": "C103", "title": "The text of a primitive tells what it is", "statement": "The text written for a primitive by << in C++ and by str() in Python is the same for two primitives of a kind only if what it names is the same: id, direction and point ids in their order for linestrings and polygons; id, direction, and ids and directions of the bounds for lanelets and areas; ids in their order and direction for sequences and compound linestrings; id, roles and parameters for regulatory elements; id and position for points; all keys and values for attributes. The text of a lanelet is never that of an area.", "quantifier": "all primitives with any ids, negative ones included, any numbers of points, bounds, parameters and attributes", "why_tests_cant": "All pairs of primitives; an ambiguous text only shows for two primitives that happen to share it.", "anchors": ["lanelet2_core/include/lanelet2_core/primitives/LineString.h: operator<<", "lanelet2_core/src/Lanelet.cpp: operator<<", "lanelet2_core/include/lanelet2_core/primitives/Area.h: operator<<", "lanelet2_core/include/lanelet2_core/primitives/LaneletSequence.h: operator<<", "lanelet2_core/src/RegulatoryElement.cpp: operator<<, GetIdVisitor", "lanelet2_core/include/lanelet2_core/primitives/Point.h: operator<<", "lanelet2_core/include/lanelet2_core/Attribute.h: operator<<", "lanelet2_python/python_api/core.cpp: self_ns::str"]}
{"id": "C104", "title": "layer.nearest gives the elements with the nearest boxes", "statement": "layer.nearest(p, n) gives n different elements of the layer, or all that have points if there are fewer. No other element has a bounding box that is nearer to p, and no other element is nearer to p than any box of the result. For points the result is therefore exact; for others the nearest element of the layer is in the result if one of its elements is not farther away than its farthest box. The order of the result is not specified.", "quantifier": "all layers, points and numbers, all orders in which the tree may answer", "why_tests_cant": "All layers and all answers the tree is allowed to give.", "anchors": ["lanelet2_core/src/LaneletMap.cpp: PrimitiveLayer::nearest, getSecond", "lanelet2_core/include/lanelet2_core/LaneletMap.h: nearest"]}
{"id": "C105", "title": "The routing graph of a map passes its validator", "statement": "The routing graph that RoutingGraph::build makes of a map has consistent neighbour relations: each lanelet has at most one left, adjacent left, right and adjacent right neighbour, not both kinds on one side, and every neighbour has it as neighbour on the other side. RoutingGraph::checkValidity and the validator routing.graph_is_valid therefore report nothing for it, and whatever the validator reports about a graph is an error.", "quantifier": "all maps, traffic rules, cost modules, overlaps and orders of hash containers", "why_tests_cant": "All maps with any number of lanelets beside each other, all rules for lane changes and all orders of containers.", "anchors": ["lanelet2_routing/src/RoutingGraphBuilder.cpp: build, addSidewayEdge, addLaneChangeEdges", "lanelet2_routing/src/RoutingGraph.cpp: checkValidity", "lanelet2_validation/src/validators/RoutingGraphIsValid.cpp: operator()"]}
