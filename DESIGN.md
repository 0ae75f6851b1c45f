# Formal model of Lanelet2 — design

## Layout

* `properties.jsonl` – the English properties C01…
* `lean/Verif/<Topic>/Model.lean` – executable model of the C++ functions; every definition cites file and lines in `/repo`.
* `lean/Verif/<Topic>/Lemmas*.lean` and similar – helper lemmas, never referenced by a statement.
* `lean/Verif/<Topic>/Props.lean` (and files named after their subject) – small specification vocabulary, the property
  theorems, and beside each one an `example` that meets its hypotheses on a non-trivial case. Where the code violates the
  property there is a theorem named `…_counterexample` with a concrete witness, and the remaining part is proved with the
  exact extra hypothesis (named `…_partial` if the hypothesis does not tell a reader what is missing).
* `MANIFEST.json` – which theorem carries which property, and what a partial one leaves out.
* `seeded/LOG.jsonl` – log of seeded bugs tried against the theorems.

## Trusted base

* Lean 4.33.0's kernel. Axioms: at most `propext`, `Classical.choice`, `Quot.sound` (checked with `#print axioms` for
  every theorem of the manifest). No own axioms, no `sorry`, no `native_decide`/`bv_decide`.
* The faithfulness of the hand translation C++ → Lean (cited line by line). The C++ was never run.
* General modelling decisions
  * `std::vector`, `std::deque` → `List`; `std::map`/`unordered_map` → association lists or functions; for unordered
    containers and R-tree queries the theorems quantify over the iteration order.
  * shared_ptr identity → numbers (addresses); aliasing is modelled with an explicit heap where it matters (HMap, LineStr,
    Lanelet, LMap, Bin).
  * floating point → an ordered field or exact rationals (Geo, Cost, Match), or an abstract linear order; rounding and NaN
    are not modelled (Cost knows infinities and NaN as values, BBox the largest and smallest number).
  * geometry predicates of boost::geometry, R-tree queries, projections, the Voronoi diagram → parameters, with the
    assumptions on them as hypotheses; Dijkstra of boost::graph is modelled explicitly.
  * exceptions, undefined behaviour (iterator past the end, null pointer, empty optional) and loops that do not end →
    distinct outcomes (`Except`, `Option`; loops by `partial_fixpoint`, so that not ending is an outcome too).
  * Memory allocation failure and the overflow of integers (except the lane counter of routes) are not modelled.

## Modules

| Topic | Source | Left out or a parameter |
|-------|--------|-------------------------|
| Ids | LaneletMap.cpp (utils::getId, registerId) with threads | weak memory order (the counter is sequentially consistent), overflow |
| LMap | LaneletMap.{h,cpp}: layers, add, findUsages, submaps, findNearest, findWithin; outdated indexes after changes | attributes, roles of parameters; order of hash containers |
| HMap | HybridMap.h | iteration order |
| Attr | Attribute.{h,cpp}, also with threads | lexical_cast, stod, to_string are parameters |
| LineStr, Compound | LineString.h, CompoundLineString.h, CompoundIterator.h, ReverseAndForwardIterator.h | |
| Lanelet, Seq | Lanelet.{h,cpp}, Area.h, LaneletSequence.{h,cpp}, neighbour predicates, common lines and overlaps2d of geometry/impl, equality and hash of all handles | std::unordered_set (as its interface says) |
| Center | calculateCenterline in Lanelet.cpp | geometric tests and nearest queries are parameters |
| RegElem | BasicRegulatoryElements.cpp, RegulatoryElement.{h,cpp} | |
| Rules | GenericTrafficRules.cpp, GermanTrafficRules.cpp, TrafficRulesFactory.cpp | units of velocities |
| Cost | RoutingCost.{h,cpp}, approximatedLength2d | rounding |
| Graph | Graph.h, RoutingGraph.cpp (queries, checkValidity) | |
| Search | ShortestPath.h, Dijkstra of boost, RoutingGraph.cpp (paths, reachable sets) | order of equal costs is a parameter |
| Build | RoutingGraphBuilder.cpp, RoutingGraphIsValid.cpp | traffic rules, costs, overlap tests are parameters |
| Route | RouteBuilder.cpp, Route.cpp, GraphUtils.h, RoutingGraphContainer.h | |
| Debug | getDebugLaneletMap of RoutingGraph.cpp and Route.cpp, RoutingGraphVisualization.h | places of points, texts of numbers, syntax of the exported files |
| Path | LaneletPath.cpp | |
| Match | lanelet2_matching | rounding |
| BBox | BoundingBox.h, boundingBox2d/3d | |
| Geo | geometry/impl/LineString.h: projection, nearest points, arc lengths and arc coordinates, curvature, align, lateralShiftPointAtIndex, intersects3d, overlaps3d; intersectCenterlines2d | rounding; R-tree of segments by its contract |
| Offset | geometry/impl/LineString.h: extractConvex, joinSubStrings, offset | rounding; intersections and R-tree by their contract |
| Proj | Projection.h, Mercator.h, UTM.cpp, LocalCartesian.cpp, Geocentric.cpp | rounding; GeographicLib by its contract or its documented formulas |
| Io | Io.cpp, Factory.cpp, IoHandler.h, Parser.h, Writer.h, frame of OsmParser, OsmWriter, BinParser, BinWriter | the texts of exceptions; files and what the handlers do with them (see Osm, Bin) |
| Plan | composition of Build, Graph, Search, Rules and Cost: RoutingGraph::build, shortestPath, reachableSet, following, previous, neighbours, conflicting, possiblePaths, shortestPathVia, getRoute, getRouteVia and the queries of routes | see these modules |
| Osm | OsmFile.cpp, OsmHandlerWrite.cpp, OsmHandlerLoad.cpp, Ring assembly, josm style ids, documents as trees, comparison of files | XML text, projector (see Proj) |
| Bin | Serialize.h, BinHandler.cpp with the pointer tracking of boost::archive | bytes of the archive |
| Valid | lanelet2_validation: validators, filters, Cli exit code | – |
| Py | lanelet2_python: list protocol of linestrings, polygons and holes, scripts, printed forms, keyword arguments, classes of regulatory elements, speed limits, attributes and layers, conversion of values and overloads, the geometry module, routing costs written in Python, references into linestrings | Boost.Python itself (its binding of arguments is modelled from its documented rules), Python's own types by their meaning |
| Util | TransformIterator.h (iterators of layers), Utilities.h (joining of containers, searching, strequal), operator<< of primitives and attributes | reserving memory; changes of a layer while it is iterated; settings of streams |
| Tri | PolygonTriangulationGeometry.cpp | Voronoi diagram |

## Plan per property

| Id | What is modelled | How it is proved |
|----|------------------|------------------|
| C01 | atomic counter, getId as one atomic step, registerId as load + CAS loop steps; arbitrary schedule | invariant over all interleavings |
| C02–C04 | heap of primitives with ids, layers as id → handle, all `add` overloads incl. visitors | invariant (closure) over add, recursion via a measure on ids that are not yet added |
| C05 | usage multimap filled by layer add | invariant: multimap = owner relation of layer content |
| C06 | NSmallestElements + nearest iteration with early exit | loop invariant; assumption: iteration in box distance order, box distance ≤ distance |
| C07 | search + filter + sort | list reasoning with the same assumptions |
| C08 | submap add and conversion | reuse of C02 invariant |
| C09 | HybridMap as sorted map + slot array of iterators | refinement for every operation |
| C10, C53 | attribute string + cache; threads as interleavings of loads and stores of the shared pointer | invariant cache = parse(string) |
| C11 | data list + inverted flag, all mutators with the reverse iterator arithmetic | refinement to list operations on the view |
| C12 | compound iterator as (outer, inner) position pair | simulation with the destuttered concatenation |
| C13, C14 | lanelet data with bounds, caches, inverted flag | refinement / invariant over histories |
| C15 | calculateCenterline with geometric tests as parameters | loop invariant, termination measure |
| C16–C20 | attribute maps, decision functions of the traffic rules | direct reasoning for all attribute maps against a separate specification of the tags |
| C21–C25 | multigraph with edge costs, Dijkstra as in boost (`no_color_map_no_init`) with the visitor/predicate of ShortestPath.h | classical Dijkstra invariant, for any tie breaking |
| C26, C27, C55 | relation flags, filtered views, neighbour loops, checkValidity | list/graph reasoning |
| C28, C29, C52 | graph builder passes with parameters for traffic rules, costs and geometry; the cost modules | invariants over the passes, all iteration orders |
| C30, C31, C56–C58 | route construction (four passes) and queries | invariants of the visitors and of the record graph; termination by a measure on lanes that were not yet reached |
| C32, C33 | OSM file structures with placeholder members and deque address arithmetic | induction over documents/members |
| C34, C35, C54 | writer and loader over an abstract OSM file and over documents | round-trip theorem, invariants |
| C36 | assembleBoundary | loop invariant; parity argument for completeness |
| C37 | registerIds over C01's counter | max argument |
| C38 | strings of digits | value function on digit strings |
| C39 | archive as a stream of tokens with object tracking, memory as a list of objects | save and load run in step; invariant with the stage of every object; induction over the objects that are not yet saved |
| C40 | regulatory element parameter lists | invariant over histories |
| C41–C45 | exact arithmetic over ordered fields | algebra / loop invariants |
| C46 | lanelet sequences | refinement to compound linestrings |
| C47 | validators as functions of the map | characterisation of the reported issues |
| C48 | deterministic and Mahalanobis matching, rule filter | list reasoning on top of C07 |
| C49 | segmentation as traversal over polygons of the diagram | traversal invariant; area by signed edge sums |
| C50 | boxes over a linear order with extreme elements | lattice reasoning |
| C51 | gluing of bounds along a path | loop invariant; boundary as a signed sum of segments |
| C59 | curvature over the reals | circumscribed circle, algebra |
| C60 | offset: shifting of corners, convex pieces, joining, check | every edge of a piece has a label saying what it is; termination by the index of the segment; algebra and trigonometry at corners |
| C61 | formulas of the Mercator projections and the loop of the elliptical one; UTM around a parameter | real analysis: inverse functions, derivatives, contraction of the loop by the mean value theorem, intermediate values for the way back |
| C62 | adjacent, determineCommonLine*, overlaps2d over boundaries as lists of directed linestrings | the successor in a simple ring is unique; specification of the searches |
| C63 | intersectCenterlines2d on top of the arc coordinates of C44 | induction over the intersections |
| C64 | registry as a sequence of registrations into sorted maps; load and write around any handler | induction over the registrations; case analysis |
| C65, C67, C68 | legal trips over lanelets with their cost as inductive relations; paths of the built graph are related to them step by step | composition of the theorems about construction, views, search, rules and costs |
| C66 | parameters as an ordered map of lists; existence of objects as a predicate | induction over roles and parameters |
| C69, C70 | maps of points and linestrings by key; debug map builders as folds over the edges in any order | what a linestring says is the list of the edges of its pair: induction over the edges |
| C71 | lists of lanelets per graph; tests of shapes are parameters | list reasoning on top of C62 |
| C72, C73, C74 | align, lateralShiftPointAtIndex, intersects3d, overlaps3d over the reals on top of the projections of C44 | the side of the unique closest point; algebra |
| C75 | comparison operators of nodes, ways, relations and files | maps with distinct keys are permutations of each other |
| C76 | createMap and createSubmap for all kinds of primitives | lookup in the map of the first element of each id; the invariants of C02 and C05 for what is added afterwards |
| C77 | composition of Osm and Plan: the map as objects in memory (`Fits`) | legal trips stated for the map (`MTrip`) are those of the graph under any numbering of the objects; tags read by the rules do not change by writing and loading; bounds on the change of costs by induction over trips |
| C78, C79 | wrappers getItem, setItem, delItem on linestrings (LineStr) and holes of areas (Lanelet) | refinement: every statement does what it does to a list; induction over scripts |
| C80, C81 | the scripts on the map of Osm; new ids as a renaming per layer | the renaming keeps everything that makes a map representable; then C54 |
| C82 | printed forms as Python expressions with an evaluator for the constructors | termination by cases on the depth of references; evaluation by induction over the lists |
| C83 | binding of positional and keyword arguments over a table of all signatures | equivalence of the loop with the rules of Python; the table by evaluation in the kernel |
| C84, C85 | classes and casts; velocities as rationals | cases |
| C86, C87 | attribute maps on top of the map of C09, layers on top of the layers of C07 | induction over scripts, simulation |
| C88 | polygons over an ordered field, inside by counting crossings | parity of changes along a cycle, half planes |
| C89 | search of C23 on the graph of a route | refinement to the routing graph |
| C90 | formulas of the ellipsoid over the reals | nearest point of the ellipsoid, identities of angles |
| C91 | types and values of the converters, two stages, overloads | induction over types, relation of objects and values |
| C92 | table of the overloads of the geometry module | lemmas on tables, evaluated over all rows and classes |
| C93 | Python objects with overrides over the cost modules of C60 | case distinction, link to all cost modules |
| C94 | handles as data and direction over the world of C15, hash sets with buckets | worlds that tell handles apart; refinement of sets, induction over operations |
| C95 | floating point formats with rounding to nearest even; rounded costs as an instance of the costs of C21 | induction over paths for the error; every theorem of the search holds for rounded sums |
| C96 | variables as copies or as places in vectors with allocations and capacities | simulation by lists and variables with a record of touched places, induction over scripts |
| C97 | iterators with a position and a copied element, references to elements or to members of iterators | simulation by a specification in which references name elements, induction over programs |
| C98 | containers with places, handles that were moved from | induction over ranges, first occurrences |
| C99 | programs that add primitives and change them afterwards, indices with what was true at the time of add | invariant over programs: what the index says is the state when each primitive was added |
| C100 | memory as a list of cells with use counts; data own what their handles refer to, parameters of regulatory elements are weak | alive = reachable by strong references from variables, invariant over programs |
| C101 | `has` and the lookups by id over the elements of C05 | cases on the kind of primitive |
| C102 | conversion of coordinates to integers before the Voronoi diagram | rounding of reals, orientation of integer triples |
| C103 | output operators as functions to strings | injectivity: texts are cut at separators that do not occur in the parts |
| C104 | tree as list of boxes, the answer of the r-tree by its contract | list reasoning on top of C06 |
| C105 | checkValidity (C55) applied to the graph that the passes of C28 build | exact edges of the built graph, termination of the walk to the left |

## Not modelled

* numerical error other than that of sums of routing costs (C95), NaN, overflow, performance, memory usage;
* boost::geometry algorithms, Voronoi construction, R-tree internals, XML and binary byte formats, GeographicLib;
* the text of exported graphs beyond nodes, edges and labels;
* Boost.Python and the parts of the Python bindings that only forward; ROS glue, examples.

## Disagreements between code and documentation/property

Every entry is a theorem with a concrete witness (module: theorem).

* `Graph.Props`: `routingRelation_conflicting_counterexample` – C26 is violated: `includeConflicting = false` still reports Conflicting.
* `Graph.Props`: `lefts_loops_counterexample` – a roundabout with two lanelets that are left of each other makes `lefts` (and `besides`) loop forever.
* `LMap.Props`: `id_clash_counterexample` – Disagreement with the natural reading of C02 (and of `uniqueId`): an id that is assigned automatically can be the id that another object, which is added later, already has. That object is then silently left out.
* `LMap.Props`: `submap_findUsages_counterexample` – for a submap, `findUsages` can return an element that is not in the layer, namely if two different elements with the same id are added.
* `LMap.Props`: `submap_duplicate_usage_counterexample` – adding the same linestring twice to a submap makes `findUsages` report it twice.
* `LMap.Props`: `submapToMap_counterexample` – Disagreement with C08: if the bounds of a lanelet of the submap have no id yet, the bounds (all filed under InvalId) are not in the map that `laneletMap()` creates.
* `LMap.Props`: `uniqueId_after_createMap_counterexample` – Disagreement with the documentation of `uniqueId` ("id is guaranteed not to be used within this layer"): createMap does not register the ids of its elements.
* `LMap.Create`: `createMap_without_ids_counterexample` – Disagreement with C76: of several points that have no id yet, a map that is created from them keeps one, which is not found under its id.
* `LMap.Create`: `createMap_ids_counterexample` – Disagreement with C76: the ids of a created map can be given again, also to an element that is added to this map.
* `LMap.Nearest`: `findNearest_zero_counterexample` – `findNearest(layer, p, 0)` is undefined on every nonempty layer (`back()` of an empty vector).
* `LMap.HasId`: `has_bound_counterexample` – C101, disagreement. A lanelet has a left bound, but `utils::has(lanelet, leftBound.id())` is false, and so findUsages(laneletLayer, id) misses the lanelet that laneletLayer.findUsages(leftBound) gives.
* `LMap.HasId`: `has_area_counterexample` – C101, disagreement. An area has inner bounds and regulatory elements, but `utils::has` does not find them, nor the linestrings of its outer bound.
* `LMap.Stale`: `changes_counterexample` – C99, disagreement. Whatever happens to primitives after they were added, search and findUsages keep giving the same.
* `LMap.Stale`: `moved_point_counterexample` – C99, disagreement. A point that was added and then moved to `q` is found where it was and not where it is: at every other area around `q` nothing is found.
* `LMap.Stale`: `set_bounds_counterexample` – C99, disagreement. findUsages still knows the old bounds of a lanelet after other bounds are set, and not the new ones.
* `LMap.Stale`: `set_rules_counterexample` – C99, disagreement. A regulatory element that a lanelet or area of the layer gets later is not known to findUsages, and one that is removed from them is still found.
* `LMap.Stale`: `findNearest_counterexample` – C99, disagreement. findNearest takes the order of the search from the old boxes and the distances from the new geometry: of two points at 100 and 5 it gives the second one as nearest to the origin, although the first one was moved to 1.
* `LMap.StaleSub`: `submap_again_counterexample` – C99, disagreement. Adding a point to a submap again after it was moved to `q` makes it known where it is now, but it is still found where it was. In a map adding it again changes nothing.
* `LMap.StaleSub`: `submap_twice_counterexample` – C99, disagreement. A primitive that is added to a submap twice is found twice by findUsages and by search.
* `HMap.Props`: `embedded_nul_counterexample` – Why keys with NUL are excluded: a key `"type\0x"` takes over the slot of `Type`. After inserting it, the enum finds its value although no key "type" exists; and if "type" was there, reading by enum and by string disagree.
* `Attr.Props`: `double_history_counterexample` – An attribute that was constructed from a double whose string is rounded: asDouble returns the exact value at first, and the rounded one after asVelocity was called.
* `Attr.Props`: `misread_units_counterexample` – Other spellings are not rejected but read as another unit.
* `Attr.Threads`: `different_conversions_counterexample` – Two threads with different conversions: the object that the first one is about to read is destroyed by the second one.
* `Attr.Threads`: `first_call_counterexample` – Even the same conversion is unsafe with three threads if the cache is empty in the beginning.
* `LineStr.Props`: `insertRange_counterexample` – For an inverted handle the returned iterator points to the last inserted point, std::vector's to the first; with an empty range at the front of the view (the end of the data) the iterator is behind the end of the data.
* `LineStr.Props`: `assignMove_counterexample` – Move assignment to an inverted handle: it shows the assigned vector in reverse.
* `Lanelet.Cache`: `centerline_edit_counterexample` – Editing the points of a bound without resetting leaves the old centerline in place.
* `Center.Props`: `closed_single_left_counterexample` – A left bound with a single point that is also the first point of the right bound: undefined behaviour.
* `Center.Props`: `closed_single_right_counterexample` – A right bound with a single point that is also the first point of the left bound: the end is missing.
* `Rules.Props`: `busLane_counterexample` – Bus lanes: the documentation lists buses, taxis and emergency vehicles; the code has no entry for them.
* `Rules.Props`: `pedestrian_oneway_counterexample` – `one_way:bicycle=no` makes the lanelet one-way for pedestrians, who otherwise may use it in both directions.
* `Rules.Props`: `laneChange_left_only_counterexample` – With only `lane_change:left=no` the tag is ignored: the marking decides.
* `Rules.Props`: `canPassAA_counterexample` – The code lets pedestrians step into an area that they must not use.
* `Rules.Props`: `busLane_limit_counterexample` – Bus lanes have the limit 0, the documentation says city limit.
* `Build.Props`: `laneChange_order_counterexample` – The chain of lane changes, and with it the cost of a lane change, depends on the iteration order of the hash map: with two lane changes `1 → 11` and `2 → 12`, where lanelet 2 is one of two successors of lanelet 1, the lane change from lanelet 1 is handed out alone if the iteration begins with it, and together with the next one if it begins there.
* `Build.Valid`: `two_neighbours_counterexample` – Disagreement with C105: whenever two lanelets `b` and `b'` lie beside `a` on the same side (both have the bound of `a` on this side) and `a` is their only neighbour on the other side, the graph that is built for this map is not consistent, whatever the traffic rules say about lane changes. The validator complains about a graph that the library has built itself.
* `Build.Valid`: `overlap_neighbours_counterexample` – Disagreement with C28 and C105: two lanelets that lie beside each other, overlap a little and have permitted lane changes in both directions: only the one that comes first in the map gets its lane change, the other is left with a conflict, so that the graph depends on the order of a hash map and is not consistent.
* `Build.Valid`: `both_inverted_counterexample` – Disagreement with C28: two lanelets that can be used in both directions and overlap conflict in three of the four combinations of their directions, but never if both are driven against their direction.
* `Cost.Props`: `zero_speed_counterexample` – The intention of the code, to treat a speed limit of 0 as no limit, is not met: with any largest number, a lanelet of length 1 with limit 0 has infinite travel time.
* `Cost.Props`: `infinite_speed_counterexample` – C52, disagreement. RoutingCostTravelTime::getCostLaneChange is noexcept: an infinite speed limit of one of the lanelets ends the program as soon as a shortest time is set, whereas getCostSucceeding reports the same limit with an exception.
* `Seq.Props`: `equal_inverted_counterexample` – C46 (fails): a sequence of one lanelet equals its inversion although its left bound differs.
* `Seq.Props`: `concat_inverted_counterexample` – C46 (fails): the sequence built from the lanelets of an inverted sequence, or by the concatenating constructor, has other bounds: its lanelets are driven in the original direction, in the reverse order.
* `Seq.Props`: `lanelets_inverted_counterexample` – C46 (fails): the lanelets of an inverted sequence are not inverted.
* `Seq.Props`: `polyNumSegments_empty_counterexample` – an empty compound polygon has one segment, which does not exist
* `BBox.Props`: `empty_box_counterexample` – C50 (fails for empty boxes): an empty box may be reported to intersect, and not to be contained.
* `Osm.RingProps`: `unclosed_ring_counterexample` – C36 (fails): a last ring that cannot be closed is dropped without an error.
* `Osm.WriteProps`: `missing_lanelet_counterexample` – C33 fails: writing is undefined behaviour (the address past the last member is computed, dereferenced and written to), as the index of a placeholder behind the removed one is not adapted.
* `Osm.LoadProps`: `lost_linestring_counterexample` – C35 fails for areas: a linestring of the boundary that closes no ring is lost, and no error is reported
* `Osm.LoadProps`: `made_up_point_counterexample` – C35 fails for maps loaded with errors: a linestring has a point that is not in the map
* `Osm.LoadProps`: `regelem_type_counterexample` – the type of a member that is a regulatory element is not checked: the lanelet gets the regulatory element with the id of the way, without an error
* `Osm.RoundTrip`: `type_attribute_counterexample` – a lanelet with another type attribute is lost, and no error is reported
* `Osm.RoundTrip`: `area_attribute_counterexample` – a linestring with the attribute area is a polygon after loading
* `Osm.RoundTrip`: `inverted_parameter_counterexample` – a linestring that a regulatory element refers to loses its direction
* `Osm.RoundTrip`: `empty_role_counterexample` – a role without parameters is lost
* `Osm.RoundTrip`: `bound_direction_counterexample` – bounds that do not run along each other are turned
* `Osm.RegisterIds`: `binary_ids_counterexample` – Disagreement with C37 for binary files: a map that was not built with `add` (but, for example, with `utils::createMap`, which does not register ids) may have ids that are not below the counter. They are not registered when the file is read, so `getId` returns one of them.
* `Osm.Doc`: `ele_attribute_counterexample` – Disagreement with C54 if an attribute is called `ele`: it is taken for the height of a point, and lost for other primitives.
* `Geo.Plane`: `degenerate_segment_counterexample` – Disagreement with C42 for degenerate segments: the point (1, 0) (as a linestring with two equal points) is on the other linestring, but the distance is 1.
* `Geo.Plane`: `short_segments_counterexample` – Disagreement with C42 for short segments: two segments of 2 mm cross, the distance is 1 mm.
* `Geo.Plane`: `swap_counterexample` – Disagreement with C42 for linestrings of the same size: swapping the arguments does not swap the result (parallel segments with opposite directions).
* `Geo.Plane`: `border_counterexample` – Disagreement with the documentation of projectedBorderPoint2d: the search for polygons with fewer than 50 points does not consider the segment between the last and the first point. Here the closest border points have distance 1, all points found are further apart.
* `Geo.ArcCoords`: `beyond_end_counterexample` – Disagreement with C44 (round trip): a point beyond the end is not recovered.
* `Geo.ArcCoords`: `self_touch_counterexample` – Disagreement with C44 (length): the linestring passes (0, 0) twice, the closest segment is the one after the second time, but the length is counted from the first time. The closest point is not at the returned length.
* `Geo.Corner`: `long_corner_counterexample` – C44: the sign at a sharp corner of a longer linestring is wrong, if the R-tree returns the segment behind the corner first. Both boxes are equally far away, so it may do so. The linestring goes along the x axis in steps of 1 up to (48, 0), then back to (0, 5). The point (48, -1) is right of the corner, but its distance is 1 and not -1.
* `RegElem.Props`: `expired_stopline_counterexample` – Disagreement with C40: if a lanelet of the all way stop is destroyed, the stop lines of the other lanelets are mixed up.
* `RegElem.Props`: `mixed_parameters_counterexample` – Disagreement with C40: the constructor from data (used for loading) counts parameters of any type. Then getStopLine throws out_of_range for a lanelet of the element.
* `RegElem.Props`: `remove_reorders_counterexample` – adding a sign that is already there and removing it again changes the order, and with it the type of the traffic sign.
* `RegElem.Props`: `remove_last_counterexample` – what the constructor demands does not hold any more after removing. Such an element can be written to a file, but not be loaded again.
* `RegElem.Props`: `shared_sign_counterexample` – with the same sign as sign and as cancelling sign the type is the one of the cancelling signs.
* `RegElem.Access`: `findAny_expired_counterexample` – **C66, where it fails.** Asked for the id 0 (InvalId), which no object of a map has, find<ConstRuleParameter> returns a lanelet that does not exist any more.
* `RegElem.Access`: `has_members_counterexample` – **C66, where it fails.** `has` does not find the bounds of a lanelet, the bounds and holes of an area nor the regulatory elements of an area, although they are members.
* `Geo.Curvature`: `tiny_straight_counterexample` – a straight line with points at a distance of 0.1 µm has an infinite curvature.
* `Offset.Props`: `short_counterexample` – Disagreement with C60: offsetNoThrow does not throw an InvalidInputError for fewer than two points, contrary to its documentation.
* `Offset.Examples`: `sharp_right_counterexample` – Disagreement with C60: at a left turn of more than 90° an offset to the right cuts the corner: the result comes closer to the line than a quarter of the distance, and no error is reported.
* `Offset.Examples`: `self_intersection_counterexample` – Disagreement with C60: the result intersects itself although the line does not.
* `Offset.Examples`: `repeated_end_counterexample` – Disagreement with C60: where pieces are joined, the last point is repeated, so that the result has a segment without length.
* `Offset.Examples`: `inverted_right_counterexample` – Disagreement with C60: an offset to the right that inverts the line is returned without an error.
* `Offset.Examples`: `repeated_point_counterexample` – Disagreement with C60: next to a repeated point the offset is twice as large.
* `Valid.Props`: `closed_polygon_counterexample` – Disagreement with C47: a polygon whose last point is its first point has this point twice in succession (polygons are closed), but is not reported.
* `Valid.Props`: `linestring_subtype_counterexample` – Disagreement with C47: the value of the tag subtype of a linestring is never checked, because the name of the tag "type" is looked up instead of its value.
* `Valid.Props`: `tag_prefix_counterexample` – misspelled tags that begin like a known tag are not reported.
* `Valid.Props`: `bridge_counterexample` – Disagreement with the documentation of the check: only the point that is nearest in the plane is looked at. A point above it hides points that are very close. Coordinates in centimetres, close is less than 5.
* `Valid.Props`: `info_counterexample` – issues of severity Info are neither reported nor counted, but the program fails: "0 issues found" and exit code 1.
* `Graph.Validity`: `checkValidity_loops_counterexample` – Disagreement with C55: the neighbours are not consistent, but instead of reporting an error checkValidity does not return: the right neighbour of the third lanelet has a circle of left neighbours.
* `Path.Props`: `lanelet_gap_counterexample` – Disagreement with C51: lanelets that do not touch are not rejected; the polygon lacks two corners of the second one.
* `Path.Props`: `opposite_counterexample` – Disagreement with C51: two lanelets side by side in opposite directions share a bound, but their polygon is wrong.
* `Route.Query`: `single_lanelet_counterexample` – C30 is violated for a route with a single lanelet: it counts as a circle, and the remaining path of its lanelet is empty.
* `Route.Query`: `sideRelations_counterexample` – C30 is violated for lanelets that are not on the route: `leftRelations` and `rightRelations` dereference an empty optional.
* `Route.Query`: `checkValidity_mirrored_counterexample` – C31 is violated: whenever some left, right or conflicting relation of a route is properly mirrored, an error is reported.
* `Route.Query`: `checkValidity_unmirrored_counterexample` – C31 is violated: two lanelets that are both to the right of the other one are not reported.
* `Route.Eval`: `lane_counterexample` – C30 is violated for lanes: the documentation promises a new lane id only where a lane splits or joins. Here the route consists of 1 and 2 only, 2 is the only lanelet that follows 1, 1 the only one before 2, and yet they have different lane ids: 4, which leads to 2 as well, was put on the route, but is not reachable, because 3 was taken off the route.
* `Route.Eval`: `build_counterexample` – C30 is violated: for a valid path there is no route, but undefined behaviour. The construction writes behind the end of a `vector<bool>` because a permitted path leaves the list of new lanelets.
* `Route.Eval`: `dead_end_counterexample` – C58 is violated: 6 is on the route, but the route does not go on from it, neither along the road nor by a lane change. The lanelets that it led to were taken off the route after it was found that it leads somewhere.
* `Route.Eval`: `skipped_lane_counterexample` – C58 is violated: 3 is next to the shortest path and leads to the goal by a lane change to 1, but is not on the route. Lane changes to lanelets that are not on the route are not counted, but subtracted when these lanelets are pruned.
* `Tri.Grid`: `merged_counterexample` – C102, disagreement. All corners within a square of two centimetres around the origin are one point for the diagram, and all within one centimetre elsewhere: for each point of the grid.
* `Tri.Grid`: `turn_counterexample` – C102, disagreement. A clockwise triangle with sides of more than ten metres is counterclockwise for the diagram, another one is flat.
* `Tri.Props`: `triangulate_counterexample` – "Split a concave polygon into triangles": `triangulate` is the triangulation of the points, i.e. of their convex hull. For the dart one triangle is outside of the polygon, and the triangles do not have the area of the polygon.
* `Tri.Props`: `convexPartition_counterexample` – The partition of a simple polygon fails with an exception if a side of the polygon is not in the diagram of the points, as the sides are not part of the construction of the diagram.
* `Bin.Props`: `sameId_counterexample` – Of two regulatory elements with the same id only the one that is saved first is restored, and the other one is replaced by it: here the regulatory element of the map has the subtype of the other one after loading.
* `Bin.Props`: `expired_counterexample` – a map with a regulatory element whose lanelet does not exist any more cannot be saved
* `Bin.Props`: `unknown_subtype_counterexample` – a regulatory element with a subtype that no class is registered for is saved, but the file cannot be loaded
* `Bin.Props`: `no_subtype_counterexample` – a regulatory element without subtype has one after loading
* `Bin.Props`: `unowned_counterexample` – a lanelet that only a regulatory element refers to is saved, but after loading nothing owns it, and the parameter is expired
* `Lanelet.Border`: `follows_counterexample` – Disagreement with C62: an area follows a lanelet, but no common line is found, because the line has the direction from left to right.
* `Lanelet.Border`: `pinched_counterexample` – Disagreement with C62: if the boundary of an area comes back to a point, only the edge at its first occurrence is seen. The areas have a common edge, but the answer depends on their order.
* `Lanelet.Border`: `overlaps_direction_counterexample` – Disagreement with C62: whether lanelets overlap depends on their direction. Lanelets that end at the same place are not neighbours, but they are if one of them is inverted. If their insides have common points, the answers differ.
* `Lanelet.Border`: `adjacent_empty_counterexample` – for an area without points the first segment is accessed.
* `Lanelet.Overlap`: `hook_counterexample` – Disagreement with C88: polygons that overlap are said not to, because they have a common edge. The second polygon reaches around the end of the edge into the first one.
* `Lanelet.Overlap`: `hole_counterexample` – Disagreement with C88: an area that lies in the hole of another area is said to overlap it, although no point is in both.
* `Lanelet.Overlap`: `empty_counterexample` – Disagreement with C88: for an area without a boundary the answer is undefined, since compound polygons without points claim to have a segment.
* `Lanelet.Handle`: `set_id_counterexample` – C94. A handle is not found any more, and can be put into the set twice, if its id changed in the meantime, for example because it had no id and was added to a map: the hash is computed from the id (Primitive.h 327-330).
* `Lanelet.Handle`: `python_path_counterexample` – C94. Paths are equal in Python if they have the same lanelets, but an equal path is not found in a set or dictionary.
* `Lanelet.Own`: `submap_counterexample` – A submap does not keep everything that its regulatory elements refer to: a lanelet has a regulatory element that refers to a second lanelet, whose regulatory element refers to a third one. With only a submap of the first one left, the second is kept, the third is destroyed: the weak handle that the program reaches from the submap is expired.
* `Lanelet.Own`: `later_parameter_counterexample` – Neither does it keep what a regulatory element refers to only after it was added: the lanelet 2 is a parameter of the regulatory element 3, which was added to the submap 4 before it got this parameter.
* `Lanelet.Own`: `map_later_parameter_counterexample` – A parameter that a regulatory element gets after it was added to a map is not kept by the map, not even if the regulatory element is added again: LaneletMap::add does nothing for an element that it has.
* `Geo.Intersect`: `distanceOther_counterexample` – Disagreement with C63: the distances along the other centerline are those along this one. The lines cross after 4 metres of the first and 2 metres of the second, but both vectors say 4 metres.
* `Proj.Props`: `origin_counterexample` – Disagreement with C61: the origin does not get the coordinates 0, 0; the longitude is not taken relative to it.
* `Proj.Elliptic`: `elliptic_pole_counterexample` – Disagreement with C61: positions closer to the poles than half a degree are all projected to the same latitude.
* `Py.Index`: `holes_append_counterexample` – after `area.innerBounds.append(hole)` the hole is among the inner bounds, but not among the polygons of the area (`innerBoundPolygons()`), which is what all geometric functions use: the bindings change the vector without telling the area.
* `Py.Script`: `printIds_missing_counterexample` – if the id is not in the map, print_ids.py does not say so but raises a TypeError, because it adds a number to a text.
* `Py.Script`: `printIds_zero_counterexample` – print_ids.py `--has-id 0` prints all ids of the map as if no id had been asked for.
* `Py.Repr`: `reg_never_counterexample` – The printed form of a regulatory element never evaluates: the parameters are written where the constructors expect the attributes.
* `Py.Repr`: `lanelet_regs_counterexample` – The printed form of a lanelet that has regulatory elements never evaluates.
* `Py.Repr`: `constLanelet_counterexample` – The printed form of a ConstLanelet never evaluates: its bounds are written as ConstLineString3d, the constructor takes LineString3d.
* `Py.Repr`: `point2_attributes_counterexample` – A Point2d with attributes is written without a height, its attributes stand where the constructor expects the height.
* `Py.Repr`: `ls2_counterexample` – The printed form of a LineString2d or Polygon2d that has points never evaluates: the points are written as Point2d, the constructors take Point3d.
* `Py.Repr`: `point_digits_counterexample` – Coordinates with more than six digits change: the point (1234567, 0, 0) comes back as (1234570, 0, 0).
* `Py.Repr`: `inverted_counterexample` – The printed form of an inverted linestring gives a linestring with the same points in the same order that is not inverted.
* `Py.Call`: `origin_altitude_counterexample` – `Origin(lat=a, lon=b)` creates an origin whose altitude is the longitude b, and no call with keywords for latitude and longitude can give another altitude: even `Origin(lat=a, lon=b, alt=c)` is accepted and has altitude b.
* `Py.Call`: `possiblePaths_shift_counterexample` – The keywords of `possiblePaths` are shifted by one parameter: `graph.possiblePaths(l, c, allowLaneChanges=x)` uses x as the id of the routing cost and 0 for the permission of lane changes, `routingCostId=y` permits lane changes by y, and the lanelet and the minimum cost cannot be given by keyword.
* `Py.Call`: `speedInfo_counterexample` – The constructor of `SpeedLimitInformation` takes the new object itself for the velocity, whatever is given: no call with a velocity can work, and the keyword for it is always rejected.
* `Py.Call`: `loadRobust_counterexample` – `loadRobust` names its second parameter "filename": `loadRobust(filename=f, projector=p)` fails, and `loadRobust(p, filename=f)` takes p for the name of the file.
* `Py.Call`: `setHull_counterexample` – The hull of an object cannot be set, every assignment fails.
* `Py.Kinds`: `speedLimit_counterexample` – `SpeedLimit(...)` in Python creates a traffic sign: whatever elements created in Python a lanelet has, `speedLimits()` is empty and the German traffic rules find no speed limit in them; the subtype is that of a traffic sign, so it stays one when the map is saved and loaded.
* `Py.Kinds`: `makeSpeedLimit_counterexample` – `makeSpeedLimit` takes its argument in km/h, although keyword and documentation of the constructor say m/s.
* `Py.Dict`: `del_missing_counterexample` – C86 fails for `del`: in no state does deleting a key that is missing raise a KeyError as it does for a dictionary.
* `Py.Dict`: `iter_counterexample` – C86 fails for loops: iterating over the attributes yields entries (a key with its value) and not the keys, as a dictionary does.
* `Py.Dict`: `nul_value_counterexample` – C86 fails for values with a NUL character: the same dict gives different attributes depending on whether it is assigned to `attributes` (or passed to the constructor of a primitive) or to the constructor of AttributeMap, which cuts the value; so does `m[k] = v`.
* `Py.Dict`: `bytes_key_counterexample` – C86 fails for bytes: the constructor of AttributeMap refuses a dict with such a key, assigning the same dict to `attributes` takes it for text.
* `Py.Layers`: `contains_other_counterexample` – C87 fails for `elem in layer`: an element counts as contained if any element was added under the id that it has now, also if it is a different one.
* `Py.Layers`: `renamed_counterexample` – C87 fails after an id was changed: the element is still visited by the loop and found under its old id, but neither `elem in layer` nor `layer[elem.id]` finds it.
* `Py.Layers`: `iter_values_counterexample` – C87 fails for loops: a loop over a layer visits the values, a loop over a dictionary visits the keys. No element of the layer that is visited is a key.
* `Py.Geometry`: `distance_order_counterexample` – Counterexample to C92. The distance of a polygon and a point can be asked for, the distance of the point and the polygon raises: for 2D points and for plain points, and for polygons and compound polygons in the same way.
* `Py.Geometry`: `intersects2d_boxes_counterexample` – Counterexample to C92. `intersects2d` was defined for 3D bounding boxes in place of 2D ones: it raises for 2D boxes, and for 3D boxes it computes in 3D, so boxes above each other do not intersect in 2D.
* `Py.Geometry`: `boundingBox_none_counterexample` – Counterexample to C92. None is taken as a regulatory element by the bounding boxes, so that the C++ function dereferences a null pointer (RegulatoryElement.h 23) instead of Python raising an error.
* `Py.Geometry`: `to2D_hybrid_counterexample` – Counterexample to C92. `to2D` leaves hybrid line strings, hybrid polygons and bounding boxes in 3D, without an error, so the result is still three-dimensional.
* `Py.Hand`: `hull_setter_counterexample` – Counterexample to C91. The hull of an object cannot be set from Python: the setter that was registered takes one argument, but Python passes the object and the value, so every assignment to `absoluteHull` raises an error.
* `Py.Costs`: `cost_exception_counterexample` – Counterexample to C93. An exception that an override raises, a result that is no number and a missing override of RoutingCost end the program when the routing graph asks for the cost, instead of raising in Python, although the same call from Python just raises.
* `Py.Costs`: `null_cost_counterexample` – Counterexample to C93. None in the list of costs is taken as a null pointer by the conversion, which the routing graph dereferences, instead of being refused with an error.
* `Py.Element`: `swap_counterexample` – C96, disagreement. Exchanging two points the way Python programs do, `ls[a], ls[b] = ls[b], ls[a]`, loses one of them: afterwards both places have the point that was at b, while a list has both points exchanged. This holds for every linestring, inverted or not, and for all places.
* `Py.Element`: `append_counterexample` – C96, disagreement. After `p = ls[i]` and `ls.append(q)` looking at `p` is undefined behaviour whenever the memory of the linestring was used up.
* `Py.Element`: `del_counterexample` – C96, disagreement. After `p = ls[i]` and `del ls[i]` the variable `p` is the point that was stored behind the deleted one, and looking at it is undefined behaviour if there is none.
* `Io.Props`: `locale_warning_counterexample` – C64: a decimal point of the locale that is no dot ("The loaded map will have wrong coordinates!") is not reported: osm::read replaces the errors collected before, so that load without a place for errors succeeds. Only std::cerr shows the warning.
* `Io.Props`: `locale_write_counterexample` – C64: the same when writing ("This will lead to invalid osm output!"): buildErrorMessage clears the errors.
* `Io.Props`: `write_exception_counterexample` – C64: a file that cannot be written is reported as ParseError and not as WriteError, by the writers for osm and bin files.
* `Plan.Props`: `shortestPath_map_changes_counterexample` – With lane changes, the shortest path is not always found: if two lanelets are to the right of a lanelet (they share its right bound) and the lane may be changed to both, there is no path to one of them. Only one lane change per lanelet and side is entered in the graph.
* `Plan.Double`: `exact_order_counterexample` – The factor of C95 can not be left out: of two ways with the same ends the search prefers the one that is longer in exact arithmetic. The first has the steps 1, 2⁻⁵³, 2⁻⁵³, 2⁻⁵³, the second a single one.
* `Debug.Props`: `debug_inverted_counterexample` – C69 is violated: a lanelet that can be used in both directions is twice in the graph with the same id. The debug map has only one point for it, and the conflict between its two directions is shown by two linestrings, neither of which has the opposite relation.
* `Debug.Props`: `debug_parallel_counterexample` – C69 is violated: of two relations in the same direction the second one is shown as the relation of the opposite direction, in which there is none.
* `Debug.Route`: `routeDebug_lines_counterexample` – C70 is violated: in the debug map of the route over two lanes of two lanelets only one linestring is left although four pairs of lanelets are related. (The points are right; lanelets 1 and 2 are on the shortest path.)
* `Debug.Route`: `routeDebug_single_counterexample` – C70 is violated for a route that consists of a single lanelet: its point has a new id (here 100) instead of the one of the lanelet, and neither a place nor a lane.
* `Route.Container`: `direction_counterexample` – C71 is violated for lanelets that may be used in both directions: a graph has both of them, but its submap has the lanelet only once. For the inverted lanelet the lanelet itself is reported as a conflict, for the lanelet itself the inverted one is not.
* `Route.Container`: `route_direction_counterexample` – C71 is violated for routes that use a lanelet in both directions: the submap has only one of them, and conflicts of the other one are not reported. Lanelets 0 and 1 overlap, but the inverted lanelet 0 is a neighbour of lanelet 1.
* `Geo.Align`: `align_direction_counterexample` – **Disagreement with C72.** The result depends on the direction the right bound is given in, and the bounds of the result can have opposite directions. The left bound leads from (0, 0) to (10, 0), the right one comes from (-20, 5) and leads along it. Given in these directions they are kept; with the right bound inverted, another of its four points is taken as its middle, and the left bound is inverted.
* `Geo.Align`: `align_again_counterexample` – **Disagreement with C72.** If the bounds are on one line behind each other, every further call inverts the right bound again.
* `Geo.Shift`: `shift_front_counterexample` – **Disagreement with C73.** Negative indices count from the back, but the one of the first point is rejected for every linestring.
* `Geo.Shift`: `shift_average_counterexample` – **Disagreement with C73.** The direction is documented as the average of the directions orthogonal to the neighbouring segments, but it is orthogonal to the line through the neighbours, so the longer segment counts more: at the right angle of (0, 0), (4, 0), (4, 3) the point is moved by 5 to (1, 4), while the average of the two directions, (0, 1) and (-1, 0), is the diagonal.
* `Geo.Shift`: `shift_turn_counterexample` – **Disagreement with C73.** Where a linestring turns back to its previous point, the point is not moved at all.
* `Geo.Height`: `intersects3d_slope_counterexample` – **Disagreement with C74.** The crossing is looked up from the height zero, so on a slope another point of the linestring is found. A ramp from (-100, 0, 0) to (100, 0, 200) and a road from (0, -10, 100) to (0, 10, 100) meet in (0, 0, 100), but they do not intersect, not even with a tolerance of 70.
* `Geo.Height`: `intersects3d_ramps_counterexample` – **Disagreement with C74.** In the other direction: two ramps cross in the plane at (0, 0), the first one at the height 8, the second one at the height 4, and they intersect with a tolerance of 3.
* `Geo.Height`: `overlaps3d_ramp_counterexample` – **Disagreement with C74.** The heights of lanelets are compared where their centerlines are closest to each other, not where the lanelets overlap. The centerline of a road leads from (0, 0, 0) to (100, 0, 0), the one of a ramp from (0, 5, 0) to (100, -5, 10); they cross at (50, 0), 5 metres above each other, but they overlap with a tolerance of 3.
* `Osm.Equal`: `fileEq_members_counterexample` – C75 as a user would state it: files that compare equal have the same members. The test uses "and" instead of "or" (OsmFile.cpp 330): lanelets with different left bounds compare equal.
* `Osm.Equal`: `fileEq_trans_counterexample` – C75: comparison for equality is not transitive.
* `Osm.Equal`: `fileEq_roles_counterexample` – C75: attributes, coordinates and roles do not take part: a lanelet with exchanged roles compares equal.
* `Util.Text`: `area_direction_counterexample` – C103, disagreement. The directions of the bounds of an area are not shown: areas with the same linestrings in other directions have the same text.
* `Util.Text`: `reg_counterexample` – C103, disagreement. A lanelet that does not exist any more is written like a parameter with the id 0, for all regulatory elements. And with a colon in a role two different elements have the same text.
* `Util.Text`: `attr_counterexample` – C103, disagreement. With spaces in a value, different attributes have the same text.
* `Util.Text`: `point_counterexample` – C103, disagreement. Points that are metres apart have the same text.
* `Util.Iter`: `temporary_counterexample` – C97, disagreement. For a constant layer of regulatory elements, `const auto& r = *layer.find(id)` gives a reference to a member of the iterator, which is gone at the end of the statement: looking at `r` is undefined behaviour, whatever the program did before.
* `Util.Iter`: `two_references_counterexample` – C97, disagreement. For a constant layer of regulatory elements, two references that come from the same iterator before and after an increment are both the second element.
* `Util.Iter`: `assign_counterexample` – C97, disagreement. For a constant layer of regulatory elements, a reference becomes a null pointer when the iterator it comes from is assigned the result of another search.
* `Util.Concat`: `concatenateRange_counterexample` – C98, disagreement. concatenateRange of a list of linestrings that is a temporary (for example what findUsages returns) or written in braces, with the function that createMap uses, moves the points out of the linestrings: they are still as long as before, but all their points are null. Linestrings are handles, so that this changes the map.
* `Util.Concat`: `concatenateRange_twice_counterexample` – C98, disagreement. A linestring that occurs twice in a temporary list contributes its points once and null points the second time.

Observed while reading, without a theorem of their own:

* Warnings about the locale are dropped in `OsmFile.cpp`.
