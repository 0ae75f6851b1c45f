{
 "claims": [
  {
   "property": "C01",
   "status": "proved",
   "theorems": [
    "Verif.Ids.ids_good",
    "Verif.Ids.ids_unique",
    "Verif.Ids.ids_after_register",
    "Verif.Ids.counter_mono",
    "Verif.Ids.registerId_solo",
    "Verif.Ids.registerId_seq"
   ],
   "note": "All interleavings of getId/registerId of any number of threads, including spurious CAS failures. Ids are unbounded integers."
  },
  {
   "property": "C02",
   "status": "proved",
   "theorems": [
    "Verif.LMap.add_terminates",
    "Verif.LMap.map_self_contained",
    "Verif.LMap.map_self_contained_identity",
    "Verif.LMap.distinct_kept",
    "Verif.LMap.createMap_spec",
    "Verif.LMap.id_clash_counterexample"
   ],
   "note": "Self-containedness by id for every add history, also of cyclic object graphs; by identity if ids do not clash. id_clash_counterexample shows why the identity version needs that hypothesis."
  },
  {
   "property": "C03",
   "status": "proved",
   "theorems": [
    "Verif.LMap.add_existing",
    "Verif.LMap.add_idempotent",
    "Verif.LMap.add_keeps",
    "Verif.LMap.add_only",
    "Verif.LMap.elements_own_id",
    "Verif.LMap.uniqueId_unused",
    "Verif.LMap.uniqueId_after_createMap_counterexample"
   ],
   "note": "For every add history."
  },
  {
   "property": "C04",
   "status": "proved",
   "theorems": [
    "Verif.LMap.lookups_agree",
    "Verif.LMap.find_first",
    "Verif.LMap.iteration_once"
   ],
   "note": "For every layer and every history of adds to it."
  },
  {
   "property": "C05",
   "status": "partial",
   "theorems": [
    "Verif.LMap.findUsages_iff",
    "Verif.LMap.findRegUsages_iff",
    "Verif.LMap.findUsagesIn_iff",
    "Verif.LMap.submap_findUsages_counterexample",
    "Verif.LMap.submap_duplicate_usage_counterexample",
    "Verif.LMap.findUsages_bounds",
    "Verif.LMap.findRegUsages_members"
   ],
   "note": "Exact for maps filled by add; the claim fails for submaps (counterexamples proved)."
  },
  {
   "property": "C06",
   "status": "proved",
   "theorems": [
    "Verif.Nearest.findNearest_spec",
    "Verif.Nearest.findNearest_shapes",
    "Verif.Nearest.box_dist_le",
    "Verif.Nearest.nearestUntil_min",
    "Verif.Nearest.until_spec",
    "Verif.Nearest.findNearest_zero_counterexample",
    "Verif.LMap.tree_exact"
   ],
   "note": "For n >= 1 and every tree; n = 0 on a nonempty layer is undefined behaviour (proved). Exact arithmetic; the iteration order of the boost r-tree is assumed to be ascending in box distance."
  },
  {
   "property": "C07",
   "status": "proved",
   "theorems": [
    "Verif.Nearest.findWithin_spec",
    "Verif.Nearest.findWithin_negative",
    "Verif.LMap.tree_exact"
   ],
   "note": "For every layer, geometry and distance, in exact arithmetic; the r-tree query is assumed to return exactly the entries with an intersecting box."
  },
  {
   "property": "C08",
   "status": "partial",
   "theorems": [
    "Verif.LMap.submap_exact",
    "Verif.LMap.submapToMap_partial",
    "Verif.LMap.submapToMap_counterexample",
    "Verif.LMap.createMap_spec"
   ],
   "note": "The submap part in full. laneletMap() is self-contained if all objects have valid ids; otherwise the claim is false (counterexample proved)."
  },
  {
   "property": "C09",
   "status": "proved",
   "theorems": [
    "Verif.HMap.hybridMap_refines_map",
    "Verif.HMap.insert_result",
    "Verif.HMap.size_spec",
    "Verif.HMap.equal_spec",
    "Verif.HMap.attributeTable_good",
    "Verif.HMap.roleTable_good",
    "Verif.HMap.attributeName_names",
    "Verif.HMap.roleName_names",
    "Verif.HMap.embedded_nul_counterexample"
   ],
   "note": "For all histories over any number of objects, keys without NUL. embedded_nul_counterexample shows why NUL is excluded. Iteration order is not modelled."
  },
  {
   "property": "C10",
   "status": "proved",
   "theorems": [
    "Verif.Attr.conversions_depend_on_string",
    "Verif.Attr.conversions_depend_on_string'",
    "Verif.Attr.double_history_counterexample",
    "Verif.Attr.documented_units",
    "Verif.Attr.misread_units_counterexample"
   ],
   "note": "For attributes set from strings without hypothesis; for attributes constructed from values if the string written can be read again, which fails for doubles with more than six decimals (double_history_counterexample)."
  },
  {
   "property": "C100",
   "status": "partial",
   "theorems": [
    "Verif.Own.alive_iff_reach",
    "Verif.Own.never_freed",
    "Verif.Own.no_leak",
    "Verif.Own.lock_iff",
    "Verif.Own.rules_do_not_own",
    "Verif.Own.map_keeps",
    "Verif.Own.map_keeps_all",
    "Verif.Own.map_later_parameter_counterexample",
    "Verif.Own.submap_keeps",
    "Verif.Own.submap_counterexample",
    "Verif.Own.later_parameter_counterexample"
   ],
   "note": "Everything but the last two sentences is proved for all programs. For maps: map_keeps says exactly what the map has after an addition, and that all of this lives as long as the map; map_keeps_all is the full sentence for what an element leads to when it is added, if no primitive was changed before; it is false for parameters that a regulatory element gets after it was added (map_later_parameter_counterexample). For submaps: proved for what is referred to and not expired when the element is added (submap_keeps); false for regulatory elements of lanelets that the submap only keeps because another regulatory element refers to them (submap_counterexample), and for parameters given later (later_parameter_counterexample). Use counts, handles and weak handles are modelled; memory is not used again, null handles and threads are left out, and different data have different ids."
  },
  {
   "property": "C101",
   "status": "partial",
   "theorems": [
    "Verif.LMap.has_line_iff",
    "Verif.LMap.has_lanelet_partial",
    "Verif.LMap.has_area_partial",
    "Verif.LMap.has_rule_iff",
    "Verif.LMap.has_sound",
    "Verif.LMap.has_bound",
    "Verif.LMap.findUsagesById_iff",
    "Verif.LMap.findUsagesById_point",
    "Verif.LMap.findUsagesById_covers",
    "Verif.LMap.has_bound_counterexample",
    "Verif.LMap.has_area_counterexample"
   ],
   "note": "Proved: has is only true for ids of parts (has_sound); it is true for all of them for linestrings and polygons (has_line_iff), and for regulatory elements as far as it is for their parameters (has_rule_iff). For lanelets it misses the bounds themselves (has_lanelet_partial, has_bound, has_bound_counterexample: findUsages by id then misses lanelets that layer.findUsages gives); for areas everything but the points of the outer bound (has_area_partial, has_area_counterexample). findUsages by id gives exactly the elements with has, each once, and agrees with layer.findUsages for points, and covers it for parameters and regulatory elements."
  },
  {
   "property": "C102",
   "status": "partial",
   "theorems": [
    "Verif.Tri.toVoronoi_near",
    "Verif.Tri.toVoronoi_mono",
    "Verif.Tri.toVoronoi_exact",
    "Verif.Tri.toGrid_separates",
    "Verif.Tri.turn_kept",
    "Verif.Tri.merged_counterexample",
    "Verif.Tri.turn_counterexample"
   ],
   "note": "The documented millimetre does not hold: coordinates are cut to whole centimetres towards zero. Proved with centimetres instead: corners move by less than one centimetre along each axis (toVoronoi_near), stay different if they are two centimetres apart along an axis (toGrid_separates), and turns that are not too flat are kept (turn_kept). All points within a square of two centimetres around the origin are one point (merged_counterexample), clockwise triangles of ten metres can become counterclockwise or flat (turn_counterexample). Exact arithmetic; numbers beyond 64 bits are not modelled."
  },
  {
   "property": "C103",
   "status": "partial",
   "theorems": [
    "Verif.Text.lineText_iff",
    "Verif.Text.laneletText_iff",
    "Verif.Text.areaText_iff",
    "Verif.Text.laneletOrAreaText_iff",
    "Verif.Text.sequenceText_iff",
    "Verif.Text.regText_iff",
    "Verif.Text.pointText_iff",
    "Verif.Text.attrText_iff",
    "Verif.Text.area_direction_counterexample",
    "Verif.Text.reg_counterexample",
    "Verif.Text.point_counterexample",
    "Verif.Text.attr_counterexample"
   ],
   "note": "Holds for linestrings, polygons, lanelets, sequences and compound linestrings. Areas do not show the directions of their bounds. Parameters that do not exist any more are written as 0; roles with colons, attributes with spaces and coordinates beyond six digits make texts ambiguous (counterexamples proved)."
  },
  {
   "property": "C104",
   "status": "proved",
   "theorems": [
    "Verif.Nearest.layerNearest_spec",
    "Verif.Nearest.layerNearest_points",
    "Verif.Nearest.layerNearest_enough",
    "Verif.Nearest.layerNearest_not_exact",
    "Verif.LMap.tree_exact"
   ],
   "note": "The answer of the boost r-tree is a parameter that meets its documented contract (Query). tree_exact: the tree has exactly the elements of the layer whose box is not empty."
  },
  {
   "property": "C105",
   "status": "partial",
   "theorems": [
    "Verif.Build.build_consistent",
    "Verif.Build.build_valid",
    "Verif.Build.routingGraphIsValid_iff",
    "Verif.Build.two_neighbours_counterexample",
    "Verif.Build.overlap_neighbours_counterexample"
   ],
   "note": "Proved for maps in which a lanelet has at most one other beside it on each side, lanelets beside each other are connected in no other way, and going to the left comes to an end. Otherwise it is false: whenever two lanelets lie beside the same bound of a third, the graph the library builds is not consistent and its validator reports errors (two_neighbours_counterexample); and if neighbours with permitted lane changes overlap, only the one that comes first in the map can change lanes (overlap_neighbours_counterexample)."
  },
  {
   "property": "C11",
   "status": "partial",
   "theorems": [
    "Verif.LineStr.invert_spec",
    "Verif.LineStr.read_spec",
    "Verif.LineStr.iterators_spec",
    "Verif.LineStr.insert_spec",
    "Verif.LineStr.insertRange_partial",
    "Verif.LineStr.insertRange_counterexample",
    "Verif.LineStr.pushBack_spec",
    "Verif.LineStr.erase_spec",
    "Verif.LineStr.popBack_spec",
    "Verif.LineStr.resize_spec",
    "Verif.LineStr.clear_spec",
    "Verif.LineStr.set_spec",
    "Verif.LineStr.assign_spec",
    "Verif.LineStr.assignMove_counterexample",
    "Verif.LineStr.segment_spec",
    "Verif.LineStr.numSegments_spec",
    "Verif.LineStr.equal_iff"
   ],
   "note": "All operations for all states and positions; two operations of the code violate the claim on inverted handles (counterexamples proved): the iterator returned by the range insert, and move assignment from a vector."
  },
  {
   "property": "C12",
   "status": "proved",
   "theorems": [
    "Verif.Compound.compound_points",
    "Verif.Compound.compound_size",
    "Verif.Compound.compound_empty",
    "Verif.Compound.compound_at",
    "Verif.Compound.compound_front_back",
    "Verif.Compound.compound_segment",
    "Verif.Compound.compound_iterators",
    "Verif.Compound.compound_invert",
    "Verif.Compound.compound_numSegments"
   ],
   "note": ""
  },
  {
   "property": "C13",
   "status": "proved",
   "theorems": [
    "Verif.Lanelet.invert_spec",
    "Verif.Lanelet.setBound_spec",
    "Verif.Lanelet.setCenterline_spec",
    "Verif.Lanelet.leftOf_spec",
    "Verif.Lanelet.follows_spec",
    "Verif.Lanelet.commonLine_spec",
    "Verif.Lanelet.areaSides_spec",
    "Verif.Lanelet.commonLineAreas_spec",
    "Verif.Lanelet.areaFollows_spec",
    "Verif.Lanelet.regs_spec",
    "Verif.Lanelet.equalL_iff"
   ],
   "note": "Also the relations between lanelets and areas. The front()/back() of empty bounds in follows(lanelet, area) are undefined behaviour, hence the hypotheses of areaFollows_spec."
  },
  {
   "property": "C14",
   "status": "proved",
   "theorems": [
    "Verif.Lanelet.centerline_never_stale",
    "Verif.Lanelet.centerline_after_reset",
    "Verif.Lanelet.centerline_edit_counterexample",
    "Verif.Lanelet.area_polygons_never_stale"
   ],
   "note": "Histories of bound and centerline changes through any handles. Editing the points of a bound needs a resetCache afterwards (centerline_after_reset), without it the centerline is stale (centerline_edit_counterexample)."
  },
  {
   "property": "C15",
   "status": "proved",
   "theorems": [
    "Verif.Center.centerline_spec",
    "Verif.Center.centerPoints_spec",
    "Verif.Center.findClosest_spec",
    "Verif.Center.closed_single_left_counterexample",
    "Verif.Center.closed_single_right_counterexample"
   ],
   "note": "For all outcomes of the geometric tests. Bounds of a single point that start at the same point are excluded, both cases are shown to fail."
  },
  {
   "property": "C16",
   "status": "partial",
   "theorems": [
    "Verif.Rules.canPass_iff",
    "Verif.Rules.canPassArea_iff",
    "Verif.Rules.isOneWay_iff",
    "Verif.Rules.canPass_directions",
    "Verif.Rules.busLane_counterexample",
    "Verif.Rules.pedestrian_oneway_counterexample"
   ],
   "note": "Exact for all attribute maps, participants and handles against a separate specification of the tags (most general matching tag of the participant hierarchy). Two cells of the documentation table are violated by the code (counterexamples proved): bus lanes have no entry, and a one_way override for another participant makes the lanelet one-way for pedestrians."
  },
  {
   "property": "C17",
   "status": "partial",
   "theorems": [
    "Verif.Rules.canPassLL_iff",
    "Verif.Rules.canPassLA_implies",
    "Verif.Rules.canPassAL_implies",
    "Verif.Rules.canPassAA_partial",
    "Verif.Rules.canPassAA_counterexample"
   ],
   "note": "Exact for lanelets; for lanelet/area transitions both passable, connected, and the shared line may be crossed in this direction. Between two areas the code checks passability wrongly (counterexample proved), the rest is in canPassAA_partial."
  },
  {
   "property": "C18",
   "status": "proved",
   "theorems": [
    "Verif.Rules.canChangeLane_iff",
    "Verif.Rules.canChangeLane_mirror",
    "Verif.Rules.laneChangeType_iff",
    "Verif.Rules.laneChange_left_only_counterexample"
   ],
   "note": "For all attributes with lane_change:left accompanied by lane_change:right as documented; a lone lane_change:left=no is ignored (counterexample proved)."
  },
  {
   "property": "C19",
   "status": "proved",
   "theorems": [
    "Verif.Rules.speedLimit_spec",
    "Verif.Rules.limitFromType_spec",
    "Verif.Rules.germanRegLimit_spec",
    "Verif.Rules.busLane_limit_counterexample"
   ],
   "note": "For all attributes, participants and regulatory elements. Bus lanes have no entry in the table of the code (limit 0)."
  },
  {
   "property": "C20",
   "status": "proved",
   "theorems": [
    "Verif.Rules.create_spec",
    "Verif.Rules.available_spec"
   ],
   "note": "For all histories of registrations."
  },
  {
   "property": "C21",
   "status": "proved",
   "theorems": [
    "Verif.Search.shortestPath_spec",
    "Verif.Search.shortestPath_optimal",
    "Verif.Search.shortestPath_self",
    "Verif.Graph.routing_shortestPath",
    "Verif.Graph.routing_shortestPath_errors",
    "Verif.Graph.built_wf"
   ],
   "note": "Every tie breaking of the queue; cost addition need not be associative. The laws of costs that are used hold for rounded sums as well (instance rdCost, C95)."
  },
  {
   "property": "C22",
   "status": "proved",
   "theorems": [
    "Verif.Search.reachableSet_spec",
    "Verif.Search.reachableSet_start_iff",
    "Verif.Search.reachableSetTowards_spec",
    "Verif.Graph.routing_reachableSet",
    "Verif.Graph.routing_reachableSetTowards"
   ],
   "note": "The start is only part of the set if the limit is not negative (differs from the documentation). The laws of costs that are used hold for rounded sums as well (instance rdCost, C95)."
  },
  {
   "property": "C23",
   "status": "proved",
   "theorems": [
    "Verif.Search.forEachSuccessor_spec",
    "Verif.Graph.routing_forEach",
    "Verif.Graph.routing_forEach_invalid",
    "Verif.Graph.routing_forEach_all"
   ],
   "note": "All stateful, possibly throwing callbacks. The laws of costs that are used hold for rounded sums as well (instance rdCost, C95)."
  },
  {
   "property": "C24",
   "status": "proved",
   "theorems": [
    "Verif.Search.possiblePaths_general",
    "Verif.Search.possiblePaths_cost",
    "Verif.Search.possiblePaths_elements",
    "Verif.Search.possiblePaths_invalid_iff",
    "Verif.Search.possiblePathsTowards_general",
    "Verif.Search.possiblePaths_limits",
    "Verif.Graph.routing_possiblePaths",
    "Verif.Graph.routing_possiblePaths_invalid",
    "Verif.Graph.routing_possiblePathsElements",
    "Verif.Graph.routing_possiblePathsCost",
    "Verif.Graph.routing_possiblePaths_cover"
   ],
   "note": " The laws of costs that are used hold for rounded sums as well (instance rdCost, C95)."
  },
  {
   "property": "C25",
   "status": "proved",
   "theorems": [
    "Verif.Search.shortestPathVia_spec",
    "Verif.Search.shortestPathVia_exists_iff",
    "Verif.Search.shortestPathVia_legs",
    "Verif.Graph.routing_shortestPathVia"
   ],
   "note": " The laws of costs that are used hold for rounded sums as well (instance rdCost, C95)."
  },
  {
   "property": "C26",
   "status": "partial",
   "theorems": [
    "Verif.Graph.view_exact",
    "Verif.Graph.view_exact_in",
    "Verif.Graph.following_exact",
    "Verif.Graph.previous_exact",
    "Verif.Graph.previous_iff_following",
    "Verif.Graph.conflicting_exact",
    "Verif.Graph.neighbour_iff",
    "Verif.Graph.neighbour_none_iff",
    "Verif.Graph.routingRelation_sound",
    "Verif.Graph.routingRelation_true_iff",
    "Verif.Graph.routingRelation_partial",
    "Verif.Graph.routingRelation_reports_conflicting",
    "Verif.Graph.routingRelation_conflicting_counterexample",
    "Verif.Graph.relations_partial"
   ],
   "note": "All views and the queries built on them, except that the code violates the claim for routingRelation(includeConflicting=false): its filter lets conflicting edges pass (counterexample proved)."
  },
  {
   "property": "C27",
   "status": "partial",
   "theorems": [
    "Verif.Graph.untilEnd_iff",
    "Verif.Graph.untilEnd_terminates",
    "Verif.Graph.untilEnd_cycle",
    "Verif.Graph.lefts_loops_counterexample",
    "Verif.Graph.besides_iff",
    "Verif.Graph.neighbour_iff",
    "Verif.Graph.neighbour_none_iff",
    "Verif.Graph.relations_spec",
    "Verif.Graph.relations_terminates",
    "Verif.Graph.leftRelations_spec",
    "Verif.Graph.rightRelations_spec"
   ],
   "note": "Order, content and termination for neighbour relations without cycles; on a cycle the queries do not return (counterexample proved)."
  },
  {
   "property": "C28",
   "status": "partial",
   "theorems": [
    "Verif.Build.build_vertices",
    "Verif.Build.successor_iff",
    "Verif.Build.laneChange_sound",
    "Verif.Build.adjacent_sound",
    "Verif.Build.neighbour_adjacent",
    "Verif.Build.neighbour_laneChange",
    "Verif.Build.laneChange_target_unique",
    "Verif.Build.conflicting_symm",
    "Verif.Build.conflicting_sound",
    "Verif.Build.conflicting_complete",
    "Verif.Build.conflicting_inverse",
    "Verif.Build.area_iff",
    "Verif.Build.conflicting_area_oneway",
    "Verif.Build.overlap_neighbours_counterexample",
    "Verif.Build.both_inverted_counterexample"
   ],
   "note": "For all maps, rules, cost modules, geometry predicates and iteration orders. Successor and Area edges exactly characterised. Left/Right/Adjacent are sound for all inputs; complete when the neighbour is the only one on this side and not connected otherwise. With several direct neighbours on one side only one gets lane change edges (laneChange_target_unique), so the unrestricted claim fails. If neighbours overlap, the second one in the map gets no lane change (overlap_neighbours_counterexample). Overlapping lanelets do not conflict if both are driven against their direction (both_inverted_counterexample)."
  },
  {
   "property": "C29",
   "status": "proved",
   "theorems": [
    "Verif.Build.neighbour_laneChange",
    "Verif.Build.build_vertices",
    "Verif.Build.laneChange_order_counterexample"
   ],
   "note": "Exactly one edge per cost module for every collected lane change, for every iteration order, and the construction terminates. The length of the chain, and so the cost, depends on the iteration order (counterexample proved)."
  },
  {
   "property": "C30",
   "status": "partial",
   "theorems": [
    "Verif.Route.route_contains_path",
    "Verif.Route.route_exists",
    "Verif.Route.getRoute_partial",
    "Verif.Route.remainingLane_spec",
    "Verif.Route.fullLane_spec",
    "Verif.Route.not_in_route",
    "Verif.Route.remainingShortestPath_suffix",
    "Verif.Route.remainingShortestPath_circle",
    "Verif.Route.single_lanelet_counterexample",
    "Verif.Route.sideRelation_spec",
    "Verif.Route.sideRelations_iff",
    "Verif.Route.sideRelations_counterexample",
    "Verif.Route.route_following",
    "Verif.Route.route_previous",
    "Verif.Route.route_straight",
    "Verif.Route.getRoute_straight",
    "Verif.Route.getRouteVia_straight",
    "Verif.Route.getRouteVia_partial",
    "Verif.Route.getRouteVia_invalid",
    "Verif.Route.getRoute_invalid"
   ],
   "note": "All of it holds for the route of every connected path that is built (without lane changes that is every connected path: route_straight; with lane changes see C58), except that the remaining shortest path of a route with a single lanelet is empty (single_lanelet_counterexample). leftRelations and rightRelations of a lanelet that is not on the route are undefined behaviour (sideRelations_counterexample)."
  },
  {
   "property": "C31",
   "status": "partial",
   "theorems": [
    "Verif.Route.checkValidity_iff",
    "Verif.Route.checkValidity_partial",
    "Verif.Route.checkValidity_mirrored_counterexample",
    "Verif.Route.checkValidity_unmirrored_counterexample"
   ],
   "note": "checkValidity_iff states what the function computes: it compares the relation back with the wrong sides, so correctly mirrored left and right relations are reported (checkValidity_mirrored_counterexample) and an unmirrored relation need not be (checkValidity_unmirrored_counterexample). It is right for routes with conflicting relations only (checkValidity_partial)."
  },
  {
   "property": "C32",
   "status": "proved",
   "theorems": [
    "Verif.Osm.read_spec",
    "Verif.Osm.read_no_errors",
    "Verif.Osm.readTags_spec"
   ],
   "note": "For all documents, with every choice of which end of the deque moves on erase. The xml text itself (pugixml) is not modelled. With two relations of the same id the members are joined."
  },
  {
   "property": "C33",
   "status": "partial",
   "theorems": [
    "Verif.Osm.write_spec_partial",
    "Verif.Osm.missing_lanelet_counterexample"
   ],
   "note": "Holds for all maps in which no lanelet or area parameter follows one that is not in the map. Otherwise writing is undefined behaviour: removeAndFixPlaceholders in OsmHandlerWrite.cpp does not decrement the index of placeholders behind the removed one (OsmFile.cpp does), see the counterexample. Ids are assumed distinct per OSM type."
  },
  {
   "property": "C34",
   "status": "proved",
   "theorems": [
    "Verif.Osm.assemble_again",
    "Verif.Osm.write_written",
    "Verif.Osm.round_trip",
    "Verif.Osm.type_attribute_counterexample",
    "Verif.Osm.area_attribute_counterexample",
    "Verif.Osm.inverted_parameter_counterexample",
    "Verif.Osm.empty_role_counterexample",
    "Verif.Osm.bound_direction_counterexample"
   ],
   "note": "round_trip: write then load, for all maps that OSM can represent. The counterexamples show that the conditions are needed: a lanelet with another type attribute is lost without any error, a linestring with area=true becomes a polygon, an inverted linestring parameter loses its direction, a role without parameters is lost, a bound against the direction of the other is turned. The text format (XML, coordinates as decimals) is not part of this claim."
  },
  {
   "property": "C35",
   "status": "partial",
   "theorems": [
    "Verif.Osm.load_total",
    "Verif.Osm.read_fileOk",
    "Verif.Osm.read_load_total",
    "Verif.Osm.load_complete_partial",
    "Verif.Osm.load_self_contained",
    "Verif.Osm.lost_linestring_counterexample",
    "Verif.Osm.made_up_point_counterexample",
    "Verif.Osm.regelem_type_counterexample"
   ],
   "note": "Loading is total and sound for every file read from a document. A map loaded without errors is self-contained and has every primitive of the file with its attributes and members. Exception: a linestring of an area that closes no ring is lost without an error (lost_linestring_counterexample). With errors the map is not self-contained (made_up_point_counterexample). The projector, geometric predicates and the registry of regulatory elements are parameters."
  },
  {
   "property": "C36",
   "status": "partial",
   "theorems": [
    "Verif.Osm.assembleBoundary_spec_partial",
    "Verif.Osm.assembleBoundary_complete",
    "Verif.Osm.evenEnds_of_complete",
    "Verif.Osm.unclosed_ring_counterexample"
   ],
   "note": "Rings, at-most-once use and termination hold for all non-empty linestrings. \"Every linestring is used if no error is reported\" fails for the ring that is still open at the end (counterexample); it holds, and no ring is stuck, exactly when every point id is an end point an even number of times."
  },
  {
   "property": "C37",
   "status": "partial",
   "theorems": [
    "Verif.Osm.parse_registers",
    "Verif.Osm.ids_after_parse",
    "Verif.Osm.counter_after_parse",
    "Verif.Osm.counter_after_binParse_partial",
    "Verif.Osm.ids_after_binParse_partial",
    "Verif.Osm.binary_ids_counterexample"
   ],
   "note": "OSM files: every id that getId returns after parse, in any history with other threads, is larger than all ids of the map. Binary files: only area ids are registered by the map constructor, the rest by the writer process; binary_ids_counterexample shows a clash."
  },
  {
   "property": "C38",
   "status": "proved",
   "theorems": [
    "Verif.Osm.Josm.josm_value",
    "Verif.Osm.Josm.josm_close",
    "Verif.Osm.Josm.denotes_unique",
    "Verif.Osm.Josm.halfUp_nearest"
   ],
   "note": "A finite double is a sign and an exact magnitude; the rounding of the formatter is any function, to nearest for josm_close. For every number of digits (the code uses 2 and 11). inf, nan and locales are not modelled."
  },
  {
   "property": "C39",
   "status": "partial",
   "theorems": [
    "Verif.Bin.binary_roundtrip",
    "Verif.Bin.sameId_counterexample",
    "Verif.Bin.expired_counterexample",
    "Verif.Bin.unknown_subtype_counterexample",
    "Verif.Bin.no_subtype_counterexample",
    "Verif.Bin.unowned_counterexample"
   ],
   "note": "binary_roundtrip: every valid map, with any cycles between lanelets, areas and regulatory elements, is restored up to the addresses of its objects. Valid excludes null and expired pointers, two regulatory elements with one id, regulatory elements the factory does not create, and lanelets only regulatory elements refer to; the counterexamples show what happens to those. The archive is a list of tokens; the bytes of boost are not modelled."
  },
  {
   "property": "C40",
   "status": "partial",
   "theorems": [
    "Verif.RegElem.allWayStop_history",
    "Verif.RegElem.make_iff",
    "Verif.RegElem.addStop_spec",
    "Verif.RegElem.removeStop_spec",
    "Verif.RegElem.getStopLine_spec",
    "Verif.RegElem.expired_stopline_counterexample",
    "Verif.RegElem.mixed_parameters_counterexample",
    "Verif.RegElem.findAndErase_spec",
    "Verif.RegElem.remove_add",
    "Verif.RegElem.remove_reorders_counterexample",
    "Verif.RegElem.trafficLight_make",
    "Verif.RegElem.stopLine_set",
    "Verif.RegElem.rightOfWay_history",
    "Verif.RegElem.rightOfWay_make",
    "Verif.RegElem.remove_last_counterexample",
    "Verif.RegElem.trafficSign_type",
    "Verif.RegElem.shared_sign_counterexample",
    "Verif.RegElem.cancelTypes_spec",
    "Verif.RegElem.create_subtype",
    "Verif.RegElem.create_made",
    "Verif.RegElem.create_unknown"
   ],
   "note": "Holds for all histories in which a lanelet of an all way stop is removed from it before it is destroyed; otherwise stop lines are mixed up (expired_stopline_counterexample). An element constructed from data with parameters of other types can fail (mixed_parameters_counterexample). Undoing by remove holds up to order if the parameter was there before."
  },
  {
   "property": "C41",
   "status": "proved",
   "theorems": [
    "Verif.Geo.projectPoint_nearest",
    "Verif.Geo.projectPoint_perp"
   ],
   "note": "For every inner product space over an ordered field with norms (instances: the real plane and space). Exact arithmetic."
  },
  {
   "property": "C42",
   "status": "partial",
   "theorems": [
    "Verif.Geo.projectLine_nearest",
    "Verif.Geo.projectLine_index",
    "Verif.Geo.projectLine_empty",
    "Verif.Geo.projectedPair_best",
    "Verif.Geo.projectedPair_swap",
    "Verif.Geo.projectedPair_empty",
    "Verif.Geo.projectSegments_on",
    "Verif.Geo.projectSegments_nearest_partial",
    "Verif.Geo.projectedPair_nearest_partial",
    "Verif.Geo.index2_ok",
    "Verif.Geo.degenerate_segment_counterexample",
    "Verif.Geo.short_segments_counterexample",
    "Verif.Geo.swap_counterexample",
    "Verif.Geo.border_counterexample"
   ],
   "note": "Point to linestring: exact, with every index whose search is sorted and whose box distances are lower bounds (index2_ok: boxes of the plane). Two linestrings: the pair is the best over all pairs of segments (with or without index); the closest points of two segments are exact up to the 1e-10 threshold of the code, and wrong for degenerate or millimetre segments (counterexamples). Swapping swaps the result for different sizes only (swap_counterexample)."
  },
  {
   "property": "C43",
   "status": "proved",
   "theorems": [
    "Verif.Geo.interpolated_at",
    "Verif.Geo.interpolated_at_neg",
    "Verif.Geo.nearestPoint_spec",
    "Verif.Geo.nearestPoint_neg",
    "Verif.Geo.lengthRatios_spec",
    "Verif.Geo.accumulated_spec"
   ],
   "note": "Exact arithmetic; the code returns the start of the segment within 1e-8."
  },
  {
   "property": "C44",
   "status": "partial",
   "theorems": [
    "Verif.Geo.toArcCoordinates_partial",
    "Verif.Geo.arc_roundtrip_partial",
    "Verif.Geo.fromArcCoordinates_spec",
    "Verif.Geo.fromArcCoordinates_short",
    "Verif.Geo.signedDistance_inside",
    "Verif.Geo.signedDistance_corner",
    "Verif.Geo.signedDistance_corner_partial",
    "Verif.Geo.long_corner_counterexample",
    "Verif.Geo.beyond_end_counterexample",
    "Verif.Geo.self_touch_counterexample"
   ],
   "note": "The distance is always the one of the closest point. The length is right if no two points of the linestring (except the last) coincide (self_touch_counterexample otherwise). The round trip holds if the closest point is no vertex (beyond_end_counterexample otherwise). The sign at a corner is right for linestrings with fewer than 50 points (signedDistance_corner); for longer ones only if the segment before the corner is found (long_corner_counterexample otherwise)."
  },
  {
   "property": "C45",
   "status": "proved",
   "theorems": [
    "Verif.Cost.approximatedLength2d_spec"
   ],
   "note": "For all lists of points and all pseudometrics. The length is that of the left bound, not of the centerline."
  },
  {
   "property": "C46",
   "status": "partial",
   "theorems": [
    "Verif.Seq.mk_upToDate",
    "Verif.Seq.bounds_spec",
    "Verif.Seq.invert_spec",
    "Verif.Seq.inverted_bounds_spec",
    "Verif.Seq.polygon_spec",
    "Verif.Seq.centerline_spec",
    "Verif.Seq.regulatoryElements_spec",
    "Verif.Seq.at_spec",
    "Verif.Seq.mkConcat_spec",
    "Verif.Seq.equal_iff",
    "Verif.Seq.polyNumSegments_spec",
    "Verif.Seq.lanelets_inverted",
    "Verif.Seq.lanelets_inverted_counterexample",
    "Verif.Seq.concat_inverted_counterexample",
    "Verif.Seq.equal_inverted_counterexample",
    "Verif.Seq.polyNumSegments_empty_counterexample"
   ],
   "note": "All claims about bounds, polygon and centerline hold for all sequences. The last claim fails in the code: lanelets() and the iterators of an inverted sequence reverse the order but do not invert the lanelets, so operator== and the concatenating constructor lose the inversion (counterexamples proved)."
  },
  {
   "property": "C47",
   "status": "partial",
   "theorems": [
    "Verif.Valid.duplicatedPoints_iff",
    "Verif.Valid.closed_polygon_counterexample",
    "Verif.Valid.mandatoryTags_iff",
    "Verif.Valid.binarySearch_iff",
    "Verif.Valid.values_sorted",
    "Verif.Valid.unknownTagValue_iff_partial",
    "Verif.Valid.linestring_subtype_counterexample",
    "Verif.Valid.unknownTags_iff",
    "Verif.Valid.tag_prefix_counterexample",
    "Verif.Valid.boolTags_iff",
    "Verif.Valid.pointsTooClose_spec",
    "Verif.Valid.bridge_counterexample",
    "Verif.Valid.matchValidators_spec",
    "Verif.Valid.createValidators_spec",
    "Verif.Valid.register_spec",
    "Verif.Valid.pieces_spec",
    "Verif.Valid.validateMap_spec",
    "Verif.Valid.runs_once",
    "Verif.Valid.availableChecks_spec",
    "Verif.Valid.buildReport_spec",
    "Verif.Valid.exit_code",
    "Verif.Valid.file_errors",
    "Verif.Valid.info_counterexample",
    "Verif.Valid.curvatureTooBig_iff",
    "Verif.Valid.straight_not_reported",
    "Verif.Valid.parseFilterString_spec",
    "Verif.Valid.report_text"
   ],
   "note": "Subtypes of linestrings are never checked (linestring_subtype_counterexample), a prefix of a known tag counts as known (tag_prefix_counterexample), a polygon that starts and ends with the same point is not reported (closed_polygon_counterexample), issues with severity info are not printed but change the exit code (info_counterexample)."
  },
  {
   "property": "C48",
   "status": "proved",
   "theorems": [
    "Verif.Match.deterministic_spec",
    "Verif.Match.deterministic_mem",
    "Verif.Match.deterministic_nodup",
    "Verif.Match.probabilistic_spec",
    "Verif.Match.isCloseTo_iff",
    "Verif.Match.removeNonRuleCompliant_spec",
    "Verif.Match.normalizeAngle_spec",
    "Verif.Match.mahalanobis_spec",
    "Verif.Match.mahalanobis_error"
   ],
   "note": "For all layers, objects and rules; assumes that the r-tree reports all intersecting boxes, boxes enclose their lanelets and std::sort sorts. Exact arithmetic."
  },
  {
   "property": "C49",
   "status": "partial",
   "theorems": [
    "Verif.Tri.convexPartition_spec",
    "Verif.Tri.convexPartition_area",
    "Verif.Tri.few_points",
    "Verif.Tri.merge_polygons",
    "Verif.Tri.subdivide_spec",
    "Verif.Tri.triangulate_spec",
    "Verif.Tri.convexPartition_counterexample",
    "Verif.Tri.triangulate_counterexample"
   ],
   "note": "convexPartition_spec holds if all sides of the polygon are in the diagram of its points; otherwise the function can throw for a simple polygon (convexPartition_counterexample). The triangulation is one of the convex hull of the points instead of the polygon (triangulate_counterexample); triangulate_spec states that it makes up the polygons of the diagram. The diagram of boost and the sorting are parameters, the test for convexity is exact in convexPartition_area."
  },
  {
   "property": "C50",
   "status": "proved",
   "theorems": [
    "Verif.BBox.contains_iff",
    "Verif.BBox.isEmpty_iff",
    "Verif.BBox.intersects_iff",
    "Verif.BBox.intersects_comm",
    "Verif.BBox.intersects_of_common",
    "Verif.BBox.containsBox_iff",
    "Verif.BBox.clamp_iff",
    "Verif.BBox.null_spec",
    "Verif.BBox.extendBox_laws",
    "Verif.BBox.corner_spec",
    "Verif.BBox.ofPoints_spec",
    "Verif.BBox.ofLanelet_spec",
    "Verif.BBox.ofRegElem_spec",
    "Verif.BBox.distanceRegElem_spec",
    "Verif.BBox.segment_in",
    "Verif.BBox.empty_box_counterexample"
   ],
   "note": "For all point lists in every dimension; comparisons of doubles are exact, so no exact-arithmetic assumption is needed. intersects is exact for boxes with points; for an empty box other than the default one it may be true (empty_box_counterexample)."
  },
  {
   "property": "C51",
   "status": "partial",
   "theorems": [
    "Verif.Path.enclosing_lane",
    "Verif.Path.lane_no_repetition",
    "Verif.Path.enclosing_union",
    "Verif.Path.enclosing_single",
    "Verif.Path.area_boundary",
    "Verif.Path.enclosing_area_error",
    "Verif.Path.remainingLane_spec",
    "Verif.Path.lanelet_gap_counterexample",
    "Verif.Path.opposite_counterexample"
   ],
   "note": "enclosing_lane: lanelets that follow each other. enclosing_union: paths with lane changes and areas, as long as successive primitives touch and a primitive is not left through the side by which it was entered; the polygon is then the boundary of the union, glued along the common lines. enclosing_area_error: areas that do not touch are rejected. Lanelets that do not touch (or only share a bound in opposite directions) are not rejected and give a wrong polygon."
  },
  {
   "property": "C52",
   "status": "proved",
   "theorems": [
    "Verif.Cost.mkModule_iff",
    "Verif.Cost.distanceSucc_spec",
    "Verif.Cost.distanceChange_iff",
    "Verif.Cost.timeSucc_spec",
    "Verif.Cost.timeChange_iff",
    "Verif.Cost.modules_ok",
    "Verif.Cost.laneChange_min_length",
    "Verif.Cost.negative_rejected",
    "Verif.Cost.built_costs",
    "Verif.Cost.zero_speed_counterexample",
    "Verif.Cost.timeChange_stopped",
    "Verif.Cost.timeChange_undefined",
    "Verif.Cost.infinite_speed_counterexample"
   ],
   "note": "Exact arithmetic. built_costs holds for all cost modules, also user defined ones. A speed limit of 0 is meant to be treated as no limit but gives infinite or NaN costs, so that these lanelets lose their edges (zero_speed_counterexample). An infinite speed limit ends the program in the cost of a lane change (infinite_speed_counterexample)."
  },
  {
   "property": "C53",
   "status": "partial",
   "theorems": [
    "Verif.Attr.Threads.concurrent_conversions_partial",
    "Verif.Attr.Threads.single_thread_safe",
    "Verif.Attr.Threads.different_conversions_counterexample",
    "Verif.Attr.Threads.first_call_counterexample"
   ],
   "note": "Safe if the cache already holds the wanted kind; otherwise the claim is false (counterexamples: use after free)."
  },
  {
   "property": "C54",
   "status": "proved",
   "theorems": [
    "Verif.Osm.read_writeDoc",
    "Verif.Osm.text_round_trip",
    "Verif.Osm.ele_attribute_counterexample"
   ],
   "note": "XML text itself (pugixml escaping and parsing) is not modelled: the document is the tree of elements. Printing and parsing numbers are parameters."
  },
  {
   "property": "C55",
   "status": "proved",
   "theorems": [
    "Verif.Graph.checkValidity_iff",
    "Verif.Graph.checkValidity_returns",
    "Verif.Graph.checkValidity_loops_counterexample"
   ],
   "note": "Holds whenever the function returns; with a circle of neighbours it does not return instead of reporting the error (checkValidity_loops_counterexample)."
  },
  {
   "property": "C56",
   "status": "proved",
   "theorems": [
    "Verif.Route.route_relations",
    "Verif.Route.route_relations_count",
    "Verif.Route.route_members",
    "Verif.Route.route_built",
    "Verif.Route.route_reachable",
    "Verif.Route.route_conflictingInMap",
    "Verif.Route.route_allConflictingInMap",
    "Verif.Route.route_conflictingInRoute",
    "Verif.Route.route_followingRelations",
    "Verif.Route.route_previousRelations"
   ],
   "note": "For all built graphs and all paths for which a route is built."
  },
  {
   "property": "C57",
   "status": "partial",
   "theorems": [
    "Verif.Route.route_lanes",
    "Verif.Route.route_lanes_sound",
    "Verif.Route.route_lanes_partial",
    "Verif.Route.route_numLanes",
    "Verif.Route.lane_counterexample"
   ],
   "note": "Lanelets with the same id are always in one lane (for at most 65536 lanelets, the size of the counter). The converse holds if no lanelet of the lane has a further follower or predecessor in the map that is not on the route (lane_counterexample otherwise)."
  },
  {
   "property": "C58",
   "status": "partial",
   "theorems": [
    "Verif.Route.route_attached_partial",
    "Verif.Route.route_terminates",
    "Verif.Route.route_fault",
    "Verif.Route.getRoute_partial",
    "Verif.Route.route_straight",
    "Verif.Route.route_leads",
    "Verif.Route.dead_end_counterexample",
    "Verif.Route.skipped_lane_counterexample",
    "Verif.Route.build_counterexample"
   ],
   "note": "Building ends if no chain of lane changes to one side is a circle (route_terminates). Without lane changes every connected path gives a route and every lanelet on it leads to the goal (route_straight, route_leads). With lane changes it is undefined behaviour for some maps (build_counterexample); route_fault tells that no other fault occurs. Lanelets of the route are attached to it and can be left (route_attached_partial), but need not lead to the goal (dead_end_counterexample), and lanelets that do can be missing (skipped_lane_counterexample)."
  },
  {
   "property": "C59",
   "status": "partial",
   "theorems": [
    "Verif.Geo.curvature_infinite_iff",
    "Verif.Geo.curvature_circle",
    "Verif.Geo.curvature_sign",
    "Verif.Geo.curvature_reverse",
    "Verif.Geo.curvature_finite",
    "Verif.Geo.curvature_big_iff",
    "Verif.Geo.tiny_straight_counterexample"
   ],
   "note": "Exact real arithmetic. Holds for all points that are not nearly coincident; a straight line with points closer than about 0.1 micrometres has infinite curvature (tiny_straight_counterexample)."
  },
  {
   "property": "C60",
   "status": "partial",
   "theorems": [
    "Verif.Geo.Offset.offset_points",
    "Verif.Geo.Offset.offset_convex",
    "Verif.Geo.Offset.offset_short",
    "Verif.Geo.Offset.env_exists",
    "Verif.Geo.Offset.short_counterexample",
    "Verif.Geo.Offset.sharp_right_counterexample",
    "Verif.Geo.Offset.self_intersection_counterexample",
    "Verif.Geo.Offset.repeated_end_counterexample",
    "Verif.Geo.Offset.inverted_right_counterexample",
    "Verif.Geo.Offset.repeated_point_counterexample"
   ],
   "note": "Exact real arithmetic; boost intersections and R-tree are parameters whose contract is Env.Ok (env_exists: it can be met). offset_points: for every line without repeated points a result exists, begins and ends where it should, all its vertices are near enough and on the parallels, and offset throws exactly if a vertex is too close. offset_convex: without corners towards the side of the offset all edges are as they should be. Missing: edges between the vertices where pieces are joined, and freedom of self-intersections, which does not hold (self_intersection_counterexample). The other counterexamples: offsets to the right are not checked for inversion and cut sharp corners, the last point is repeated, repeated points double the distance."
  },
  {
   "property": "C61",
   "status": "partial",
   "theorems": [
    "Verif.Proj.mercator_roundtrip",
    "Verif.Proj.mercator_roundtrip'",
    "Verif.Proj.mercator_conformal",
    "Verif.Proj.mercator_osm",
    "Verif.Proj.elliptic_roundtrip",
    "Verif.Proj.elliptic_origin",
    "Verif.Proj.elliptic_inverse",
    "Verif.Proj.elliptic_roundtrip'",
    "Verif.Proj.elliptic_conformal",
    "Verif.Proj.utm_roundtrip",
    "Verif.Proj.utm_roundtrip'",
    "Verif.Proj.utm_origin",
    "Verif.Proj.utm_translation",
    "Verif.Proj.utm_strict",
    "Verif.Proj.flatLib_ok",
    "Verif.Proj.origin_counterexample",
    "Verif.Proj.elliptic_pole_counterexample"
   ],
   "note": "Exact real arithmetic; GeographicLib is a parameter with the contract Lib.Ok. The spherical Mercator projector does not apply the origin as offset (origin_counterexample), the elliptical one maps all latitudes within half a degree of a pole to one (elliptic_pole_counterexample). LocalCartesian and Geocentric: see C90."
  },
  {
   "property": "C62",
   "status": "partial",
   "theorems": [
    "Verif.Lanelet.adjacent_iff",
    "Verif.Lanelet.adjacent_symm",
    "Verif.Lanelet.commonLineAreas_adjacent",
    "Verif.Lanelet.preceding_spec",
    "Verif.Lanelet.following_spec",
    "Verif.Lanelet.followingOrPreceding_spec",
    "Verif.Lanelet.sideways_spec",
    "Verif.Lanelet.commonLineAreaLanelet_spec",
    "Verif.Lanelet.preceding_follows",
    "Verif.Lanelet.overlaps2d_spec",
    "Verif.Lanelet.overlaps2d_symm",
    "Verif.Lanelet.follows_counterexample",
    "Verif.Lanelet.pinched_counterexample",
    "Verif.Lanelet.overlaps_direction_counterexample",
    "Verif.Lanelet.adjacent_empty_counterexample"
   ],
   "note": "Holds for simple boundaries. Does not hold: boundaries that come back to a point (pinched_counterexample), areas without points (adjacent_empty_counterexample), an area of the wrong direction follows without a common line (follows_counterexample), overlaps2d of lanelets that end at the same place depends on their direction (overlaps_direction_counterexample). The bounding boxes and the relation of the polygons are parameters."
  },
  {
   "property": "C63",
   "status": "partial",
   "theorems": [
    "Verif.Geo.intersect_partial",
    "Verif.Geo.distanceOther_counterexample"
   ],
   "note": "Exact real arithmetic; boost intersection is a parameter. The distances for the other lanelet are computed along the wrong centerline (distanceOther_counterexample)."
  },
  {
   "property": "C64",
   "status": "partial",
   "theorems": [
    "Verif.Io.create_iff",
    "Verif.Io.create_error_iff",
    "Verif.Io.createFromExtension_iff",
    "Verif.Io.createFromExtension_error_iff",
    "Verif.Io.available_iff",
    "Verif.Io.availableExtensions_iff",
    "Verif.Io.registration_order",
    "Verif.Io.extension_dot",
    "Verif.Io.extension_none",
    "Verif.Io.load_missing",
    "Verif.Io.unsupported_extension",
    "Verif.Io.unsupported_handler",
    "Verif.Io.load_spec",
    "Verif.Io.loadWith_spec",
    "Verif.Io.write_spec",
    "Verif.Io.writeWith_spec",
    "Verif.Io.osm_no_origin",
    "Verif.Io.osm_parse",
    "Verif.Io.osm_write_no_origin",
    "Verif.Io.locale_warning_counterexample",
    "Verif.Io.locale_write_counterexample",
    "Verif.Io.write_exception_counterexample"
   ],
   "note": "What handlers do with a file is a parameter. Does not hold: the warning about the decimal point of the locale is lost, when loading (locale_warning_counterexample) and writing (locale_write_counterexample); files that cannot be written give a ParseError (write_exception_counterexample)."
  },
  {
   "property": "C65",
   "status": "partial",
   "theorems": [
    "Verif.Plan.shortestPath_trip",
    "Verif.Plan.reachableSet_trip",
    "Verif.Plan.distance_module",
    "Verif.Plan.time_module",
    "Verif.Plan.shortestPath_map",
    "Verif.Plan.shortestPath_map_changes",
    "Verif.Plan.shortestPath_map_changes_partial",
    "Verif.Plan.reachableSet_map",
    "Verif.Plan.reachableSet_map_changes",
    "Verif.Plan.shortestPath_map_changes_counterexample",
    "Verif.Build.laneChange_unique",
    "Verif.Build.laneChange_order_counterexample"
   ],
   "note": "Complete without lane changes (also with areas, in terms of the rules object) for any rules and cost modules, and in terms of tags, bounds and lengths for the rules and modules of the library (shortestPath_trip, reachableSet_trip). With lane changes complete if lanelets with permitted lane changes have one neighbour on that side that is only beside them, and lane changes have a fixed cost; on other maps paths are legal and not worse than those without lane changes. It fails if two lanelets are beside one (shortestPath_map_changes_counterexample), and with a minimal length for lane changes the costs depend on the order of a hash map (laneChange_order_counterexample). Exact arithmetic; R-tree searches, overlaps and iteration orders are parameters."
  },
  {
   "property": "C66",
   "status": "partial",
   "theorems": [
    "Verif.RegElem.Access.find_spec",
    "Verif.RegElem.Access.find_unique",
    "Verif.RegElem.Access.findAny_spec",
    "Verif.RegElem.Access.has_iff",
    "Verif.RegElem.Access.has_sound",
    "Verif.RegElem.Access.has_of_find",
    "Verif.RegElem.Access.applyVisitor_spec",
    "Verif.RegElem.Access.getParameters_spec",
    "Verif.RegElem.Access.allParameters_spec",
    "Verif.RegElem.Access.addParameter_spec",
    "Verif.RegElem.Access.findAny_expired_counterexample",
    "Verif.RegElem.Access.has_members_counterexample"
   ],
   "note": "The code does not find ids of bounds of lanelets and areas, of holes and of regulatory elements of areas (has_members_counterexample; has_iff states what is found), and finds expired parameters under the id 0 (findAny_expired_counterexample)."
  },
  {
   "property": "C67",
   "status": "partial",
   "theorems": [
    "Verif.Plan.following_trip",
    "Verif.Plan.neighbour_sound",
    "Verif.Plan.neighbour_exact",
    "Verif.Plan.neighbour_back",
    "Verif.Plan.conflicting_trip",
    "Verif.Plan.possiblePaths_trip",
    "Verif.Plan.shortestPathVia_trip"
   ],
   "note": "With lane changes, following, paths and coverage assume that lanelets with permitted lane changes have one neighbour on that side that is only beside them and that lane changes have a fixed cost (as in C65, where a counterexample shows that this is needed); the rest of the statement holds on all maps. Exact arithmetic; overlaps, R-tree searches and iteration orders are parameters."
  },
  {
   "property": "C68",
   "status": "partial",
   "theorems": [
    "Verif.Plan.getRoute_trip",
    "Verif.Plan.getRouteVia_trip",
    "Verif.Plan.route_onMap",
    "Verif.Plan.route_follows",
    "Verif.Plan.route_conflicts",
    "Verif.Plan.route_trip"
   ],
   "note": "Without lane changes all of it holds. With lane changes building a route may be undefined behaviour (Verif.Route.build_counterexample) and lanelets of the route may be dead ends (Verif.Route.dead_end_counterexample); the theorems then assume that lane changes to one side do not lead round in a circle, and unique neighbours with a fixed cost of lane changes as in C65."
  },
  {
   "property": "C69",
   "status": "partial",
   "theorems": [
    "Verif.Debug.debug_points",
    "Verif.Debug.debug_lines",
    "Verif.Debug.debug_error",
    "Verif.Debug.export_exact",
    "Verif.Debug.relationToString_injective",
    "Verif.Debug.debug_inverted_counterexample",
    "Verif.Debug.debug_parallel_counterexample",
    "Verif.Debug.relationToColor_same",
    "Verif.Debug.relationToColor_table",
    "Verif.Debug.relation_table",
    "Verif.Debug.relation_none",
    "Verif.Debug.export_default"
   ],
   "note": "The debug map is right if elements have different ids and at most one relation that is shown leads from one element to another. Otherwise points are lost (debug_inverted_counterexample) or relations are shown in the wrong direction (debug_parallel_counterexample)."
  },
  {
   "property": "C70",
   "status": "partial",
   "theorems": [
    "Verif.Debug.routeDebug",
    "Verif.Debug.routeDebug_points",
    "Verif.Debug.routeDebug_lines_partial",
    "Verif.Debug.route_allRelated",
    "Verif.Debug.routeDebug_lines_counterexample",
    "Verif.Debug.routeDebug_single_counterexample"
   ],
   "note": "Points are right for routes of two or more lanelets with different ids. At most one linestring is in the map, because none of them has an id (routeDebug_lines_counterexample); a route of one lanelet has a point without id, place and lane (routeDebug_single_counterexample)."
  },
  {
   "property": "C71",
   "status": "partial",
   "theorems": [
    "Verif.Container.conflictingInGraph_exact",
    "Verif.Container.conflictingInGraphs_exact",
    "Verif.Container.conflictingOfRouteInGraph_exact",
    "Verif.Container.conflictingOfRouteInGraphs_exact",
    "Verif.Container.submapOf_all",
    "Verif.Container.conflicts_mutual",
    "Verif.Container.conflict_mono",
    "Verif.Container.direction_counterexample",
    "Verif.Container.route_direction_counterexample"
   ],
   "note": "Boxes, common inner points and differences in height are parameters. Exact with respect to the lanelets of the submap; the other direction of a lanelet is in the graph but not in its submap (direction_counterexample), and a route that uses both directions of a lanelet has only one of them in its submap (route_direction_counterexample)."
  },
  {
   "property": "C72",
   "status": "partial",
   "theorems": [
    "Verif.Geo.clear_reverse",
    "Verif.Geo.signedDistance_left",
    "Verif.Geo.signedDistance_right",
    "Verif.Geo.align_same",
    "Verif.Geo.align_lane",
    "Verif.Geo.align_twice",
    "Verif.Geo.align_direction_counterexample",
    "Verif.Geo.align_again_counterexample"
   ],
   "note": "Exact real arithmetic; the R-tree of segments is a parameter. Holds for bounds where the middle points are clearly on the right side (Lane). The middle point depends on the direction of the linestring, so the result for other bounds depends on it and may have opposite directions (align_direction_counterexample); calling align again may invert a bound (align_again_counterexample)."
  },
  {
   "property": "C73",
   "status": "partial",
   "theorems": [
    "Verif.Geo.beside_dist",
    "Verif.Geo.beside_unique",
    "Verif.Geo.shift_spec",
    "Verif.Geo.shift_error",
    "Verif.Geo.shift_front_counterexample",
    "Verif.Geo.shift_average_counterexample",
    "Verif.Geo.shift_turn_counterexample"
   ],
   "note": "Exact real arithmetic. The first point can not be addressed from the end (shift_front_counterexample), the direction is not the documented average (shift_average_counterexample), and where the linestring turns back the point does not move (shift_turn_counterexample)."
  },
  {
   "property": "C74",
   "status": "partial",
   "theorems": [
    "Verif.Geo.intersects3d_level_partial",
    "Verif.Geo.intersects3d_none",
    "Verif.Geo.overlaps3d_level_partial",
    "Verif.Geo.intersects3d_slope_counterexample",
    "Verif.Geo.intersects3d_ramps_counterexample",
    "Verif.Geo.overlaps3d_ramp_counterexample"
   ],
   "note": "Exact real arithmetic; crossings in the plane are a parameter. Holds for level linestrings. On slopes the code looks at other points than the crossing (counterexamples in both directions)."
  },
  {
   "property": "C75",
   "status": "partial",
   "theorems": [
    "Verif.Osm.wayEq_iff",
    "Verif.Osm.relEq_iff",
    "Verif.Osm.fileEq_iff_partial",
    "Verif.Osm.fileEq_same",
    "Verif.Osm.fileEq_refl",
    "Verif.Osm.fileEq_symm",
    "Verif.Osm.fileEq_round_trip",
    "Verif.Osm.fileEq_members_counterexample",
    "Verif.Osm.fileEq_trans_counterexample",
    "Verif.Osm.fileEq_roles_counterexample"
   ],
   "note": "Exact up to the members of relations: the code accepts members with the same type or the same id (fileEq_members_counterexample), so that equality is not transitive (fileEq_trans_counterexample)."
  },
  {
   "property": "C76",
   "status": "partial",
   "theorems": [
    "Verif.LMap.createMapPoints_spec",
    "Verif.LMap.createMapLineStrings_spec",
    "Verif.LMap.createMapPolygons_spec",
    "Verif.LMap.createSubmapLineStrings_spec",
    "Verif.LMap.createSubmap_spec",
    "Verif.LMap.createMap_spec",
    "Verif.LMap.createMap_exact",
    "Verif.LMap.createMap_without_ids_counterexample",
    "Verif.LMap.createMap_ids_counterexample"
   ],
   "note": "Holds if the elements have ids; of elements without id only one is kept (createMap_without_ids_counterexample), and ids of a created map may be given again (createMap_ids_counterexample)."
  },
  {
   "property": "C77",
   "status": "proved",
   "theorems": [
    "Verif.Plan.map_shortestPath",
    "Verif.Plan.map_reachableSet",
    "Verif.Plan.mtrip_same",
    "Verif.Plan.shape_same",
    "Verif.Plan.mtrip_values",
    "Verif.Plan.same_shortestPath",
    "Verif.Plan.same_reachableSet",
    "Verif.Plan.reload_routes",
    "Verif.Plan.loaded_sound",
    "Verif.Plan.loaded_drive",
    "Verif.Plan.loaded_bounds",
    "Verif.Plan.fits_inputOf"
   ],
   "note": "For maps that OSM can represent (the conditions of C34 and C54). Lane changes: if neighbours are clear, as in C65."
  },
  {
   "property": "C78",
   "status": "proved",
   "theorems": [
    "Verif.Py.list_like",
    "Verif.Py.step_spec",
    "Verif.Py.position_eq",
    "Verif.Py.huge_index"
   ],
   "note": "Boost.Python and its conversions of arguments are trusted. A larger index raises OverflowError instead of IndexError (huge_index)."
  },
  {
   "property": "C79",
   "status": "partial",
   "theorems": [
    "Verif.Py.holes_list_like_partial",
    "Verif.Py.holes_append_counterexample"
   ],
   "note": "The holes behave like a list, but the polygons of the area are only renewed if the holes are assigned as a whole (holes_append_counterexample)."
  },
  {
   "property": "C80",
   "status": "proved",
   "theorems": [
    "Verif.Py.make_ids_positive",
    "Verif.Py.script_written",
    "Verif.Py.newIds_ok",
    "Verif.Py.positive_of_ok",
    "Verif.Py.writeMap_values",
    "Verif.Py.renumber_representable",
    "Verif.Py.renumber_distinct",
    "Verif.Py.renumber_selfContained"
   ],
   "note": "For maps that OSM can represent (the conditions of C34 and C54), if constructors of regulatory elements do not look at ids. In memory the layers keep the old ids (script_lookup); the script only writes the map."
  },
  {
   "property": "C81",
   "status": "partial",
   "theorems": [
    "Verif.Py.printIds_partial",
    "Verif.Py.printIds_missing_counterexample",
    "Verif.Py.printIds_zero_counterexample"
   ],
   "note": "An id that is not in the map ends in a TypeError, and 0 is taken for no id."
  },
  {
   "property": "C82",
   "status": "partial",
   "theorems": [
    "Verif.Py.Repr.repr_ends",
    "Verif.Py.Repr.eval_point",
    "Verif.Py.Repr.eval_ls",
    "Verif.Py.Repr.lanelet_again",
    "Verif.Py.Repr.area_again",
    "Verif.Py.Repr.written_with_regs",
    "Verif.Py.Repr.sig6_exact",
    "Verif.Py.Repr.point2_again",
    "Verif.Py.Repr.reg_never_counterexample",
    "Verif.Py.Repr.lanelet_regs_counterexample",
    "Verif.Py.Repr.constLanelet_counterexample",
    "Verif.Py.Repr.point2_attributes_counterexample",
    "Verif.Py.Repr.ls2_counterexample",
    "Verif.Py.Repr.point_digits_counterexample",
    "Verif.Py.Repr.inverted_counterexample"
   ],
   "note": "Printing ends for all elements. Evaluating gives the element back for points, linestrings and polygons in 3d and for lanelets and areas without regulatory elements, with coordinates of at most six digits. The code loses further digits, and the printed forms of regulatory elements, of immutable lanelets and of 2d elements with attributes or points are no valid calls."
  },
  {
   "property": "C83",
   "status": "partial",
   "theorems": [
    "Verif.Py.Call.bind_iff",
    "Verif.Py.Call.table_binds",
    "Verif.Py.Call.keyword_reaches",
    "Verif.Py.Call.positional_reaches",
    "Verif.Py.Call.origin_altitude_counterexample",
    "Verif.Py.Call.possiblePaths_shift_counterexample",
    "Verif.Py.Call.speedInfo_counterexample",
    "Verif.Py.Call.loadRobust_counterexample",
    "Verif.Py.Call.setHull_counterexample"
   ],
   "note": "Holds for all functions of the table but Origin, possiblePaths and possiblePathsTowards with a cost, loadRobust and SpeedLimitInformation, whose lists of keywords are wrong. The rules by which Boost.Python binds arguments are part of the model; the choice between overloads and the conversion of values are not modelled."
  },
  {
   "property": "C84",
   "status": "partial",
   "theorems": [
    "Verif.Py.Kinds.made_found",
    "Verif.Py.Kinds.found_iff",
    "Verif.Py.Kinds.made_subtype",
    "Verif.Py.Kinds.rule_injective",
    "Verif.Py.Kinds.speedLimit_counterexample"
   ],
   "note": "Holds for all classes but SpeedLimit, which creates a traffic sign."
  },
  {
   "property": "C85",
   "status": "partial",
   "theorems": [
    "Verif.Py.Kinds.speed_units",
    "Verif.Py.Kinds.makeSpeedLimit_counterexample",
    "Verif.Py.Call.speedInfo_counterexample"
   ],
   "note": "Exact arithmetic. The constructor with a velocity can not be called, and takes km/h where its keyword says m/s."
  },
  {
   "property": "C86",
   "status": "partial",
   "theorems": [
    "Verif.Py.Dict.attributes_dict",
    "Verif.Py.Dict.del_missing_counterexample",
    "Verif.Py.Dict.iter_counterexample",
    "Verif.Py.Dict.nul_value_counterexample",
    "Verif.Py.Dict.bytes_key_counterexample"
   ],
   "note": "Holds for reading, setting, deleting keys that exist, membership, len, keys, values, items and ==. Deleting a missing key does not raise, loops visit entries instead of keys, text is cut at NUL by some ways of setting it."
  },
  {
   "property": "C87",
   "status": "partial",
   "theorems": [
    "Verif.Py.Layers.layer_dict",
    "Verif.Py.Layers.elem_in_layer",
    "Verif.Py.Layers.contains_other_counterexample",
    "Verif.Py.Layers.renamed_counterexample",
    "Verif.Py.Layers.iter_values_counterexample"
   ],
   "note": "Keys are the ids at the time of adding; elem in layer compares ids only; loops visit elements instead of ids."
  },
  {
   "property": "C88",
   "status": "partial",
   "theorems": [
    "Verif.Lanelet.touches2d_iff",
    "Verif.Lanelet.touches2d_symm",
    "Verif.Lanelet.overlapsPolygon_spec",
    "Verif.Lanelet.overlapsPolygon_partial",
    "Verif.Lanelet.overlapsPolygon_symm",
    "Verif.Lanelet.overlapsArea_spec",
    "Verif.Lanelet.inside_halfPlane",
    "Verif.Lanelet.inside_disjoint",
    "Verif.Lanelet.hook_counterexample",
    "Verif.Lanelet.hole_counterexample",
    "Verif.Lanelet.empty_counterexample"
   ],
   "note": "Holds for polygons that keep to the right of their common edges, for example convex ones. A common edge always means no overlap (hook_counterexample), holes are ignored (hole_counterexample). Boost says whether insides meet (trusted)."
  },
  {
   "property": "C89",
   "status": "proved",
   "theorems": [
    "Verif.Route.route_arc",
    "Verif.Route.route_forEach",
    "Verif.Route.route_predecessors_all",
    "Verif.Route.route_length2d"
   ],
   "note": "Exact arithmetic for the length."
  },
  {
   "property": "C90",
   "status": "proved",
   "theorems": [
    "Verif.Proj.geocentric_injective",
    "Verif.Proj.geocentric_roundtrip",
    "Verif.Proj.geocentric_origin",
    "Verif.Proj.local_isometry",
    "Verif.Proj.local_origin",
    "Verif.Proj.local_roundtrip",
    "Verif.Proj.local_injective",
    "Verif.Proj.local_up",
    "Verif.Proj.local_east",
    "Verif.Proj.local_north",
    "Verif.Proj.revOk_exists"
   ],
   "note": "Exact real arithmetic. The code only calls GeographicLib: its formulas are taken from its documentation, its Reverse is a parameter that returns some position with the given coordinates."
  },
  {
   "property": "C91",
   "status": "partial",
   "theorems": [
    "Verif.Py.Convert.extract_iff",
    "Verif.Py.Convert.roundtrip",
    "Verif.Py.Convert.toPy_injective",
    "Verif.Py.Convert.registered_faithful",
    "Verif.Py.Convert.weak_spec",
    "Verif.Py.Convert.call_ran",
    "Verif.Py.Convert.call_noMatch",
    "Verif.Py.Convert.call_settled",
    "Verif.Py.Convert.call_unique",
    "Verif.Py.Hand.ruleCheck_probabilistic",
    "Verif.Py.Hand.ruleCheck_plain",
    "Verif.Py.Hand.ruleCheck_other",
    "Verif.Py.Hand.hull_spec",
    "Verif.Py.Hand.hull_setter_counterexample",
    "Verif.Py.Hand.dict_spec",
    "Verif.Py.Hand.dict_error",
    "Verif.Py.Convert.bases_sound",
    "Verif.Py.Convert.bases_complete",
    "Verif.Py.Convert.stage1_complete",
    "Verif.Py.Convert.stage1_shape",
    "Verif.Py.Convert.call_noMatch_describes"
   ],
   "note": "The hull of an object cannot be assigned (hull_setter_counterexample), the rest is proved. The stages of a conversion and the order in which overloads are tried are those of Boost.Python and part of the trusted base."
  },
  {
   "property": "C92",
   "status": "partial",
   "theorems": [
    "Verif.Py.Geometry.dimension_kept",
    "Verif.Py.Geometry.dimension_as_named_partial",
    "Verif.Py.Geometry.unambiguous",
    "Verif.Py.Geometry.distance_symmetric_partial",
    "Verif.Py.Geometry.distance_order_counterexample",
    "Verif.Py.Geometry.intersects2d_boxes_counterexample",
    "Verif.Py.Geometry.boundingBox_none_counterexample",
    "Verif.Py.Geometry.none_refused",
    "Verif.Py.Geometry.to2D_spec",
    "Verif.Py.Geometry.to3D_spec",
    "Verif.Py.Geometry.to3D_to2D",
    "Verif.Py.Geometry.to2D_to3D",
    "Verif.Py.Geometry.to2D_flat",
    "Verif.Py.Geometry.to2D_hybrid_counterexample"
   ],
   "note": "The code violates the rest: intersects2d was defined for 3D boxes, boundingBox2d and boundingBox3d take None, distance of a point and a polygon depends on the order, to2D leaves hybrid objects in 3D."
  },
  {
   "property": "C93",
   "status": "partial",
   "theorems": [
    "Verif.Py.Costs.override_used",
    "Verif.Py.Costs.base_used",
    "Verif.Py.Costs.super_call",
    "Verif.Py.Costs.seen_module",
    "Verif.Py.Costs.seen_iff",
    "Verif.Py.Costs.seen_change_iff",
    "Verif.Py.Costs.cost_id",
    "Verif.Py.Costs.cost_exception_counterexample",
    "Verif.Py.Costs.null_cost_counterexample"
   ],
   "note": "The code violates the rest: an exception in an override ends the program since the functions are noexcept, and None in the list of costs is dereferenced."
  },
  {
   "property": "C94",
   "status": "partial",
   "theorems": [
    "Verif.Handle.equal_iff_shown",
    "Verif.Handle.equal_equivalence",
    "Verif.Handle.variantEqual_iff",
    "Verif.Handle.weakEqual_iff",
    "Verif.Handle.equalVector_iff",
    "Verif.Handle.equalCompound_iff_shown",
    "Verif.Handle.hash_equal",
    "Verif.Handle.set_spec",
    "Verif.Handle.set_id_counterexample",
    "Verif.Handle.python_path_counterexample"
   ],
   "note": "Holds while ids do not change. The hash depends on the id, which LaneletMap::add sets on elements without one, so that elements of hash containers are lost (set_id_counterexample). In Python paths have an equality but no hash (python_path_counterexample). std::unordered_set is trusted."
  },
  {
   "property": "C95",
   "status": "proved",
   "theorems": [
    "Verif.Plan.shortestPath_rounded",
    "Verif.Plan.shortestPath_rounded_changes",
    "Verif.Plan.reachableSet_rounded",
    "Verif.Plan.reachableSet_rounded_changes",
    "Verif.Plan.roundTo_nearest",
    "Verif.Plan.roundTo_mono",
    "Verif.Plan.roundTo_idem",
    "Verif.Plan.roundPos_err",
    "Verif.Plan.exact_order_counterexample"
   ],
   "note": "For every rounding that is monotone with relative error u of sums, among them rounding to nearest even with any number of digits and gradual underflow (floating, double64). Overflow to infinity is not modelled. With lane changes for maps as in C65. That the processor rounds like this is trusted. exact_order_counterexample: the error can decide, so the factor is needed."
  },
  {
   "property": "C96",
   "status": "partial",
   "theorems": [
    "Verif.Py.Element.careful_script",
    "Verif.Py.Element.copies_script",
    "Verif.Py.Element.swap_counterexample",
    "Verif.Py.Element.append_counterexample",
    "Verif.Py.Element.del_counterexample"
   ],
   "note": "Proved for scripts that do not look at p after p = ls[i] once its place in the linestring was assigned to, a point at or before it was deleted or a point was appended, and for all scripts whose points come from constructors, loops and layers. Without that it is false: ls[i] returns a reference to the memory of the linestring, so that exchanging two points loses one (swap_counterexample, for all linestrings), and deleting or appending makes variables change or dangle (del_counterexample, append_counterexample). Boost.Python (return_internal_reference, iterators by value) and std::vector are trusted."
  },
  {
   "property": "C97",
   "status": "partial",
   "theorems": [
    "Verif.Util.Iter.in_place_program",
    "Verif.Util.Iter.careful_program",
    "Verif.Util.Iter.value_program",
    "Verif.Util.Iter.rangeFor_sees",
    "Verif.Util.Iter.find_spec",
    "Verif.Util.Iter.temporary_counterexample",
    "Verif.Util.Iter.two_references_counterexample",
    "Verif.Util.Iter.assign_counterexample"
   ],
   "note": "Proved for all layers except constant views of the layer of regulatory elements; for these for programs that copy elements (loops included) or look at a reference only until its iterator is used again. Beyond that it is false: the iterator returns a reference to a member of itself (the counterexamples). The layer does not change while the program runs; std::unordered_map is trusted."
  },
  {
   "property": "C98",
   "status": "partial",
   "theorems": [
    "Verif.Util.Concat.concatenateRange_copies",
    "Verif.Util.Concat.concatenateRange_moves",
    "Verif.Util.Concat.createMap_points",
    "Verif.Util.Concat.concatenate_spec",
    "Verif.Util.Concat.concatenateWith_spec",
    "Verif.Util.Concat.transform_spec",
    "Verif.Util.Concat.findIf_spec",
    "Verif.Util.Concat.find_contains",
    "Verif.Util.Concat.invert_spec",
    "Verif.Util.Concat.sum_spec",
    "Verif.Util.Concat.orderedPair_spec",
    "Verif.Util.Concat.strequal_spec",
    "Verif.Util.Concat.concatenateRange_counterexample",
    "Verif.Util.Concat.concatenateRange_twice_counterexample"
   ],
   "note": "Holds for named containers and ranges of constants, which are all calls in the library. With a temporary list of linestrings concatenateRange moves the points out of the linestrings, which changes the map (concatenateRange_counterexample); concatenateRange_moves says exactly what happens. std::vector and move iterators are trusted."
  },
  {
   "property": "C99",
   "status": "partial",
   "theorems": [
    "Verif.LMap.Stale.search_when_added",
    "Verif.LMap.Stale.findUsages_when_added",
    "Verif.LMap.Stale.search_exact",
    "Verif.LMap.Stale.findUsages_exact",
    "Verif.LMap.Stale.findNearest_exact",
    "Verif.LMap.Stale.changes_counterexample",
    "Verif.LMap.Stale.moved_point_counterexample",
    "Verif.LMap.Stale.set_bounds_counterexample",
    "Verif.LMap.Stale.set_rules_counterexample",
    "Verif.LMap.Stale.findNearest_counterexample",
    "Verif.LMap.Stale.submap_search_when_added",
    "Verif.LMap.Stale.submap_findUsages_when_added",
    "Verif.LMap.Stale.submap_search_exact",
    "Verif.LMap.Stale.submap_findUsages_exact",
    "Verif.LMap.Stale.submap_again_counterexample",
    "Verif.LMap.Stale.submap_twice_counterexample",
    "Verif.LMap.Stale.apply_frame"
   ],
   "note": "Proved for programs that do not move, respectively reseat, primitives after adding them. Otherwise it is false: the index keeps what was true at the time of add, for every program (search_when_added, findUsages_when_added, changes_counterexample). Submaps get one more entry each time a primitive is added and never lose one. Points, linestrings, polygons, lanelets and areas of one layer of a map or submap, with different ids; the layer of regulatory elements is not in this model. That the r-tree gives all entries that intersect is trusted. findNearest is proved for programs that do not move primitives after adding them, for elements with points and given that the distance to a box around all points is never larger than the distance to the element."
  }
 ]
}