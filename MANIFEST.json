{
 "claims": [
  {
   "property": "C01",
   "status": "proved",
   "theorems": [
    "MM.SP.dijkstra_terminates",
    "MM.SP.dijkstra_progress",
    "MM.SP.dijkstra_exact",
    "MM.SP.dijkstra_path",
    "MM.SP.dijkstra_terminates_within"
   ],
   "note": "For every finite graph, every monotone inflationary accumulation of weights (covers rounding) and every choice among ties."
  },
  {
   "property": "C02",
   "status": "proved",
   "theorems": [
    "MM.SP.dijkstra_goals_exact",
    "MM.SP.dijkstra_finished_exact"
   ],
   "note": "Unbounded search; the bounded one is C03."
  },
  {
   "property": "C03",
   "status": "partial",
   "theorems": [
    "MM.SP.bounded_sound_partial",
    "MM.SP.bounded_complete_partial",
    "MM.SP.bounded_disabled_reason_partial",
    "MM.SP.bounded_misses_goal_fails",
    "MM.SP.bounded_wrong_distance_fails"
   ],
   "note": "False as stated: the visitor colours a target black as soon as one edge into it exceeds the bound (two counterexamples proved). Proved: reported values are lengths of paths within the bound, and completeness for walks avoiding disabled vertices."
  },
  {
   "property": "C04",
   "status": "partial",
   "theorems": [
    "MM.SP.AStar.astar_terminates",
    "MM.SP.AStar.astar_shortest_partial",
    "MM.SP.AStar.astar_sound_partial",
    "MM.SP.AStar.astar_unreachable_fails",
    "MM.SP.AStar.astar_path_never_empty_fails"
   ],
   "note": "Reachable goals: proved in exact arithmetic for consistent heuristics. Unreachable goals: false, a bogus path is returned (counterexample proved)."
  },
  {
   "property": "C05",
   "status": "proved",
   "theorems": [
    "MM.Traversal.bfs_visits_exactly_reachable",
    "MM.Traversal.dfs_visits_exactly_reachable"
   ],
   "note": "Also for a search starting with vertices already visited."
  },
  {
   "property": "C06",
   "status": "proved",
   "theorems": [
    "MM.AdjList.history_coherent",
    "MM.AdjList.history_defined",
    "MM.AdjList.add_edge_defined_iff"
   ],
   "note": "Refinement of the list-based graph to an abstract content, all three directions, insertions may fail. Caller obligation: a removed vertex has no edges left (see C08)."
  },
  {
   "property": "C07",
   "status": "proved",
   "theorems": [
    "MM.AdjList.add_edge_failed_restores",
    "MM.AdjList.add_vertex_failed_restores",
    "MM.AdjList.add_edge_throws_iff",
    "MM.AdjList.add_edge_retry"
   ],
   "note": "Failure at each of the four allocation points, before or after the element was appended."
  },
  {
   "property": "C08",
   "status": "partial",
   "theorems": [
    "MM.AdjList.remove_vertex_no_dangling_partial",
    "MM.AdjList.clear_then_remove_vertex",
    "MM.AdjList.remove_vertex_dangling_fails",
    "MM.AdjList.remove_vertex_dangling_bidirectional_fails"
   ],
   "note": "False for directional and bidirectional graphs: only out edges are checked (counterexamples proved). Proved for undirected graphs and for clear_vertex followed by remove_vertex."
  },
  {
   "property": "C09",
   "status": "partial",
   "theorems": [
    "MM.AdjList.reindex_indexed",
    "MM.AdjList.indices_distinct_partial",
    "MM.AdjList.remove_keeps_distinct_partial",
    "MM.AdjList.indices_distinct_fails"
   ],
   "note": "False: an insertion after a removal repeats an index until reindex() is called (counterexample proved). Proved: reindex gives 0..n-1, kept by insertions; removals keep distinctness."
  },
  {
   "property": "C10",
   "status": "proved",
   "theorems": [
    "MM.Csr.csr_preserves",
    "MM.Csr.csr_rows_are_out_edges",
    "MM.Csr.csr_not_cleared_fails"
   ],
   "note": "For every reachable graph with consecutive indices converted into a new compressed graph. Converting into a non-empty one does not clear it (counterexample proved)."
  },
  {
   "property": "C11",
   "status": "partial",
   "theorems": [
    "MM.View.view_at_partial",
    "MM.View.view_at_safe_partial",
    "MM.View.subview_access_partial",
    "MM.View.subview_range_checked",
    "MM.View.view_at_minus_size_fails",
    "MM.View.view_at_empty_fails",
    "MM.View.subview_at_fails"
   ],
   "note": "False: at(-size) is refused, at(0) of an empty container and out-of-range at of sub views are unchecked (counterexamples proved). Everything else proved."
  },
  {
   "property": "C12",
   "status": "partial",
   "theorems": [
    "MM.Extract.extract_route_partial",
    "MM.Extract.missing_edge_bridged_fails",
    "MM.Extract.unmeasured_line_fails"
   ],
   "note": "False for pairs without an edge (silently bridged) and for single-point lines; proved for paths whose pairs are joined by edges."
  },
  {
   "property": "C13",
   "status": "proved",
   "theorems": [
    "MM.Viterbi.viterbi_optimal",
    "MM.Viterbi.viterbi_empty"
   ],
   "note": "For every monotone addition (exact or rounded). Time-outs are not modelled; tracks whose first points have no candidate start at the first point that has one."
  },
  {
   "property": "C14",
   "status": "proved",
   "theorems": [
    "MM.Env.encode_decode",
    "MM.Env.decode_encode",
    "MM.Env.state_numbers_faithful",
    "MM.Env.state_number_denotes",
    "MM.Env.state_number_stable"
   ],
   "note": "State size (in points) at least 2, as the command line enforces."
  },
  {
   "property": "C15",
   "status": "proved",
   "theorems": [
    "MM.Env.step_reproducible",
    "MM.Env.episode_ends"
   ],
   "note": "State size (in points) at least 2, as the command line enforces; router and geometry verdicts arbitrary per step."
  },
  {
   "property": "C16",
   "status": "partial",
   "theorems": [
    "MM.Learn.value_iteration_terminates",
    "MM.Learn.value_iteration_optimal_partial",
    "MM.Learn.value_iteration_near_partial",
    "MM.Learn.value_iteration_optimal_fails",
    "MM.Learn.threshold_costs",
    "MM.Learn.env_process"
   ],
   "note": "Termination for every reward table. In exact arithmetic, for rewards that are never positive (which the environment's are for non-negative factors): optimal with a zero threshold, and within the discounted threshold per step of the optimum with any other (value_iteration_near_partial; threshold_costs shows that something can be lost). For rewards of both signs optimality is false (_fails)."
  },
  {
   "property": "C17",
   "status": "partial",
   "theorems": [
    "MM.Learn.policy_iteration_stable",
    "MM.Learn.policy_iteration_optimal_partial",
    "MM.Learn.policy_iteration_terminates_partial",
    "MM.Learn.policy_iteration_optimal_fails"
   ],
   "note": "Stability for every reward table and threshold; optimality and termination in exact arithmetic with zero threshold and rewards that are never positive. For rewards of both signs optimality is false (_fails)."
  },
  {
   "property": "C18",
   "status": "partial",
   "theorems": [
    "MM.Learn.q_update_frame_partial",
    "MM.Learn.q_update_bounds_partial",
    "MM.Learn.q_update_value",
    "MM.Learn.q_update_target_fails"
   ],
   "note": "The update ignores the old estimate (adds and subtracts it outside the product), so the stated formula is false; frame and bounds are proved."
  },
  {
   "property": "C19",
   "status": "partial",
   "theorems": [
    "MM.Router.route_follows_policy_partial",
    "MM.Router.route_follows_policy_plain_partial",
    "MM.Router.gap_independent",
    "MM.Router.policy_repeats",
    "MM.Router.double_skip_fails",
    "MM.Router.joined_in_order"
   ],
   "note": "Proved when no even number of consecutive moves is skipped; false for two skipped candidates in a row (double_skip_fails): the route is computed across the gap."
  },
  {
   "property": "C20",
   "status": "partial",
   "theorems": [
    "MM.Cand.circle_search_partial",
    "MM.Cand.combined_search_partial",
    "MM.Cand.search_stable",
    "MM.Cand.combined_empty_fails",
    "MM.Cand.zero_radius_fails"
   ],
   "note": "Proved for mode CIRCLE with positive first radius; false in mode COMBINED, whose first radius removes edges for good (combined_empty_fails), and for radius zero (zero_radius_fails). Index queries are assumed to contain the circle."
  },
  {
   "property": "C21",
   "status": "partial",
   "theorems": [
    "MM.Cand.adoption_sound_partial",
    "MM.Cand.siblings_complete",
    "MM.Cand.adopt_ordered",
    "MM.Cand.per_edge_fails",
    "MM.Cand.adopt_inside",
    "MM.Cand.add_equals"
   ],
   "note": "All parts proved with representatives per edge and projection, in order of distance; per edge alone it is false (per_edge_fails)."
  },
  {
   "property": "C22",
   "status": "partial",
   "theorems": [
    "MM.Router.history_independent_partial",
    "MM.Router.bound_dependent_fails"
   ],
   "note": "Proved when searches agree; false in general because the cache key ignores the distance bound (bound_dependent_fails)."
  },
  {
   "property": "C23",
   "status": "partial",
   "theorems": [
    "MM.Net.simplify_keeps_geometry",
    "MM.Net.simplify_keeps_distances_partial",
    "MM.Net.simplify_ids_fails"
   ],
   "note": "Any vertex order, both modes: no failure, total length equal, vertices a sub-list, walks of the result are walks of the input with equal length. Complete mode: reachability and shortest distances of survivors unchanged. Id mode: false of the code (counterexample simplify_ids_fails)."
  },
  {
   "property": "C24",
   "status": "partial",
   "theorems": [
    "MM.Net.largest_component_partial",
    "MM.Net.largest_component_order",
    "MM.Net.one_way_fails",
    "MM.Net.empty_network_fails"
   ],
   "note": "Proved where reachability is symmetric; the code follows out edges only, so one-way networks depend on insertion order, and an empty network dereferences end()."
  },
  {
   "property": "C25",
   "status": "partial",
   "theorems": [
    "MM.Net.duplicate_nodes_partial",
    "MM.Net.duplicate_nodes_length",
    "MM.Net.duplicate_left_fails",
    "MM.Net.duplicate_edges_partial",
    "MM.Net.duplicate_edges_fails"
   ],
   "note": "Nodes: full statement without interleaved simplification; with it total length is kept but a duplicate can stay. Edges: any duplicate leads to a read of a removed edge (undefined behaviour)."
  },
  {
   "property": "C26",
   "status": "proved",
   "theorems": [
    "MM.Line.merge_concat",
    "MM.Line.merge_grouping",
    "MM.Line.merge_size",
    "MM.Line.slices_merge",
    "MM.Line.slice_out_of_range",
    "MM.Line.erase_keeps_others",
    "MM.Line.attaches_iff"
   ],
   "note": "Points abstract with decidable equality; merge, slice and erase of lines as lists of points."
  },
  {
   "property": "C27",
   "status": "partial",
   "theorems": [
    "MM.Line.lazy_agrees_partial",
    "MM.Line.sub_stale_fails",
    "MM.Line.erase_stale_fails",
    "MM.Line.assign_plain_fails",
    "MM.Line.assign_eager_fails",
    "MM.Line.merge_throw_fails",
    "MM.Line.direction_at_fails"
   ],
   "note": "Holds for every history of queries, successful merges, slices other than (0, size-1), sorted in-range erasures and erasures other than of the last point, and assignments of points. The left out operations have proved counterexamples: stale values after sub_rich_line(0, size-1), after erasing the last point, after assigning a plain or evaluated line of another type and after a throwing merge; direction(pos) always throws."
  },
  {
   "property": "C28",
   "status": "partial",
   "theorems": [
    "MM.Line.multi_merge_partial",
    "MM.Line.hidden_gap_fails"
   ],
   "note": "A gap hidden behind an empty line makes the merge throw (hidden_gap_fails); proved without such gaps."
  },
  {
   "property": "C29",
   "status": "partial",
   "theorems": [
    "MM.Route.merge_lines",
    "MM.Route.merge_invalid",
    "MM.Route.merge_connected",
    "MM.Route.merge_length",
    "MM.Route.merge_refuses_gaps",
    "MM.Route.merge_bridges_gaps",
    "MM.Route.join_connects",
    "MM.Route.join_retains",
    "MM.Route.sub_route_lines",
    "MM.Route.cached_values_partial",
    "MM.Route.connected_values",
    "MM.Route.sub_route_at_partial",
    "MM.Route.join_stale_fails",
    "MM.Route.single_point_fails",
    "MM.Route.hidden_gap_connected_fails",
    "MM.Route.sub_route_dangling_fails",
    "MM.Route.sub_route_same_line_fails",
    "MM.Route.join_good",
    "MM.Route.rich_line_always",
    "MM.Route.gap_behind_fails",
    "MM.Route.asked_again"
   ],
   "note": "Merging is proved for all routes: lines, references, connectivity, points up to repetitions, length as a sum, gaps refused or bridged, joining. A connected route answers every query with the value its points give, after any history of building, querying and merging, if all lines have two points. Parts given by positions in different lines have the points in between. False of the code: join keeps cached values, a single point line makes is_connected throw once, an empty line hides a gap, parts keep references to lines owned by the source, parts within one line are refused."
  },
  {
   "property": "C30",
   "status": "partial",
   "theorems": [
    "MM.Simplify.simplify_within_partial",
    "MM.Simplify.simplify_part",
    "MM.Simplify.simplify_keeps_reversals",
    "MM.Simplify.simplify_empty",
    "MM.Simplify.segments_within_partial",
    "MM.Simplify.negative_tolerance_fails",
    "MM.Simplify.gap_detour_fails"
   ],
   "note": "Proved for every tolerance that is not negative, with or without retained reversals, for lines and for the segments of a line. False of the code: with a negative tolerance the recursion does not end; for lists of segments with gaps the end points before gaps are never checked and vanish."
  },
  {
   "property": "C31",
   "status": "partial",
   "theorems": [
    "MM.Median.merge_runs",
    "MM.Median.merge_throws",
    "MM.Median.Runs.unique",
    "MM.Median.Runs.length_le",
    "MM.Median.Runs.isolated",
    "MM.Median.median_odd",
    "MM.Median.median_even_partial",
    "MM.Median.median_one",
    "MM.Median.median_even_fails",
    "MM.Median.adaptive_ge"
   ],
   "note": "Merging proved for every positive tolerance, fixed or adaptive, given that the search box contains all points within tolerance. Medians proved from what std::nth_element promises; for an even number of values this does not determine the upper middle value, because the second call may move it."
  },
  {
   "property": "C32",
   "status": "partial",
   "theorems": [
    "MM.Substring.substring_partial",
    "MM.Substring.substring_whole",
    "MM.Substring.substring_empty",
    "MM.Substring.substring_from_partial",
    "MM.Substring.substring_to_partial",
    "MM.Substring.repeated_point_fails",
    "MM.Substring.behind_end_fails",
    "MM.Substring.beside_line_to_fails",
    "MM.Substring.repeated_distance_fails",
    "MM.Substring.ends_empty",
    "MM.Substring.segment_distances"
   ],
   "note": "Proved for lines without repeated points and ranges that begin before the end of the line; counterexamples for repeated points and for ranges behind the end. Interpolation itself is a parameter."
  },
  {
   "property": "C33",
   "status": "partial",
   "theorems": [
    "MM.Compare.alignment_partial",
    "MM.Compare.alignment_exact",
    "MM.Compare.repeated_fails",
    "MM.Compare.reverse_round_trip"
   ],
   "note": "The alignment ends and accounts for every segment up to repetitions; exact if neither line uses a segment twice in the same direction. Counterexample: a ground truth that goes back and forth loses a missed segment."
  },
  {
   "property": "C34",
   "status": "partial",
   "theorems": [
    "MM.Compare.compare_ends",
    "MM.Compare.correct_range",
    "MM.Compare.compare_empty",
    "MM.Compare.error_fraction",
    "MM.Compare.compare_same_partial",
    "MM.Compare.compare_same_fails"
   ],
   "note": "Range, extremes and empty inputs for all inputs; identical inputs score 1 and 0 if no two different points are within the adoption tolerance; counterexample otherwise. Simplification and the predicate when a point splits a segment are parameters."
  },
  {
   "property": "C35",
   "status": "partial",
   "theorems": [
    "MM.Memo.memo_partial",
    "MM.Memo.memo_disabled",
    "MM.Memo.other_system_fails"
   ],
   "note": "All histories of enabling, disabling, resetting and queries within coordinate systems that compute alike. The key of the cache lacks the coordinate system: after a query in one system, the same coordinates in another system get the cached value (other_system_fails)."
  },
  {
   "property": "C36",
   "status": "proved",
   "theorems": [
    "MM.Tags.id_decodes",
    "MM.Tags.id_unique",
    "MM.Tags.tag_stable",
    "MM.Tags.id_succeeds",
    "MM.Tags.tag_known_or_throws"
   ],
   "note": "All histories of calls of id and finalize, all allocation failures inside."
  },
  {
   "property": "C37",
   "status": "partial",
   "theorems": [
    "MM.Coordinator.exactly_once",
    "MM.Coordinator.in_flight",
    "MM.Coordinator.accepted_or_refused",
    "MM.Coordinator.no_deadlock",
    "MM.Coordinator.schedules_end",
    "MM.Coordinator.join_partial",
    "MM.Coordinator.join_rest",
    "MM.Coordinator.join_fails",
    "MM.Coordinator.default_size"
   ],
   "note": "All interleavings, thread counts and queue sizes: exactly once, bounds, no deadlock, termination. When join returns, all accepted tasks are executed only if none was accepted between the two tests empty() and closed() of the coordinator loop (join_partial); otherwise up to queue-size tasks are lost (join_fails, join_rest)."
  },
  {
   "property": "C38",
   "status": "proved",
   "theorems": [
    "MM.Forwarder.paired",
    "MM.Forwarder.unmatched",
    "MM.Forwarder.nothing_else"
   ],
   "note": "All interleavings. Repeated identifiers are outside of the statement; repeated_dropped shows what happens."
  },
  {
   "property": "C39",
   "status": "partial",
   "theorems": [
    "MM.Osm.lookup_partial",
    "MM.Osm.vertices_partial",
    "MM.Osm.empty_way_fails"
   ],
   "note": "All sequences of nodes and ways in any order, repeated or invisible nodes, any filters. A used way without nodes is undefined behaviour (size() - 1 underflows)."
  },
  {
   "property": "C40",
   "status": "partial",
   "theorems": [
    "MM.Osm.edges_exact",
    "MM.Osm.oneway_partial",
    "MM.Osm.reverse_fails",
    "MM.Osm.empty_way_fails"
   ],
   "note": "The exact list of edges for any filters; in plain tags for the default filters if no way is tagged as reverse only. A way tagged oneway=-1 or oneway=reverse gets both directions, since reverse is only looked at for ways that also match the one-way filter."
  },
  {
   "property": "C41",
   "status": "proved",
   "theorems": [
    "MM.Rules.parse_show",
    "MM.Rules.filter_show",
    "MM.Rules.parse_terminates",
    "MM.Rules.filter_nothing"
   ],
   "note": "Rules written in the documented notation are read back, as a list and as a tag filter with its default; keys without '|' and '=', values without '|'. Parsing ends for every string."
  },
  {
   "property": "C42",
   "status": "partial",
   "theorems": [
    "MM.OsmExport.nodes_places",
    "MM.OsmExport.nodes_once",
    "MM.OsmExport.nodes_partial",
    "MM.OsmExport.nodes_fails",
    "MM.OsmExport.ways_refs",
    "MM.OsmExport.oneway_kept",
    "MM.OsmExport.ways_partial",
    "MM.OsmExport.ways_duplicate_fails",
    "MM.OsmExport.ways_tags_fails",
    "MM.OsmExport.ways_nodes_fails"
   ],
   "note": "Node and way export for every network. False of the code: isolated vertices all get identifier 0, duplicate edges and opposite one-way roads with the same points are exported once, and vertices at the same place become one node; proved where these do not occur."
  },
  {
   "property": "C43",
   "status": "partial",
   "theorems": [
    "MM.Rows.columns_split",
    "MM.Rows.match_partial",
    "MM.Rows.match_fails",
    "MM.Rows.compare_partial",
    "MM.Rows.compare_twice_fails",
    "MM.Rows.candidates_partial",
    "MM.Rows.candTasks_spec",
    "MM.Rows.nodes_good",
    "MM.Rows.edges_good",
    "MM.Rows.route_partial",
    "MM.Rows.route_fails",
    "MM.Rows.track_fails",
    "MM.Rows.tracks_good",
    "MM.Rows.saved_candidates_good",
    "MM.Rows.inactive_writes_nothing",
    "MM.Rows.unknown_tag_fails"
   ],
   "note": "Proved for every list of known columns and every result. False of the code for unknown column names (in the header, no field), comparison columns given twice, routes without directions and every single track (3 columns, 2 fields)."
  },
  {
   "property": "C44",
   "status": "partial",
   "theorems": [
    "MM.NetFiles.arc_groups",
    "MM.NetFiles.melbourne_partial",
    "MM.NetFiles.melbourne_fails",
    "MM.NetFiles.giscup_partial",
    "MM.NetFiles.giscup_fails",
    "MM.NetFiles.seattle_partial",
    "MM.NetFiles.seattle_fails",
    "MM.NetFiles.giscup_refused",
    "MM.NetFiles.giscup_no_ub",
    "MM.NetFiles.melbourne_refused",
    "MM.NetFiles.seattle_empty_fails"
   ],
   "note": "Arc-node files: proved for all groups. Melbourne, GIS Cup, Seattle keep their maps between groups, so clashing identifiers attach edges to nodes of an earlier group; proved for groups with distinct identifiers."
  },
  {
   "property": "C45",
   "status": "proved",
   "theorems": [
    "MM.TrackCsv.assembled",
    "MM.TrackCsv.assembled_grouped",
    "MM.TrackCsv.lineId_eq",
    "MM.TrackCsv.insSort_lawful"
   ],
   "note": "All rows of all files in every order; times may be missing, in which case the position among the identifier's rows is the time. std::sort and the order of the unordered map are arbitrary functions with only their promises. Grouped mode needs contiguous identifiers, as its option says."
  },
  {
   "property": "C46",
   "status": "partial",
   "theorems": [
    "MM.EdgesList.pieces_partial",
    "MM.EdgesList.search_spec",
    "MM.EdgesList.pathLoop_spec",
    "MM.EdgesList.covered_length",
    "MM.EdgesList.covered_fits",
    "MM.EdgesList.covered_apart",
    "MM.EdgesList.covered_lines",
    "MM.EdgesList.steps_asked",
    "MM.EdgesList.min_id_fails"
   ],
   "note": "All networks with non-empty edge lines and all lists of known identifiers: the searches end, the pieces cover the steps, are connected, longest, and neighbouring pieces do not connect; the passed track has one joined line per piece. Repetitions of an identifier count once. Fails for a list that begins with the smallest 64 bit number, whose edge is left out."
  },
  {
   "property": "C47",
   "status": "proved",
   "theorems": [
    "MM.TimeLimit.reached_sticky",
    "MM.TimeLimit.reached_first",
    "MM.TimeLimit.never_reached"
   ],
   "note": "All histories of calls and clock readings."
  },
  {
   "property": "C48",
   "status": "partial",
   "theorems": [
    "MM.Delimiter.writable",
    "MM.Delimiter.parse_written",
    "MM.Delimiter.decoders_partial",
    "MM.Delimiter.decoders_fails"
   ],
   "note": "Every list of characters can be written and is decoded to itself by the importers. The second (free) decoder of importer.cpp agrees only without consecutive backslashes: it can never decode a backslash (decoders_fails). It is unused."
  },
  {
   "property": "C49",
   "status": "proved",
   "theorems": [
    "MM.Common.angle_range",
    "MM.Common.angle_congruent",
    "MM.Common.angle_least",
    "MM.Common.pow2_least",
    "MM.Common.pow2_zero",
    "MM.Common.buffer_points"
   ],
   "note": "Angles over any ordered field; powers of two for every 64-bit value, wrap-around included."
  },
  {
   "property": "C50",
   "status": "partial",
   "theorems": [
    "MM.Srs.transform_iff",
    "MM.Srs.source_given",
    "MM.Srs.target_given",
    "MM.Srs.target_default",
    "MM.Srs.refused",
    "MM.Srs.next_partial",
    "MM.Srs.next_back_fails",
    "MM.Srs.next_fails",
    "MM.Srs.refused_iff"
   ],
   "note": "The first transformation is right for all options. Chaining is right only if the first one keeps the code and type and code change together; going back to the source never reprojects (next_back_fails), so networks imported as 4326 and transformed to 3857 are not reprojected for the export (see C87)."
  },
  {
   "property": "C51",
   "status": "partial",
   "theorems": [
    "MM.Detect.detect_partial",
    "MM.Detect.remove_partial",
    "MM.Detect.remove_all_fails"
   ],
   "note": "Detection ends and marks exactly duplicates and turning points; removal keeps exactly the points whose set contains none, in order. But detect erases none from every set, so removing the detected defects removes every point (remove_all_fails)."
  },
  {
   "property": "C52",
   "status": "proved",
   "theorems": [
    "MM.Convert.segments_spec",
    "MM.Convert.line_back",
    "MM.Convert.segments_back",
    "MM.Convert.reversed_iff"
   ],
   "note": "All lines; lines_are_reversed is false for empty lines, as documented in the code."
  },
  {
   "property": "C53",
   "status": "proved",
   "theorems": [
    "MM.Tags.retry_spec"
   ],
   "note": "Exact characterisation of results and exceptions by the number of failed attempts."
  },
  {
   "property": "C54",
   "status": "proved",
   "theorems": [
    "MM.Tags.merge_tags",
    "MM.Tags.merge_tags_union",
    "MM.Tags.set_tags"
   ],
   "note": "Without allocation failures; growth is C57."
  },
  {
   "property": "C55",
   "status": "partial",
   "theorems": [
    "MM.Env.offered_actions_defined_partial",
    "MM.Env.offered_actions_defined_fails"
   ],
   "note": "Holds for state size 2; with state size 3, _reward reads edges[prev_action] of the wrong candidate out of range (single.hpp 421), shown by the _fails theorem."
  },
  {
   "property": "C56",
   "status": "partial",
   "theorems": [
    "MM.Substring.distance_from_partial",
    "MM.Substring.distance_to_partial",
    "MM.Substring.beside_line_fails"
   ],
   "note": "Exact for points on the line; counterexample for points beside the line, where the correction to the neighbouring segment measures the distance to the point and not to its projection."
  },
  {
   "property": "C57",
   "status": "partial",
   "theorems": [
    "MM.Tags.mem_partial",
    "MM.Tags.merge_existing",
    "MM.Tags.set_grow_fails",
    "MM.Tags.merge_grow_fails",
    "MM.Tags.clone_grow_fails"
   ],
   "note": "Growing remaps the file. Holds without growth and for merges into existing tags. Stale vectors or references are used when set_map_tags, merge_map_tags without own tags, or clone_map_tags have to grow."
  },
  {
   "property": "C58",
   "status": "partial",
   "theorems": [
    "MM.Detect.filter_partial",
    "MM.Detect.filter_fails"
   ],
   "note": "The filter works on the moved-from parameter instead of the track of the environment: tracks are matched with their duplicates (filter_fails); right only for tracks without duplicates. Assumes a moved-from line is empty."
  },
  {
   "property": "C59",
   "status": "partial",
   "theorems": [
    "MM.NetFiles.arc_fits",
    "MM.NetFiles.melbourne_fits",
    "MM.NetFiles.seattle_fits_partial",
    "MM.NetFiles.seattle_fits_fails",
    "MM.NetFiles.giscup_fits_partial",
    "MM.NetFiles.giscup_fits_fails"
   ],
   "note": "Proved for arc-node and Melbourne files. Seattle and GIS Cup reproject nodes but not lines; proved for imports without transformation."
  },
  {
   "property": "C60",
   "status": "partial",
   "theorems": [
    "MM.TrackCsv.key_single",
    "MM.TrackCsv.key_partial",
    "MM.TrackCsv.key_whole_files",
    "MM.TrackCsv.key_fails",
    "MM.TrackCsv.key_files_fails"
   ],
   "note": "Holds for one field, for fields that are not empty and do not contain the first character of the aggregator, and for whole files. Fails otherwise: fields (\"\", \"a,b\") and (\"a\", \"b\") give one identifier, and without identifiers the row numbers restart in every file, so equal row numbers of two files are merged into one track."
  },
  {
   "property": "C61",
   "status": "partial",
   "theorems": [
    "MM.EdgesList.unknown_partial",
    "MM.EdgesList.missing_skipped",
    "MM.EdgesList.unknown_fails"
   ],
   "note": "Files before the offending one keep their tracks, and missing or empty files are skipped. Fails for files after an unknown identifier: the lookup throws, the branch for unknown edges is unreachable, and the import ends."
  },
  {
   "property": "C62",
   "status": "partial",
   "theorems": [
    "MM.Gpx.points_kept",
    "MM.Gpx.order_partial",
    "MM.Gpx.order_numbers",
    "MM.Gpx.order_untimed",
    "MM.Gpx.imported",
    "MM.Gpx.order_fails",
    "MM.Gpx.mixed_fails",
    "MM.Gpx.unparsable_fails"
   ],
   "note": "All files, any lawful sort: exactly the selected tracks, one line per segment with exactly its points; order by time if all points have times in different seconds, by number without parsing, file order without times. False for times within one second, mixed segments and unparsable times (counterexamples)."
  },
  {
   "property": "C63",
   "status": "partial",
   "theorems": [
    "MM.Gpx.distinct_partial",
    "MM.Gpx.same_name_fails",
    "MM.Gpx.counter_fails"
   ],
   "note": "Distinct with numbering, without any names, and with distinct names for all tracks; otherwise false of the code (counterexamples)."
  },
  {
   "property": "C64",
   "status": "partial",
   "theorems": [
    "MM.SeattleTruth.truth_partial",
    "MM.SeattleTruth.rejected",
    "MM.SeattleTruth.gap_fails"
   ],
   "note": "Any length: the segments are those of the roads if consecutive roads meet; refusal of unknown and wrong-way roads. Roads that do not meet are joined silently (gap_fails)."
  },
  {
   "property": "C65",
   "status": "proved",
   "theorems": [
    "MM.Console.typed",
    "MM.Console.point_list",
    "MM.Console.line_texts"
   ],
   "note": "Parsing of single geometries is a parameter; trimming, upper case, blank line, tokens, counter and kinds of geometry are modelled."
  },
  {
   "property": "C66",
   "status": "partial",
   "theorems": [
    "MM.Route.trim_merge_partial",
    "MM.Route.trim_merge_refuses",
    "MM.Route.trim_merge_turns_fails",
    "MM.Route.trim_merge_empty_line_fails"
   ],
   "note": "Proved for connected routes whose first, respectively last, line has points. False in general: only one point is left out where the way back does not meet the points of the way forth, so that the result may still turn back (trim_merge_turns_fails); routes that begin, respectively end, with an empty line throw (trim_merge_empty_line_fails)."
  },
  {
   "property": "C67",
   "status": "partial",
   "theorems": [
    "MM.Route.candidate_route_partial",
    "MM.Route.candidate_route_same_edge_partial",
    "MM.Route.candidate_route_none",
    "MM.Route.candidate_route_gap",
    "MM.Route.candidate_route_node_turn_fails",
    "MM.Route.candidate_route_freed_fails",
    "MM.Route.candidate_route_edge_begin_fails"
   ],
   "note": "Proved over the network for both modes, on the same edge for two points strictly inside, and for the cases without a route. False in general: turning back at the node itself is not trimmed (candidate_route_node_turn_fails); a repeated point in a network line leaves the route referring to a freed line (candidate_route_freed_fails); from the begin of an edge along the same edge the route makes a detour or is missing (candidate_route_edge_begin_fails)."
  },
  {
   "property": "C68",
   "status": "partial",
   "theorems": [
    "MM.ExportEdges.edges_list_partial",
    "MM.ExportEdges.edges_path_partial",
    "MM.ExportEdges.fitting_edge",
    "MM.ExportEdges.index_complete",
    "MM.ExportEdges.straight_on_fails",
    "MM.ExportEdges.round_again_fails"
   ],
   "note": "Proved for routes whose segments lie recognisably on edges, in particular for routes along whole edges whose segments no other edge shares. False in general: where the road goes straight on, the first or last segment of a route can be attributed to the neighbouring edge (straight_on_fails); an edge travelled twice in succession is listed once (round_again_fails)."
  },
  {
   "property": "C69",
   "status": "proved",
   "theorems": [
    "MM.Matcher.not_aborted",
    "MM.Matcher.aborted_prefix",
    "MM.Matcher.aborted_late",
    "MM.Matcher.whole_match",
    "MM.Matcher.in_time"
   ],
   "note": "Environments and learners are arbitrary computations that ask for the time; the sharing of the router cache between parts is the subject of C22."
  },
  {
   "property": "C70",
   "status": "partial",
   "theorems": [
    "MM.Line.eager_agrees_partial",
    "MM.Line.eager_returns_partial",
    "MM.Line.ofLazy_done",
    "MM.Line.segment_values",
    "MM.Line.eager_sub_fails",
    "MM.Line.eager_erase_fails",
    "MM.Line.eager_assign_plain_fails",
    "MM.Line.eager_assign_lazy_fails",
    "MM.Line.eager_of_lazy_fails",
    "MM.Line.eager_merge_throw_fails",
    "MM.Line.segment_assign_fails"
   ],
   "note": "Holds for every history of building, slices other than (0, size-1), erasures of existing points other than the last one alone, merges that return, and assignments of points. The left out operations have proved counterexamples: stale values after sub_rich_line(0, size-1), after erasing the last point, after assigning a plain or lazily evaluated line, after a throwing merge, and when built from a merged lazy line of two points; assigned segments keep the old values."
  },
  {
   "property": "C71",
   "status": "partial",
   "theorems": [
    "MM.MultiLine.lazy_multi_agrees_partial",
    "MM.MultiLine.eager_multi_agrees_partial",
    "MM.MultiLine.merging_keeps_values_partial",
    "MM.MultiLine.length_flat",
    "MM.MultiLine.azimuth_ends",
    "MM.MultiLine.directions_total",
    "MM.MultiLine.one_part",
    "MM.MultiLine.expected_returns",
    "MM.MultiLine.has_directions",
    "MM.MultiLine.exported_points",
    "MM.MultiLine.single_point_fails",
    "MM.MultiLine.empty_part_fails",
    "MM.MultiLine.several_empty_fails",
    "MM.MultiLine.multi_assign_fails",
    "MM.MultiLine.multi_merge_stale_fails"
   ],
   "note": "Holds for parts with points; for joining, with at least two points each. Proved counterexamples: a part of one point hides a change of direction, a part without points is undefined behaviour, several parts without points answer differently when cached, and assigning plain parts or merging keeps cached values. Sums are exact here, those of floating point numbers are not."
  },
  {
   "property": "C72",
   "status": "proved",
   "theorems": [
    "MM.Weights.observation_weights",
    "MM.Weights.length_weight",
    "MM.Weights.turn_is_azimuth",
    "MM.Weights.transition_weights",
    "MM.Weights.better_route_likelier",
    "MM.Weights.initial_uniform",
    "MM.Weights.decoded_best",
    "MM.Weights.decoded_none",
    "MM.Weights.negative_factor_reverses"
   ],
   "note": "Real numbers instead of floating point numbers: in the program, lengths that are both zero give the least probability instead of one. negative_factor_reverses shows that the restriction on factors is needed."
  },
  {
   "property": "C73",
   "status": "partial",
   "theorems": [
    "MM.Weights.reward_nonpos",
    "MM.Weights.length_cost",
    "MM.Weights.better_step_partial",
    "MM.Weights.distance_cost",
    "MM.Weights.turns_cost",
    "MM.Weights.fail_cost",
    "MM.Weights.turn_is_azimuth",
    "MM.Weights.short_route_fails",
    "MM.Weights.short_route_cost",
    "MM.Weights.back_charged"
   ],
   "note": "False for routes shorter than the track: the penalty is the difference times the ratio of lengths, which falls again below half the length (short_route_fails); all other parts are proved."
  },
  {
   "property": "C74",
   "status": "partial",
   "theorems": [
    "MM.CandEdge.divides_partial",
    "MM.CandEdge.projection",
    "MM.CandEdge.independent_of_times_partial",
    "MM.CandEdge.loop_fails",
    "MM.CandEdge.times_fails",
    "MM.CandEdge.rounding"
   ],
   "note": "Proved for edges that pass the projection once and for nearest segments of the index that belong to the edge or are not within the tolerance; projections, interpolation and the index are parameters. False in general: an edge through the same point twice gives lines that both contain the loop (loop_fails), and above a size that depends on measured times the projection may be a point of another edge beside its own (times_fails)."
  },
  {
   "property": "C75",
   "status": "partial",
   "theorems": [
    "MM.NextSearch.additions_partial",
    "MM.NextSearch.process_complete",
    "MM.NextSearch.nodes_complete",
    "MM.NextSearch.next_equal",
    "MM.NextSearch.farther_fails"
   ],
   "note": "The set of edges added in mode NEXT is characterised exactly. False: line 171 takes the line of the edge itself for the adjacent edge, so every edge leaving an end of an edge found is added, however far away (farther_fails). Distances are a parameter."
  },
  {
   "property": "C76",
   "status": "partial",
   "theorems": [
    "MM.Program.work_once",
    "MM.Program.status_partial",
    "MM.Program.does_work",
    "MM.Program.help_shown",
    "MM.Program.wrong_options_fails",
    "MM.Program.server_fails",
    "MM.Program.help_fails"
   ],
   "note": "Proved: at most one mode works, once, and only the one asked for with accepted options; a non-zero status means nothing was done; valid options of one mode do the work with status 0. False of the code (proved): wrong or missing options of a mode print an error and leave status 0; --server does nothing with status 0; --help alone gives 1."
  },
  {
   "property": "C77",
   "status": "partial",
   "theorems": [
    "MM.Options.memory_resolved",
    "MM.Options.limits_good",
    "MM.Options.turns_good",
    "MM.Options.names_good",
    "MM.Options.duplicates_good",
    "MM.Options.files_different",
    "MM.Options.type_partial",
    "MM.Options.times_good",
    "MM.Options.temporary_fails",
    "MM.Options.no_extension_fails",
    "MM.Options.compare_type_fails",
    "MM.Options.compare_times_fails"
   ],
   "note": "Proved for memory options, limits, names, duplicate nodes, files of a network, types of track files with extensions and times of tracks. False of the code (proved): temporary files may be the files of the network; files without extension are noticed depending on their order; types and times given in a comparison have no effect."
  },
  {
   "property": "C78",
   "status": "partial",
   "theorems": [
    "MM.Lifetime.safe_partial",
    "MM.Lifetime.rows_partial",
    "MM.Lifetime.rows_sound",
    "MM.Lifetime.no_deadlock",
    "MM.Lifetime.ends",
    "MM.Lifetime.row_lost_fails",
    "MM.Lifetime.failure_unnoticed_fails",
    "MM.Lifetime.unwinding_fails"
   ],
   "note": "Proved for all interleavings: without exception of the reader (or with one before the first track is queued) nothing destroyed is used and no row is refused; rows are those of the tracks read, none twice; no deadlock, no infinite execution; all rows are there if no track or row is accepted between the two tests of a coordinator thread. False of the code (proved): a track or row accepted in between is lost; a track whose execution throws is missing without a message; if the reader throws while tracks are matched, workers use destroyed exporters."
  },
  {
   "property": "C79",
   "status": "partial",
   "theorems": [
    "MM.GHelper.built",
    "MM.GHelper.built_tags",
    "MM.GHelper.same_as_memory",
    "MM.GHelper.grows",
    "MM.GHelper.survives",
    "MM.GHelper.retry_fits",
    "MM.GHelper.convert_partial",
    "MM.GHelper.one_retry_fails",
    "MM.GHelper.convert_fails"
   ],
   "note": "False in general: only one retry is made per call, so that two shortages in a row end the program (one_retry_fails); the number of retries of the conversion is the logarithm of a quotient that is 0 if less space is free than the graph needs, whose conversion to an unsigned number is undefined (convert_fails). Proved: what is stored is what was handed over, with tags, for every place of failures."
  },
  {
   "property": "C80",
   "status": "partial",
   "theorems": [
    "MM.SimplifyRetry.simplify_resumes_partial",
    "MM.SimplifyRetry.mapped_same_partial",
    "MM.SimplifyRetry.second_growth_fails",
    "MM.SimplifyRetry.road_lost_fails"
   ],
   "note": "Proved for shortages when a line is extended, which is where merging allocates first. False: one retry for the whole network (second_growth_fails); both edges are removed and their data moved before the merged edge is added, so a shortage there loses the road although the retry succeeds (road_lost_fails; the allocator has then just been given back the nodes of the two edges)."
  },
  {
   "property": "C81",
   "status": "partial",
   "theorems": [
    "MM.NetDisk.prepared",
    "MM.NetDisk.prepared_again",
    "MM.NetDisk.others",
    "MM.NetDisk.exception_cleans",
    "MM.NetDisk.kinds_refused",
    "MM.NetDisk.interrupted_reading_partial",
    "MM.NetDisk.interrupted_archives_partial",
    "MM.NetDisk.version_refused_partial",
    "MM.NetDisk.mixed_fails",
    "MM.NetDisk.unfinished_fails",
    "MM.NetDisk.unbuilt_fails",
    "MM.NetDisk.version_fails",
    "MM.NetDisk.coordinates_fails",
    "MM.NetDisk.unwritable_fails",
    "MM.NetDisk.unreadable_fails"
   ],
   "note": "Proved for every initial directory: a completed preparation is opened as prepared, also after crashes; other files are untouched and temporary files removed, also by exceptions; other kinds of storage are refused; storages of other versions are refused. False of the code, shown by counterexamples: an interruption can leave a mixed or unfinished network that opens, or one with null pointers; archives of other versions and of other coordinate systems are read without complaint; an archive that cannot be written or read is passed over silently."
  },
  {
   "property": "C82",
   "status": "partial",
   "theorems": [
    "MM.MatchRoute.match_follows_partial",
    "MM.MatchRoute.continuous_partial",
    "MM.MatchRoute.joint_removed",
    "MM.MatchRoute.standing",
    "MM.MatchRoute.match_tracks",
    "MM.MatchRoute.broken_bridged_fails",
    "MM.MatchRoute.corner_cut_fails",
    "MM.MatchRoute.standing_fails"
   ],
   "note": "Proved for policies whose runs are linked by the network, where joints not at the end of the nearest segment are inside straight pieces of road. False as stated: with joins a pair without route is bridged by a straight line and the match reported as connected (broken_bridged_fails); where another street passes through a corner, the corner may be cut (corner_cut_fails); a track that stands still has no match (standing_fails)."
  },
  {
   "property": "C83",
   "status": "partial",
   "theorems": [
    "MM.IndexBuild.index_complete",
    "MM.IndexBuild.index_built",
    "MM.IndexBuild.find_id",
    "MM.IndexBuild.point_in_nodes",
    "MM.IndexBuild.point_in_edges_partial",
    "MM.IndexBuild.edges_found",
    "MM.IndexBuild.edges_nearest_partial",
    "MM.IndexBuild.both_ends",
    "MM.IndexBuild.free_space_fails",
    "MM.IndexBuild.point_in_edges_fails",
    "MM.IndexBuild.edges_nearest_fails"
   ],
   "note": "Building is complete or does not return normally; with enough free space it returns. False: mapped storage with less free space than the storage has gives an undefined number of retries (log2 of zero converted) though no allocation would fail; point_in_edges looks at one nearest segment only, so a segment passing through the point hides the edge that ends there; k nearest segments may be fewer than k edges. The R-tree itself is represented by the specification of its answers."
  },
  {
   "property": "C84",
   "status": "partial",
   "theorems": [
    "MM.Report.tracks_reported",
    "MM.Report.tracks_console",
    "MM.Report.hmm_combinations",
    "MM.Report.match_counts",
    "MM.Report.matches_reported",
    "MM.Report.matches_console",
    "MM.Report.compares_reported",
    "MM.Report.compares_order",
    "MM.Report.compares_console",
    "MM.Report.weighted_range",
    "MM.Report.weighted_single_partial",
    "MM.Report.weighted_error_mean",
    "MM.Report.weighted_correct_partial",
    "MM.Report.file_written",
    "MM.Report.tracks_file",
    "MM.Report.console_no_rows",
    "MM.Report.misses_title_fails",
    "MM.Report.weighted_correct_fails",
    "MM.Report.weighted_single_fails",
    "MM.Report.console_fails",
    "MM.Report.file_lost_fails",
    "MM.Report.no_header_fails",
    "MM.Report.file_at"
   ],
   "note": "Exact arithmetic; decimal places of the lines are left out. False: the weighted correct fraction may exceed every single fraction (1/2 of 1/3 and 1/3) because sums of lengths are compared instead of the lengths of each comparison; a match without length against an empty ground truth counts as correct in the weighted means; the title of missed parts shares its line with the first part; with the console an existing file of results is emptied; a file that cannot be opened loses all results without a message; without results the file has no header."
  },
  {
   "property": "C85",
   "status": "partial",
   "theorems": [
    "MM.BufferBox.box_exact",
    "MM.BufferBox.box_covers",
    "MM.BufferBox.segment_box_covers",
    "MM.BufferBox.edges_within",
    "MM.BufferBox.circle_search",
    "MM.BufferBox.adopt_within",
    "MM.BufferBox.merge_within",
    "MM.BufferBox.compare_within",
    "MM.BufferBox.globe_covers_partial",
    "MM.BufferBox.globe_fails",
    "MM.BufferBox.spherical_fails",
    "MM.BufferBox.points_in",
    "MM.BufferBox.compass_at_distance"
   ],
   "note": "Holds in the plane (exact arithmetic). On the globe the points west and east of the middle are not those of extreme longitude: off the equator, for every radius, a point at that distance is outside the box (by a tiny amount for usual radii). For spherical coordinates the box is computed on WGS84 but distances on a sphere of 6371 km, so that about one per mille of the radius is missed west and east."
  },
  {
   "property": "C86",
   "status": "partial",
   "theorems": [
    "MM.EdgeSwitch.switch_bounded_partial",
    "MM.EdgeSwitch.small_edges",
    "MM.EdgeSwitch.switch_direction",
    "MM.EdgeSwitch.zero_time_fails",
    "MM.EdgeSwitch.times_decide_fails",
    "MM.CandEdge.independent_of_times_partial",
    "MM.CandEdge.times_fails",
    "MM.EdgeSwitch.unequal_times_fails"
   ],
   "note": "Well defined and bounded for positive times within a range. If the clock reports zero for an edge (steady clocks of 100 ns), an infinite value or NaN is converted to an integer: undefined. Which edges use the index depends on the times, and with C74 so can the candidates. Rounding of double is left out."
  },
  {
   "property": "C87",
   "status": "partial",
   "theorems": [
    "MM.Reproject.point_iff",
    "MM.Reproject.line_points",
    "MM.Reproject.multi_lines",
    "MM.Reproject.tracks_placed",
    "MM.Reproject.lines_placed",
    "MM.Reproject.osm_partial",
    "MM.Reproject.osm_fails",
    "MM.Reproject.text_partial",
    "MM.Reproject.text_fails",
    "MM.Reproject.list_partial",
    "MM.Reproject.list_fails",
    "MM.Reproject.export_partial",
    "MM.Reproject.export_fails",
    "MM.Reproject.export_wrong_fails",
    "MM.Reproject.accept_partial",
    "MM.Reproject.same_type_fails",
    "MM.Reproject.create_refused_iff"
   ],
   "note": "Proved for points and lines of tracks with every choice of systems. False of the code elsewhere: reproject_point silently does nothing if the compile-time types and the run-time reprojector do not fit. So OpenStreetMap nodes have no coordinates unless the source is geographic (e.g. with --srs-type spherical-equatorial), nodes of other formats have none if the transformation changes the type (e.g. 4326 to 3857), lines from edge lists have none if the type given for the tracks is not that of the network, and an export after 4326 to 3857 has none; for each the exact condition is proved. Tracks in another system of the same type are not refused."
  },
  {
   "property": "C88",
   "status": "partial",
   "theorems": [
    "MM.Measures.directions_spec",
    "MM.Measures.directions_bounded",
    "MM.Measures.directions_turn",
    "MM.Measures.segments_partial",
    "MM.Measures.segments_fails",
    "MM.Measures.azimuth_ends",
    "MM.Measures.length_fails"
   ],
   "note": "Directions of lines proved for all lines. False of the code: without segments the functions on segments reserve size_type(0) - 1 elements and throw; the length of a line in spherical coordinates is computed with the radius in kilometres, that of its segments in metres."
  },
  {
   "property": "C89",
   "status": "partial",
   "theorems": [
    "MM.CountAlloc.count_exact",
    "MM.CountAlloc.count_partial",
    "MM.CountAlloc.count_zero",
    "MM.CountAlloc.order_irrelevant",
    "MM.CountAlloc.failure_fails",
    "MM.CountAlloc.chain_fails",
    "MM.CountAlloc.resize_fails",
    "MM.CountAlloc.swap_fails"
   ],
   "note": "The exact value of the counter after any history is proved (count_exact); it is the bytes in use if no request failed and blocks are single elements or released as allocated. False of the code after a failed request (counted before the memory is obtained), for chains of arrays (released as one element each), for resized blocks (not counted, as the code warns), and for containers with different counters that are exchanged (allocators are declared always equal)."
  },
  {
   "property": "C90",
   "status": "partial",
   "theorems": [
    "MM.Profile.accept_iff",
    "MM.Profile.car_partial",
    "MM.Profile.manual_partial",
    "MM.Profile.refused_iff",
    "MM.Profile.key_fails",
    "MM.Profile.untagged_fails",
    "MM.Profile.car_reverse_fails",
    "MM.Profile.manual_reverse_fails",
    "MM.Profile.manual_default",
    "MM.Profile.import_refused"
   ],
   "note": "Proved: the check accepts exactly the notation with its character classes (regular expression decided by derivatives, proved against its language); car profile and manual profile give exactly the edges of the described ways. False: an accepted key may contain |, which the parser splits into two rules (key_fails); a way without tags is never kept, not even by 'true' (untagged_fails); a way matched only by the reverse text gets both directions, also the documented example (car_reverse_fails, manual_reverse_fails)."
  },
  {
   "property": "C91",
   "status": "partial",
   "theorems": [
    "MM.Ordering.eq_iff",
    "MM.Ordering.lt_iff",
    "MM.Ordering.order_partial",
    "MM.Ordering.hash_equal",
    "MM.Ordering.measurement_order",
    "MM.Ordering.sort_tracks",
    "MM.Ordering.create_partial",
    "MM.Ordering.nan_fails",
    "MM.Ordering.measurement_fails",
    "MM.Ordering.create_fails"
   ],
   "note": "Proved for points whose coordinates are numbers. False: with a coordinate that is not a number, == is not reflexive and the order is no strict weak order (nan_fails); measurements at different places compare equal (measurement_fails); an odd number of coordinates reads past the end (create_fails)."
  },
  {
   "property": "C92",
   "status": "partial",
   "theorems": [
    "MM.QLearn.policy_walk",
    "MM.QLearn.whole_partial",
    "MM.QLearn.complete_partial",
    "MM.QLearn.stop_rule",
    "MM.QLearn.no_ub",
    "MM.QLearn.actions_offered",
    "MM.QLearn.settled_partial",
    "MM.QLearn.settled_stays",
    "MM.QLearn.few_episodes_fails",
    "MM.QLearn.rate_fails"
   ],
   "note": "The walk is whole whenever a policy is written (also when the time is up) because attempts end within max_steps; the branch for points never visited is then dead. False: with no more episodes than edges * early_stop_factor the policy is empty and the track stays unmatched (few_episodes_fails); estimates are discounted by the learning rate in addition, so with the default rates a walk with a smaller sum of rewards than one already seen is returned (rate_fails)."
  },
  {
   "property": "C93",
   "status": "partial",
   "theorems": [
    "MM.Compare.adapt_points_partial",
    "MM.Compare.adapt_connected",
    "MM.Compare.split_path",
    "MM.Compare.split_points",
    "MM.Compare.prepare_connected",
    "MM.Compare.parts_lengths",
    "MM.Compare.adapt_start_fails",
    "MM.Compare.prepare_refines"
   ],
   "note": "False at the start of a line: if the first segment shrinks to the adopted point, the next one keeps its own first point although a point of the other line is within the tolerance (adapt_start_fails). Proved: which points change otherwise (adapt_points_partial); the line stays connected always (adapt_connected, prepare_connected); splitting (split_path, split_points); parts and sums (parts_lengths)."
  },
  {
   "property": "C94",
   "status": "partial",
   "theorems": [
    "MM.Pipe.match_partial",
    "MM.Pipe.match_none",
    "MM.Pipe.match_bounded_partial",
    "MM.Pipe.chosen_route_partial",
    "MM.Pipe.weight_inputs_partial"
   ],
   "note": "The whole from candidates to the route is proved for the hidden Markov model with exact arithmetic, searches without a bound, edges whose lines do not repeat neighbouring points, and candidates at an end of their edge or on it at one place (match_partial, match_none). Removal of joints is covered under a condition on the nearest segment and without trimmed turns. With bounds (settings routing max distance etc.): match_bounded_partial, without the length. Missing: A* search with unreachable goals (C04), reversed turns in the length, exceptions of C74. What the weights depend on: weight_inputs_partial."
  },
  {
   "property": "C95",
   "status": "partial",
   "theorems": [
    "MM.Settings.tables_distinct",
    "MM.Settings.member_value",
    "MM.Settings.needed",
    "MM.Settings.match_setting",
    "MM.Settings.compare_setting",
    "MM.Settings.output_setting",
    "MM.Settings.csv_match_setting",
    "MM.Settings.csv_compare_setting",
    "MM.Settings.outer_agrees",
    "MM.Settings.shared_file_fails",
    "MM.Settings.messages_setting"
   ],
   "note": "Proved for names written in full and values kept as strings; abbreviations are proved to mean the same where the mode is found out. Members changed by correct are the subject of C77. boost::program_options is modelled as far as needed. False of the code (proved): a configuration file with an option of another mode makes every run of the mode fail."
  },
  {
   "property": "C96",
   "status": "partial",
   "theorems": [
    "MM.Decide.values_give_plan",
    "MM.Decide.values_never_undefined",
    "MM.Decide.values_near_best_partial",
    "MM.Decide.values_best_partial",
    "MM.Decide.policies_best_partial",
    "MM.Decide.policies_stop_partial",
    "MM.Decide.policies_never_undefined"
   ],
   "note": "For the default state size of two points. The learners are programs on the environment with its tables and vectors; they are shown to do the same as the learners of C16/C17 on a fixed process. Termination and definedness for all rewards (value iteration); near-optimality for rewards that are never positive (for rewards of both signs optimality is false, see C16); policy iteration with a zero threshold. Exact numbers. Larger state sizes run into undefined behaviour (C55)."
  },
  {
   "property": "C97",
   "status": "partial",
   "theorems": [
    "MM.Pipe.decided_ends",
    "MM.Pipe.decided_none",
    "MM.Pipe.decided_partial",
    "MM.Pipe.decided_policies_partial",
    "MM.Pipe.decided_points",
    "MM.Pipe.decided_choice_partial",
    "MM.Pipe.decided_connected_fails",
    "MM.Pipe.travelled_ends",
    "MM.Pipe.travelled_partial",
    "MM.Pipe.travelled_policies_partial",
    "MM.Pipe.travelled_points",
    "MM.Pipe.insisted_ends",
    "MM.Pipe.insisted_partial",
    "MM.Pipe.insisted_policies_partial",
    "MM.Pipe.course_points"
   ],
   "note": "Proved over exact numbers and without two neighbouring points without candidates. With any bounds of searches and with trimmed turns (joints then not removed): travelled_partial and travelled_policies_partial, where what is given up is said of the routes that were found; without bounds and trimmed turns in terms of shortest paths: decided_partial. With skip_errors off and joints not removed: insisted_partial and insisted_policies_partial, one candidate of each point that has some, interrupted only where no route was found or a point has no candidates; with joints removed such matches are bridged where there is no route (C82). False: a connected match is not found although all points can be connected (decided_connected_fails): trying a candidate that cannot be reached costs only the length of the rest of the track, which is less than a step to a candidate somewhat farther away, so the connection is given up and the match of two points is invalid where the hidden Markov model finds one."
  },
  {
   "property": "C98",
   "status": "partial",
   "theorems": [
    "MM.Prepare.prepared_edges",
    "MM.Prepare.prepared_nodes",
    "MM.Prepare.prepared_roads",
    "MM.Prepare.prepared_every",
    "MM.Prepare.prepared_drives",
    "MM.Prepare.prepared_distances_partial",
    "MM.Prepare.prepare_defined_iff",
    "MM.Prepare.permitted_by_tags",
    "MM.Prepare.prepared_laid",
    "MM.Prepare.prepared_answers",
    "MM.Prepare.matched_permitted_partial",
    "MM.Prepare.decided_permitted_partial",
    "MM.Prepare.overlap_fails",
    "MM.Prepare.one_way_lost_fails",
    "MM.Prepare.nothing_fails",
    "MM.Prepare.prepared_answers_within"
   ],
   "note": "Edges, nodes, roads and drives are proved for all files and options; distances for complete or no simplification without removal of components or merged nodes; matches under the conditions of C94 and C97. False: files that share a way, with removal of duplicate edges as the help text advises, are processed with freed memory (overlap_fails); removal of components loses one-way roads that lead into the rest (one_way_lost_fails) and is undefined on an empty network (nothing_fails)."
  },
  {
   "property": "C99",
   "status": "partial",
   "theorems": [
    "MM.Net.simplify_oneway",
    "MM.Net.simplify_again_partial",
    "MM.Net.simplify_again_fails",
    "MM.Net.simplify_again_ids_fails",
    "MM.Prepare.prepared_oneway",
    "MM.Prepare.prepared_twoway_partial"
   ],
   "note": "One-way passages: all well-formed networks. Two-way passages and idempotence: networks whose vertices are at different points and whose lines do not run through other vertices, which covers files with nodes at different points. False for nodes at equal points (simplify_again_fails) and in the mode that keeps the borders of ways (simplify_again_ids_fails): one pass leaves a vertex that the next pass removes."
  },
  {
   "property": "C100",
   "status": "partial",
   "theorems": [
    "MM.Storage.owned_partial",
    "MM.Storage.closed_partial",
    "MM.Storage.memory_partial",
    "MM.Storage.assign_fails",
    "MM.Storage.assign_leaves_fails",
    "MM.Storage.shrink_fails",
    "MM.Storage.same_file_fails",
    "MM.Storage.memory_assign_fails"
   ],
   "note": "Holds for all sequences in which no storage that still owns something is assigned another one, shrink_to_fit() is not called while the storage stays in use, and no file is created or removed while somebody has it. False otherwise, with proofs: an assignment forgets the mapping and the temporary file of the target (assign_fails, assign_leaves_fails), in memory it ends the counter before the containers it counts (memory_assign_fails); shrink_to_fit() leaves pointers into the old mapping (shrink_fails); two storages with the same file: the end of one removes the file of the other (same_file_fails)."
  },
  {
   "property": "C101",
   "status": "partial",
   "theorems": [
    "MM.AdjList.copy_from_partial",
    "MM.AdjList.copy_partial",
    "MM.AdjList.copy_reindexed",
    "MM.AdjList.growing_numbered",
    "MM.AdjList.assign_partial",
    "MM.AdjList.move_partial",
    "MM.AdjList.copy_fails",
    "MM.AdjList.copy_wrong_fails",
    "MM.AdjList.move_fails",
    "MM.AdjList.move_descriptors"
   ],
   "note": "Proved for every graph that is numbered: after reindex, or as long as no vertex was removed. Without reindex after a removal the copy is undefined (copy_fails) or another graph (copy_wrong_fails); the assertions that would notice are not compiled in release builds. A move to another allocator leaves edges with the descriptors of the old vertices (move_fails)."
  },
  {
   "property": "C102",
   "status": "partial",
   "theorems": [
    "MM.Pipe.sought",
    "MM.Pipe.sought_combined",
    "MM.Pipe.sought_nearest",
    "MM.Pipe.nearest_partial",
    "MM.Pipe.sought_match_partial",
    "MM.Pipe.sought_nothing",
    "MM.Pipe.combined_misses_fails"
   ],
   "note": "In mode CIRCLE proved: candidates (own roads, within the radius of the point, order, once) and the match against every choice of near roads that can be travelled, with the routes searched without a bound. In the default mode COMBINED it is false: the k nearest segments are counted, not roads, so a road well within the radius is missed (combined_misses_fails); proved of the roads of the nearest segments. The planar index answers exactly within the radius (hypothesis of Circle; see C85)."
  },
  {
   "property": "C103",
   "status": "partial",
   "theorems": [
    "MM.Prepare.found_permitted_partial",
    "MM.Prepare.found_match_partial",
    "MM.Prepare.found_decided_partial",
    "MM.Prepare.found_nothing",
    "MM.Pipe.match_empty"
   ],
   "note": "Composition of C98, C102, C94 and C97 under their conditions: lines without repeated neighbouring points, projections at an end of the edge or on it at one place, no trimmed turns, exact numbers; the best match for mode CIRCLE without bounds, and with complete or no simplification and nothing removed; elsewhere that matches run along permitted passages. What is false of the parts is listed there (C98: overlapping files; C102: the default mode misses near roads; C97: the decision process gives up connections)."
  },
  {
   "property": "C104",
   "status": "partial",
   "theorems": [
    "MM.RouteLife.values_partial",
    "MM.RouteLife.untouched_partial",
    "MM.RouteLife.part_dangles_fails"
   ],
   "note": "Proved for all sequences of operations except parts and joining a route with itself. False of sub_route: a part may refer to own lines of the route it was cut from (part_dangles_fails); C29 has the conditions under which it does not."
  },
  {
   "property": "C105",
   "status": "partial",
   "theorems": [
    "MM.QEnv.offered_order",
    "MM.QEnv.run_defined_partial",
    "MM.QEnv.run_defined_fails",
    "MM.QEnv.learned_trip_partial",
    "MM.QEnv.learned_stop",
    "MM.QEnv.learned_entries"
   ],
   "note": "The learner is run on the environment model itself (growing state table, cache, probing of actions) and proved to simulate the learner on a fixed process (run_sim), so that C92 and C15 apply. Partial: defined only with the default memory of one move (run_defined_fails with --state-size 3), and no policy if the episodes run out first (C92)."
  },
  {
   "property": "C106",
   "status": "partial",
   "theorems": [
    "MM.Pipe.learned_ends",
    "MM.Pipe.learned_partial",
    "MM.Pipe.learned_enough",
    "MM.Pipe.learned_sums",
    "MM.Pipe.learned_travelled_partial",
    "MM.Pipe.learned_insisted_partial",
    "MM.Pipe.learned_insisted_enough_partial"
   ],
   "note": "Composition of C105 with C97's way from a policy to lines; the environment's tables are proved to hold what the decision process says (run_true), so that the policy is that of a plan. With any bounds of searches and with trimmed turns: learned_travelled_partial; with skip_errors off and joints not removed: learned_insisted_partial, learned_insisted_enough_partial. Conditions as in C97: exact numbers, no two neighbouring points without candidates, default state size. Missing: a policy if the episodes run out before one is written (C92, few_episodes_fails); the best plan, which Q-learning may miss (C92, rate_fails)."
  },
  {
   "property": "C107",
   "status": "partial",
   "theorems": [
    "MM.Pipe.prepared_drawn",
    "MM.Pipe.recorded_prefix",
    "MM.Pipe.recorded_parts_partial",
    "MM.Pipe.recorded_partial",
    "MM.Pipe.recorded_apart_partial",
    "MM.Prepare.recorded_permitted_partial",
    "MM.Prepare.recorded_best_partial"
   ],
   "note": "Proved for all clocks, for straight segments, searches that find edges with projections at one place (as in C102), results not exported as whole edges, any bounds of searches. If turns within edges are trimmed, joints are not removed and segments are not said to be pieces of edges. Best match of a part in mode CIRCLE, routes without bound. The filter of duplicates and detours has no effect (C58). The clock is asked wherever the code asks it, also during adoption of candidates. Exceptions of medians and of tolerances that are not positive are excluded by the hypothesis on the settings."
  },
  {
   "property": "C108",
   "status": "partial",
   "theorems": [
    "MM.Pipe.methods_partial",
    "MM.Pipe.methods_apart_partial",
    "MM.Pipe.circle_gapless",
    "MM.Prepare.methods_permitted_partial"
   ],
   "note": "Proved for all three learners, with skip_errors on or off (off: joints not removed), any bounds of searches (what is given up is then said of the routes that were found), trimmed turns if joints are not removed, no two neighbouring points without candidates after the first with some (NoWideGap; circle_gapless gives it for mode CIRCLE); threshold 0 for policy iteration. Missing: as in C97 and C106; results as whole edges (C69, C79)."
  },
  {
   "property": "C109",
   "status": "partial",
   "theorems": [
    "MM.CompareRun.queued_exact",
    "MM.CompareRun.rows_partial",
    "MM.CompareRun.scores_range",
    "MM.CompareRun.same_partial",
    "MM.CompareRun.parts_irrelevant",
    "MM.CompareRun.cut_irrelevant",
    "MM.CompareRun.one_part",
    "MM.CompareRun.file_partial",
    "MM.CompareRun.refused_kinds",
    "MM.CompareRun.systems_fails",
    "MM.CompareRun.repeated_fails"
   ],
   "note": "Proved for all tracks and, for the rows, all schedules in which no task is accepted between the two tests of the coordinator thread (C37): the pairs queued for each identifier exactly, one result per ground truth of an identifier that occurs once with the comparison of its segments, ranges, tracks compared with themselves (if no different points are within the adoption tolerance, C34), independence of the division into parts, the file, refusal of other kinds of files. False of the code (proved): a match in another coordinate system than its ground truth gives neither a row nor a message; a second ground truth of an identifier and its match are left out."
  },
  {
   "property": "C110",
   "status": "partial",
   "theorems": [
    "MM.TwoRuns.read_back",
    "MM.TwoRuns.only_input",
    "MM.TwoRuns.first_ends",
    "MM.TwoRuns.edges_of_second",
    "MM.TwoRuns.circle_of_second",
    "MM.TwoRuns.two_runs_partial",
    "MM.TwoRuns.two_runs_match_partial",
    "MM.TwoRuns.interrupted_partial",
    "MM.TwoRuns.again",
    "MM.TwoRuns.refused",
    "MM.TwoRuns.torn_fails"
   ],
   "note": "What is read is what was prepared, candidates and matches of the second run, repetition and refusal: proved. Matches: as in C94 (no trimmed turns) and, for the existence of a match, mode CIRCLE without removal of components and duplicates. False in general: a run that ends between the index and the graph leaves files that are opened without complaint and whose index names edges the graph does not have (torn_fails); archives are not refused by other versions (C81)."
  },
  {
   "property": "C111",
   "status": "partial",
   "theorems": [
    "MM.SegRef.make_exact",
    "MM.SegRef.make_defined",
    "MM.SegRef.assign_exact",
    "MM.SegRef.assign_own",
    "MM.SegRef.own_kept",
    "MM.SegRef.made_alone",
    "MM.SegRef.line_kept_partial",
    "MM.SegRef.defined_partial",
    "MM.SegRef.current_partial",
    "MM.SegRef.shifted_fails",
    "MM.SegRef.overwritten_fails",
    "MM.SegRef.dangling_fails",
    "MM.SegRef.nowhere_fails",
    "MM.SegRef.stale_fails"
   ],
   "note": "Proved for all programs: a new segment has the points of its source and nothing else changes; segments that hold their points are independent. False, with counterexamples: assigning to a segment that refers or points to points of a line writes to the line (overwritten_fails), also for neighbouring segments where not even the target has the points of the source (shifted_fails; assign_exact says exactly when it has); a referring or pointing segment built from one that holds its points is left without them (dangling_fails); a pointing segment that points nowhere is written through (nowhere_fails); values are kept when a plain segment is assigned or the points change (stale_fails). Without these: defined_partial, line_kept_partial, current_partial. Reallocation of a line's points is not modelled."
  },
  {
   "property": "C112",
   "status": "partial",
   "theorems": [
    "MM.TagFlow.tags_exact",
    "MM.TagFlow.node_only",
    "MM.TagFlow.node_tags",
    "MM.TagFlow.road_has",
    "MM.TagFlow.road_tags_partial",
    "MM.TagFlow.road_only",
    "MM.TagFlow.compress_exact",
    "MM.TagFlow.prepared_partial",
    "MM.TagFlow.finished_refuses",
    "MM.TagFlow.spread_fails",
    "MM.TagFlow.version_fails",
    "MM.TagFlow.full_fails"
   ],
   "note": "Refinement of reading, merging and compressing with identifiers by a description without them; exact for nodes, and for roads while merges stay within ways. False for merges across ways: other edges of the way get the tags too; ways in two versions; a finalized mapped storage cannot grow."
  },
  {
   "property": "C113",
   "status": "partial",
   "theorems": [
    "MM.OsmTags.vertex_tags_partial",
    "MM.OsmTags.edge_tags_partial",
    "MM.OsmTags.prepared_tags_partial",
    "MM.OsmTags.version_fails"
   ],
   "note": "Proved for all files without roads that have no nodes (undefined, C39 empty_way_fails): tags of vertices are those of the first visible node with the identifier, tags of edges those of the first road with the identifier of which two neighbouring nodes were known; carried through simplification and compression if roads with the same identifier have the same tags. False otherwise: in files of different age the later version of a road has the tags of the earlier one (version_fails)."
  },
  {
   "property": "C114",
   "status": "partial",
   "theorems": [
    "MM.Session.session_partial",
    "MM.Session.task_right",
    "MM.Session.all_written",
    "MM.Session.session_same_partial",
    "MM.Session.execute_same",
    "MM.Session.gpx_rows",
    "MM.Session.row_lost_fails"
   ],
   "note": "From the files of one run to the rows of another, with threads: composed of C110 (network read back), C107 (recorded tracks), C78 (threads) and C64 (rows). row_lost_fails: a track queued between the two tests of its coordinator has no row, and the program ends normally (any matching, any track). Missing: those interleavings (excluded by Quiet), and what is missing in C107 and C110 (exact arithmetic, indices that answer truthfully, whole edges in the export, trimmed turns). That every run of the threads ends is MM.Lifetime.ends and no_deadlock (C78)."
  },
  {
   "property": "C115",
   "status": "partial",
   "theorems": [
    "MM.Exchange.read_written",
    "MM.Exchange.read_texts",
    "MM.Exchange.scored_partial",
    "MM.Exchange.sessions_agree_partial"
   ],
   "note": "Text of geometries and its parser (boost) are parameters: written text is read as the same geometry up to rounding of coordinates (Faithful). Missing: ground truths whose different points lie within the tolerance of adoption (C78), repeated identifiers (C109, repeated_fails), tracks whose session row is lost (C114, row_lost_fails)."
  },
  {
   "property": "C116",
   "status": "partial",
   "theorems": [
    "MM.GHelper.by_value_partial",
    "MM.GHelper.in_memory",
    "MM.GHelper.storage_suffices",
    "MM.GHelper.kept_at_once",
    "MM.GHelper.line_lost_fails"
   ],
   "note": "Proved: no undefined behaviour, refusals only for missing nodes, exactly the nodes and edges of the calls that returned with ids and ends and coherent lists; with lines in memory, while the storage suffices, and for every edge whose first attempt finds room. False in general (line_lost_fails): add_edge moves its parameter inside the function that is retried, so when the storage has to grow for an edge by value, the edge is stored without its line and the call succeeds."
  },
  {
   "property": "C117",
   "status": "partial",
   "theorems": [
    "MM.Route.return_line_partial",
    "MM.Route.zigzag_charged",
    "MM.Route.nothing_found",
    "MM.Route.no_meeting_fails"
   ],
   "note": "Proved for first routes whose last line has points: the line found is the longest way retraced, its length forth and back is what is charged (exact, symmetric lengths); nothing is found for invalid routes, routes without lines and routes whose ends differ. False in general (no_meeting_fails): a first route ending with an empty line counts as attached to every route, and the call throws when the points do not meet. Not proved: first routes ending with an empty line that do meet; the variant returning the part of the second route, which the program does not use."
  },
  {
   "property": "C118",
   "status": "partial",
   "theorems": [
    "MM.Route.eager_values_partial",
    "MM.Route.lazy_values_partial",
    "MM.Route.kinds_agree_partial",
    "MM.Route.eager_made",
    "MM.Route.blank_unconnected_fails",
    "MM.Route.not_made_fails",
    "MM.Route.eager_join_stale_fails",
    "MM.Route.eager_like_plain",
    "MM.Route.lazy_like_plain"
   ],
   "note": "An eager route that is not invalid answers every query with the value of its lines after any history of building, copying, merging and cutting; so does a lazy route whose lines have two points (also when trimmed or cut within lines), so both kinds agree. False of the code: an eager route made of nothing, or merged of invalid routes, is not connected while the lazy one is; a line with a single point at a joint makes the constructor of an eager route throw; join leaves the values of both routes as they were. Not covered: cutting within lines and trimming of eager routes."
  },
  {
   "property": "C119",
   "status": "partial",
   "theorems": [
    "MM.SameSystem.same_system_partial",
    "MM.SameSystem.leads_named",
    "MM.SameSystem.leads_plain",
    "MM.SameSystem.without_options",
    "MM.SameSystem.other_kind",
    "MM.SameSystem.not_stored_fails",
    "MM.SameSystem.other_refused_fails"
   ],
   "note": "If the options of --match name the system of the network again and lead to it for the tracks, node and point have the same coordinates exactly if they are at the same place, whatever the systems; so it is without any options. False of the code: the system is not stored with the network; a network prepared in 3857 and opened without --network-srs is taken as geographic, tracks in 4326 are matched against its metres without complaint, tracks transformed to 3857 are refused. Not covered: networks that are not read from geographic OpenStreetMap files (C87)."
  },
  {
   "property": "C120",
   "status": "partial",
   "theorems": [
    "MM.Keys.points_equal",
    "MM.Keys.lines_equal",
    "MM.Keys.others_equal",
    "MM.Keys.equal_hashes",
    "MM.Keys.comparisons_fair",
    "MM.Keys.itself_partial",
    "MM.Keys.containers_answer",
    "MM.Keys.not_a_number_fails",
    "MM.Keys.node_map_partial"
   ],
   "note": "Proved for all keys, histories, numbers of buckets and hash functions, except that a key equals itself: with a coordinate that is not a number it does not, and is never found again (not_a_number_fails). The probing of the library's open addressing is modelled as buckets."
  },
  {
   "property": "C121",
   "status": "partial",
   "theorems": [
    "MM.Session.task_told_partial",
    "MM.Session.candidates_told_partial"
   ],
   "note": "Composition of preparation, search (with or without a bound), decoding, collection under a clock and the exporter of candidates. With a bound the marked choice is the best among those between which routes were found. If turns within edges are trimmed, joints are not removed. Missing: results as whole edges, learners other than Viterbi, unknown column names (C43)."
  }
 ]
}
