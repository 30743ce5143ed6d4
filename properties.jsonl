{"id": "C01", "title": "Exhaustive shortest-path search reports exact distances and real paths", "statement": "Running the Dijkstra search from a start vertex to exhaustion on a graph with non-negative edge weights terminates; afterwards a vertex has a reported distance exactly when it is reachable from the start, that distance is the minimum over all directed walks of the accumulated weight, and following reported predecessors from any such vertex leads back to the start along edges of the graph whose accumulated weight is the reported distance.", "quantifier": "every finite directed graph (parallel edges, self loops, zero weights included), every start vertex, every tie-breaking of the priority queue, every weight type whose addition is monotone", "why_tests_cant": "a test checks a handful of fixed graphs; optimality quantifies over all walks of all graphs and over heap tie-breaking, which the heap implementation decides", "anchors": ["src/library/include/graph/algorithm/dijkstra_shortest_path.hpp: dijkstra_shortest_path", "src/library/include/graph/algorithm/priority_type_comparator.hpp", "src/library/include/graph/algorithm/visitor.hpp"]}
{"id": "C02", "title": "Stopping a search once the goals are settled does not change their distances", "statement": "When the search is stopped by the goal visitors as soon as the last requested goal has been taken from the queue, every requested goal reachable from the start has its exact minimum distance, the same as an exhaustive search would report.", "quantifier": "every graph, start vertex, goal set and every tie-breaking of the queue", "why_tests_cant": "which vertices are settled at the stopping moment depends on the graph and heap ties; tests can only sample", "anchors": ["src/library/include/geometry/network/network.hpp: goal_visitor, goals_visitor, dijkstra_shortest_paths", "src/library/include/graph/algorithm/dijkstra_shortest_path.hpp"]}
{"id": "C03", "title": "A distance-bounded search finds every goal within the bound", "statement": "With a maximum distance given, the search reports every goal whose minimum distance from the start is at most the bound (times the configured factor), with its exact distance; whatever it reports is the length of an existing path.", "quantifier": "every graph, bound, factor, start and goal set", "why_tests_cant": "the failing graphs are those where a long edge towards a vertex is examined before a short detour; no fixed suite covers all edge orders", "anchors": ["src/library/include/geometry/network/network.hpp: base_max_distance_visitor::examine_edge, dijkstra_shortest_paths"]}
{"id": "C04", "title": "Goal-directed search returns a shortest path or reports unreachability", "statement": "The A* search with a consistent heuristic returns a path from start to goal whose length is minimal if the goal is reachable, and no path if it is not.", "quantifier": "every graph, start, goal, consistent heuristic and queue tie-breaking", "why_tests_cant": "optimality and the unreachable case quantify over all graphs and heuristics", "anchors": ["src/library/include/graph/algorithm/a_star_shortest_path.hpp: a_star_shortest_path", "src/library/include/geometry/network/network.hpp: a_star_shortest_paths"]}
{"id": "C05", "title": "Graph traversal visits exactly the reachable vertices, each once", "statement": "Breadth-first and depth-first search terminate, report every vertex reachable from the start exactly once as discovered and once as finished, and report no other vertex.", "quantifier": "every finite directed graph and every start vertex", "why_tests_cant": "reachability over all graphs is an inductive property no sample settles", "anchors": ["src/library/include/graph/algorithm/breadth_first_search.hpp", "src/library/include/graph/algorithm/depth_first_search.hpp"]}
{"id": "C06", "title": "A mutable graph stays coherent under every sequence of insertions and removals", "statement": "After any sequence of adding vertices and edges and of removing edges and (cleared) vertices, every stored edge is listed exactly once among the outgoing edges of its source and, for bidirectional graphs, exactly once among the incoming edges of its target, every listed edge is stored, and the graph's vertices and edges are exactly those added and not removed.", "quantifier": "every operation history on directed, bidirectional and undirected graphs", "why_tests_cant": "the invariant ranges over unbounded histories of mixed operations", "anchors": ["src/library/include/graph/adjacency_list.hpp: add_vertex, add_edge, _add_edge, remove_edge, remove_vertex, clear_vertex"]}
{"id": "C07", "title": "A failed insertion leaves the graph as it was", "statement": "If memory runs out at any point inside adding an edge or a vertex, the operation throws and the graph's edges and the incidence lists of all vertices are exactly as before, so the call can be repeated after growing the storage.", "quantifier": "every reachable graph, every edge, every allocation point at which failure may occur", "why_tests_cant": "tests cannot fail the n-th allocation at each point of each state", "anchors": ["src/library/include/graph/adjacency_list.hpp: try_add, _add_edge, add_vertex", "src/library/include/io/memory_mapped/utils.hpp: retry_alloc"]}
{"id": "C08", "title": "Removing a vertex never leaves an edge that refers to it", "statement": "After a successful vertex removal no remaining edge has the removed vertex as source or target.", "quantifier": "every reachable graph and every vertex", "why_tests_cant": "needs every incidence configuration of the vertex", "anchors": ["src/library/include/graph/adjacency_list.hpp: remove_vertex, clear_vertex"]}
{"id": "C09", "title": "Vertex and edge indices identify vertices and edges", "statement": "At any time after any history the indices reported for vertices (and edges) are pairwise distinct, and after reindexing they are exactly 0..n-1 in iteration order.", "quantifier": "every operation history, with reindexing at any points", "why_tests_cant": "index reuse shows only after specific interleavings of removal, insertion and reindexing", "anchors": ["src/library/include/graph/adjacency_list.hpp: add_vertex, _add_edge, remove_vertex, reindex"]}
{"id": "C10", "title": "Converting a graph to compressed form preserves it", "statement": "The compressed graph built from an adjacency list has the same vertices in the same order with the same data, and for every vertex its outgoing edges are the outgoing edges of the original vertex, in order, with the same data, source and target.", "quantifier": "every directed or bidirectional adjacency list with consecutive indices", "why_tests_cant": "quantifies over all graphs, including isolated vertices and parallel edges", "anchors": ["src/library/include/graph/compressed_sparse_row.hpp: from_adjacency_list, out_edges_view, source, target"]}
{"id": "C11", "title": "Element access through container views is range checked", "statement": "Access by signed position returns the element counted from the front (non-negative) or from the back (negative) when it exists and throws otherwise; it never reads outside the container.", "quantifier": "every container size and every position", "why_tests_cant": "boundary positions for every size, and undefined behaviour does not reliably show in a test", "anchors": ["src/library/include/graph/container_view.hpp: at", "src/library/include/graph/container_subview.hpp: at, front, back"]}
{"id": "C12", "title": "A route extracted from a vertex path follows the network", "statement": "For a vertex path whose consecutive vertices are joined by edges, the extracted route consists of one edge per consecutive pair, each joining that pair and of minimal length among the parallel edges; a pair without an edge is never silently bridged.", "quantifier": "every network and every vertex sequence", "why_tests_cant": "parallel edges, missing edges and order of out-edges vary over all networks", "anchors": ["src/library/include/geometry/network/network.hpp: extract_route"]}
{"id": "C13", "title": "Viterbi decoding returns a most likely state sequence", "statement": "On the observation and transition matrices of a track the decoder returns, for every time index, one candidate per index, such that the joint probability of the returned sequence is maximal over all candidate sequences whenever some sequence has positive probability.", "quantifier": "every number of steps and candidates, every probability matrix", "why_tests_cant": "the maximum ranges over exponentially many sequences and all matrices", "anchors": ["src/library/include/learning/algorithms/viterbi.hpp: operator()"]}
{"id": "C14", "title": "Action and state numbering of the decision process is a faithful encoding", "statement": "Encoding and decoding of actions (skip, none, candidate index) are mutually inverse on the valid range, distinct internal states get distinct numbers and the number of a state never changes during an episode history.", "quantifier": "every action value, every history of environment steps", "why_tests_cant": "histories of interning are unbounded", "anchors": ["src/library/include/environment/environments/single.hpp: step, actions, _internal2state, state2internal"]}
{"id": "C15", "title": "Environment steps are reproducible and every episode ends", "statement": "Repeating a step from the same state with the same action returns the same successor and reward regardless of what was done in between, and every sequence of steps reaches a terminal state within a bounded number of steps.", "quantifier": "every track, candidate sets, policy and history of steps", "why_tests_cant": "episodes and interleavings are unbounded", "anchors": ["src/library/include/environment/environments/single.hpp: step, _new_state, _skip_state, _done"]}
{"id": "C16", "title": "Value iteration stops and its policy is optimal", "statement": "On the decision process of a track with finite rewards the value iteration learner terminates, and with a zero threshold the returned policy collects the maximal discounted return from the initial state.", "quantifier": "every finite acyclic decision process the environment can produce, every reward assignment", "why_tests_cant": "optimality ranges over all policies and all reward tables", "anchors": ["src/library/include/learning/algorithms/value_iteration.hpp: operator()"]}
{"id": "C17", "title": "Policy iteration stops only at a policy it cannot improve", "statement": "When the policy iteration learner stops because the policy is stable, no single action change at any state improves the value it computed, and its policy is optimal on acyclic processes.", "quantifier": "every finite decision process, every reward table", "why_tests_cant": "ranges over all policies and processes", "anchors": ["src/library/include/learning/algorithms/policy_iteration.hpp: operator()"]}
{"id": "C18", "title": "The Q-learning update moves the estimate towards the target", "statement": "Each update sets the estimate of the visited state-action pair to (1-lr)*old + lr*(reward + gamma*best next), changes no other entry, and keeps estimates within the bounds implied by the reward bounds.", "quantifier": "every history of updates, every learning rate in [0,1] and discount", "why_tests_cant": "numeric invariants over unbounded update histories", "anchors": ["src/library/include/learning/algorithms/q_learning.hpp: update in operator()"]}
{"id": "C19", "title": "The final route follows the chosen candidates", "statement": "The route assembled from a policy joins, in order, exactly the routes between successive chosen candidates; candidates marked as skipped leave a gap and nothing else is dropped.", "quantifier": "every policy a learner can return, including repeated entries from skipping", "why_tests_cant": "skip patterns and state sizes combine without bound", "anchors": ["src/library/include/matching/algorithm/route.hpp: candidates_route, candidates_policy", "src/library/include/environment/environments/single.hpp: _skip_state"]}
{"id": "C20", "title": "Candidate search terminates and returns candidates when any exist in reach", "statement": "For every measurement the radius search terminates; unless the point is filtered out it returns a non-empty candidate set whenever some edge lies within the largest radius tried, and every returned candidate lies within the radius used.", "quantifier": "every network, measurement and search setting", "why_tests_cant": "the loop depends on geometry and on the combination of settings", "anchors": ["src/library/include/matching/algorithm/candidate_search.hpp: _candidate_search_buffer and radius loop"]}
{"id": "C21", "title": "Adoption of neighbouring candidates only adds legitimate candidates", "statement": "Adopting candidates from siblings, nearby points or reversal detection only adds edges that were found for a neighbouring point within the configured distance, never removes a point's own candidates and keeps a single representative per edge.", "quantifier": "every sequence of candidate sets", "why_tests_cant": "depends on all configurations of neighbouring sets", "anchors": ["src/library/include/matching/algorithm/candidate_search.hpp: candidate adoption"]}
{"id": "C22", "title": "Routing results do not depend on what was routed before", "statement": "The route between two candidates with a given distance bound is the same whether or not other routes were requested earlier in the same session.", "quantifier": "every history of routing requests", "why_tests_cant": "cache state depends on unbounded histories of previous calls", "anchors": ["src/library/include/matching/algorithm/route.hpp: shortest_paths cache, candidate_route"]}
{"id": "C23", "title": "Network simplification preserves routes", "statement": "Merging degree-two vertices keeps the geometry: the total length is unchanged, the surviving vertices are a subset, and for surviving vertices reachability and shortest-path distance are unchanged.", "quantifier": "every directed network and every order in which vertices are merged", "why_tests_cant": "the merge order and graph shape are unbounded", "anchors": ["src/library/include/geometry/network/network_import.hpp: simplify, _is_mergeable, _populate_merges, _merge"]}
{"id": "C24", "title": "Removing unconnected components keeps a largest connected component", "statement": "After removal the network is a largest weakly connected component of the input, independent of the order in which vertices were inserted.", "quantifier": "every network including one-way streets and the empty network", "why_tests_cant": "depends on graph shape and vertex order", "anchors": ["src/library/include/geometry/network/network_import.hpp: remove_unconnected_components"]}
{"id": "C25", "title": "Removing duplicates leaves one representative of each", "statement": "After removal of duplicate nodes no two nodes have the same position and all their edges are kept; after removal of duplicate edges no two equal parallel edges remain and at least one of each class is kept.", "quantifier": "every network", "why_tests_cant": "duplicate multiplicities and orders are unbounded", "anchors": ["src/library/include/geometry/network/network_import.hpp: remove_duplicate_nodes, remove_duplicate_edges"]}
{"id": "C26", "title": "Line concatenation, slicing and point removal follow list algebra", "statement": "Merging lines that share end points yields the concatenation without repeated joints, independent of grouping; slicing and re-merging adjacent slices restores the line; removing a sorted set of indices keeps exactly the other points in order; the announced size of a merge equals the actual size.", "quantifier": "every list of lines and every index set", "why_tests_cant": "laws over all lists; counterexamples sit at empty and single-point lines", "anchors": ["src/library/include/geometry/rich_type/rich_line.hpp: merge, calculate_new_size, sub_line, erase"]}
{"id": "C27", "title": "Cached lengths, azimuths and directions always agree with the points", "statement": "After any sequence of reads, merges, slices, erasures and assignments a lazily evaluated line answers every length, azimuth and direction query with the value a freshly built line with the same points would give.", "quantifier": "every history of operations on lazily evaluated lines", "why_tests_cant": "stale caches show only for specific read/modify interleavings", "anchors": ["src/library/include/geometry/rich_type/lazy_rich_line.hpp", "src/library/include/geometry/rich_type/rich_line_data.hpp"]}
{"id": "C28", "title": "Merging a list of lines splits exactly at gaps", "statement": "Merging lines into a multi line yields maximal connected lines: consecutive lines stay joined exactly when the end of one equals the start of the next, no point is lost and the order is kept.", "quantifier": "every list of lines including empty ones", "why_tests_cant": "all gap patterns over all lists", "anchors": ["src/library/include/geometry/rich_type/multi_rich_line.hpp: merge"]}
{"id": "C29", "title": "Joining routes is consistent with their geometry", "statement": "Merging connected routes gives a connected route whose points are the concatenation without repeated joints, whose length is the sum of the lengths, and whose cached values agree with its points.", "quantifier": "every list of routes including empty and invalid ones", "why_tests_cant": "combination of empty, single-point and multi-part routes is unbounded", "anchors": ["src/library/include/geometry/network/route/route.hpp: merge, join, trim_merge, sub_route, attaches, mergeable", "src/library/include/geometry/network/route/lazy_route.hpp"]}
{"id": "C30", "title": "Line simplification never moves the line by more than the tolerance", "statement": "Simplification terminates, keeps the first and last point, keeps the order of points, and every removed point lies within the tolerance of the retained segment that spans it.", "quantifier": "every line, every non-negative tolerance, every distance function", "why_tests_cant": "recursion over arbitrary point sets", "anchors": ["src/library/include/geometry/algorithm/simplify.hpp: simplify_indices, simplify, simplify_rich_line_indices"]}
{"id": "C31", "title": "Median merging partitions the track", "statement": "Median merging terminates, replaces runs of consecutive points that lie within the tolerance of the run's first point by a single median point each, keeps order, and leaves all other points unchanged; the median is a middle element of the sorted values.", "quantifier": "every track and positive tolerance", "why_tests_cant": "all clusterings of all point sequences", "anchors": ["src/library/include/geometry/algorithm/median.hpp", "src/library/include/geometry/algorithm/median_merge.hpp"]}
{"id": "C32", "title": "Cutting a line by distances yields the piece between them", "statement": "The substring between two distances from..to is the line from the point at distance from to the point at distance to; its interior points are exactly the original points strictly in between, and invalid ranges yield an empty line.", "quantifier": "every line and every pair of distances", "why_tests_cant": "boundary cases at vertices for every line", "anchors": ["src/library/include/geometry/algorithm/substring.hpp: substring, substring_from, substring_to"]}
{"id": "C33", "title": "Comparing a match with the ground truth accounts for every segment", "statement": "The alignment terminates and attributes every ground truth segment to exactly one of correct or missed and every match segment to exactly one of correct or added (after reconciliation of reversals), with equal segments paired.", "quantifier": "every pair of segment sequences", "why_tests_cant": "alignment over arbitrary repetitions and reversals", "anchors": ["src/library/include/geometry/algorithm/compare.hpp: _compare, _detect_reverse, _find_merge"]}
{"id": "C34", "title": "Comparison scores are in range and exact at the extremes", "statement": "The correct fraction is always in [0,1]; identical inputs score correct 1 and error 0; a comparison against an empty match scores correct 0 and error 1; error 0 implies correct 1.", "quantifier": "every pair of segment sequences and lengths", "why_tests_cant": "ranges over all inputs including empty and zero-length ones", "anchors": ["src/library/include/geometry/algorithm/compare.hpp: _compare"]}
{"id": "C35", "title": "Memoised distances and azimuths equal direct computation", "statement": "A distance or azimuth query returns the value of the direct computation whatever queries came before it in the same thread.", "quantifier": "every history of queries", "why_tests_cant": "cache content depends on unbounded history", "anchors": ["src/library/include/geometry/algorithm/distance.hpp", "src/library/include/geometry/algorithm/azimuth.hpp", "src/library/src/geometry/cache.cpp"]}
{"id": "C36", "title": "Tag identifiers are stable, unique and decodable even when memory runs out", "statement": "Interning a key/value pair returns an identifier that decodes to the same pair now and after any further interning; equal pairs get equal identifiers, different pairs different ones; this also holds when allocation fails at any point and the call is retried after growing.", "quantifier": "every history of interning, every allocation failure point", "why_tests_cant": "failure points inside the multi-map update cannot be enumerated by tests", "anchors": ["src/library/include/io/helper/tag_helper.hpp: id, tag"]}
{"id": "C37", "title": "Every queued task is executed exactly once before join returns", "statement": "With at least one worker, for every interleaving of producers, coordinator and workers, each task accepted by the queue is executed exactly once, at most the configured number is in flight, no deadlock occurs, and after stop and join all accepted tasks have been executed.", "quantifier": "every number of threads, queue size, task list and schedule", "why_tests_cant": "schedules are unbounded and not controllable in tests", "anchors": ["src/library/include/util/coordinator.hpp: queue, stop, join, _start"]}
{"id": "C38", "title": "Matches and ground truths are paired by identifier in any arrival order", "statement": "For every arrival order, every identifier that occurs once on both sides is compared exactly once with its partner, and at the end each ground truth without match is compared once with an empty match (unless ignored); nothing else is compared.", "quantifier": "every interleaving of the two input streams", "why_tests_cant": "interleavings of two unbounded streams", "anchors": ["src/library/src/compare/comparator/comparator_forwarder_matches.cpp", "src/library/src/compare/comparator/comparator_forwarder_compares.cpp", "src/library/src/compare/comparator/comparator_forwarder_data.cpp"]}
{"id": "C39", "title": "Imported OSM nodes can be looked up whatever the input order", "statement": "After any sequence of node insertions, lookups find a node exactly when it was inserted, with the position given at its first insertion, even if nodes arrive unsorted or repeated; each used node yields exactly one graph vertex.", "quantifier": "every interleaving of node insertions and way lookups", "why_tests_cant": "input order is arbitrary", "anchors": ["src/library/include/io/helper/osm_handler_helper.hpp: add_node, contains_node, get_node, add_vertex", "src/library/include/io/network/osm_handler.hpp: node, way"]}
{"id": "C40", "title": "One-way tagging yields edges in the permitted directions only", "statement": "A way tagged as one-way yields edges along its node order only, a way tagged as reverse one-way yields edges against it only, any other way yields both; every consecutive pair of known nodes gives exactly these edges.", "quantifier": "every way and tag list", "why_tests_cant": "tag combinations and node lists are unbounded", "anchors": ["src/library/include/io/network/osm_handler.hpp: way, detect_oneway, keep", "src/library/include/io/network/osm_importer.hpp: oneway, oneway_reverse", "src/library/include/io/helper/osm_handler_helper.hpp: add_edge"]}
{"id": "C41", "title": "Filter rule strings mean what they say", "statement": "Parsing a rule string written from a list of rules gives back that list (results, keys, values), for all keys and values without separator characters; parsing terminates on every string.", "quantifier": "every rule list and every string", "why_tests_cant": "all strings", "anchors": ["src/library/include/io/network/osm_manual_importer.hpp: parse_rules, parse_bool"]}
{"id": "C42", "title": "Exported OSM elements have unique identifiers and describe the network", "statement": "In an exported file different points have different node identifiers, each network edge is represented by exactly one way in its direction or as the reverse of a two-way way, and no one-way edge is exported as two-way.", "quantifier": "every network", "why_tests_cant": "index assignment over all networks incl. isolated vertices", "anchors": ["src/library/include/io/network/osm_exporter.hpp: write, add_node, add_way"]}
{"id": "C43", "title": "Rows of result files line up with their header", "statement": "Every exported row has exactly one field per header column and the field under a column is the value of that column.", "quantifier": "every column list and result", "why_tests_cant": "column lists are arbitrary user input", "anchors": ["src/library/include/io/results/match/csv_match_exporter.hpp", "src/library/include/io/results/compare/csv_compare_exporter.hpp", "src/library/include/io/results/match/csv_candidates_exporter.hpp", "src/library/include/geometry/network/route/route.hpp: header, row", "src/library/include/geometry/track/track.hpp: header, row"]}
{"id": "C44", "title": "Networks given in several file groups are imported independently", "statement": "When several file groups are imported, every edge of a group joins the nodes that the same group defines for its end identifiers.", "quantifier": "every list of file groups", "why_tests_cant": "identifier clashes between arbitrary groups", "anchors": ["src/library/include/io/network/melbourne_importer.hpp: read", "src/library/include/io/network/giscup_importer.hpp: read", "src/library/include/io/network/arc_node_importer.hpp: read", "src/library/include/io/network/seattle_importer.hpp: read"]}
{"id": "C45", "title": "Point rows are assembled into one time-ordered track per identifier", "statement": "Reading point rows yields for every identifier (selected by the user) one track containing exactly its rows sorted by time; in grouped mode the same holds when rows of an identifier are contiguous.", "quantifier": "every row sequence", "why_tests_cant": "arbitrary interleavings of identifiers", "anchors": ["src/library/include/io/track/csv_track_importer.hpp: process_row, finish_import"]}
{"id": "C46", "title": "An edge-id list is turned into connected pieces of the requested edges", "statement": "For every list of known edge identifiers the importer terminates and emits consecutive pieces, each a connected chain of edges carrying the requested identifiers in order, each piece of maximal length from its starting step, together covering all steps.", "quantifier": "every network and every identifier list", "why_tests_cant": "search over all assignments of directed edges", "anchors": ["src/library/include/io/track/edges_list_importer.hpp: _parse_dispatch, _is_connected"]}
{"id": "C47", "title": "A reached time limit stays reached", "statement": "Once a time limit has been reported as reached it is reported as reached forever and the elapsed time is frozen; a non-positive limit is never reached.", "quantifier": "every history of clock readings and queries", "why_tests_cant": "clock readings are arbitrary", "anchors": ["src/library/include/util/time_helper.hpp", "src/library/src/util/time_helper.cpp"]}
{"id": "C48", "title": "Delimiter escapes are decoded faithfully", "statement": "Every delimiter character can be written in the escaped notation and is decoded to exactly the intended list of characters; both decoders agree.", "quantifier": "every string", "why_tests_cant": "all strings", "anchors": ["src/library/src/io/importer.cpp: parse_delimiter"]}
{"id": "C49", "title": "Angle and size helpers are correct on their whole range", "statement": "The angular difference of two azimuths lies in (-180,180] (resp. [-180,180]) and is congruent to their difference modulo 360; the next power of two is the least power of two not below its argument whenever that fits 64 bits.", "quantifier": "every pair of azimuths, every 64-bit value", "why_tests_cant": "continuous and 2^64 ranges", "anchors": ["src/library/include/geometry/common.hpp: angle_diff, next_pow2"]}
{"id": "C50", "title": "Coordinate system selection is consistent", "statement": "The chosen transformation reprojects exactly when the target differs from the source, and chaining a second transformation starts from the system in which the first one ends.", "quantifier": "every combination of option values", "why_tests_cant": "product of option values", "anchors": ["src/library/src/geometry/srs.cpp: compute_srs, compute_srs_transform, compute_next_srs_transform"]}
{"id": "C51", "title": "Removing defects removes only defective points", "statement": "Points with no detected defect survive defect removal; points with a removable defect are removed; the order of survivors is kept.", "quantifier": "every track and every detection outcome", "why_tests_cant": "all combinations of defect sets", "anchors": ["src/library/include/matching/algorithm/detect.hpp: detect, remove_defects"]}
{"id": "C52", "title": "Lines, segments and reversed lines convert without loss", "statement": "Converting a line with at least two points to segments and back gives the same line; two lines are reported as reversed exactly when one is the reverse of the other.", "quantifier": "every line", "why_tests_cant": "laws over all lists", "anchors": ["src/library/include/geometry/algorithm/convert.hpp: line2segments, segments2line, line2rich_segments, rich_segments2line", "src/library/include/geometry/algorithm/reverse.hpp: lines_are_reversed"]}
{"id": "C53", "title": "Retrying after allocation failure runs the operation a bounded number of times", "statement": "A retried operation is attempted at most retries+1 times, stops at the first success with that result, grows the storage after each failure, and throws exactly when all attempts fail.", "quantifier": "every failure pattern and retry count", "why_tests_cant": "failure patterns are unbounded", "anchors": ["src/library/include/io/memory_mapped/utils.hpp: retry_alloc"]}
{"id": "C54", "title": "Merging tags of two elements forms the union", "statement": "Merging the tags of one element into another leaves the first with its own tags in order followed by the other's missing tags, leaves the other and all further elements unchanged, and is idempotent.", "quantifier": "every tag map and pair of elements", "why_tests_cant": "all histories of merges", "anchors": ["src/library/include/io/helper/tag_helper.hpp: merge_map_tags, set_map_tags, map_tags"]}
{"id": "C55", "title": "Offered actions of the decision process can be taken safely", "statement": "Every action that the environment offers in a state it can reach can be taken: computing its reward reads only candidates and candidate edges that exist.", "quantifier": "every candidate sets, state size, history of steps and verdicts of the router", "why_tests_cant": "depends on how edge counts of consecutive candidates compare along arbitrary histories", "anchors": ["src/library/include/environment/environments/single.hpp: actions, step, _reward"]}
{"id": "C56", "title": "Distance of a point along a line", "statement": "distance_from and distance_to of a point give the length of the line from its start up to the place where the point lies on the line, or where it projects onto the line.", "quantifier": "for all lines without repeated points, all points and both search directions", "why_tests_cant": "The result depends on which of arbitrarily many segments the search settles on and on the correction to a neighbouring segment; tests only try a few lines and points.", "anchors": ["src/library/include/geometry/algorithm/substring.hpp:133-292"]}
{"id": "C57", "title": "Tags assigned while the memory-mapped storage has to grow are kept", "statement": "Setting, cloning or merging the tags of an element has the same result whether or not the storage runs out of space and grows during the call.", "quantifier": "for all tag maps, elements and allocation failure points", "why_tests_cant": "growth happens at sizes and moments that tests do not reach, and using memory of the old mapping may go unnoticed", "anchors": ["src/library/include/io/helper/tag_helper.hpp:288-438", "src/library/include/io/memory_mapped/utils.hpp:72-94"]}
{"id": "C58", "title": "Duplicate filtering removes adjacent equal points before matching", "statement": "With duplicate filtering switched on (the default), the track an environment matches is the given track without the points that equal their predecessor; switched off it is the given track.", "quantifier": "every track and both settings", "why_tests_cant": "whether the filter acts on the track that is matched shows only over all tracks and both environments; a matching result rarely differs visibly", "anchors": ["src/library/include/environment/environments/hmm.hpp: set", "src/library/include/environment/environments/single.hpp: set", "src/library/include/matching/algorithm/detect.hpp: detect, remove_defects"]}
{"id": "C59", "title": "Imported edges run between the positions of their nodes", "statement": "After importing a network from text files, the line of every edge begins at the position of its source node and ends at the position of its target node, whether or not the network is reprojected during the import.", "quantifier": "every content of the files and every transformation", "why_tests_cant": "the importers differ in where they reproject; only networks with a transformation set show the difference, and matching still produces some result", "anchors": ["src/library/include/io/network/melbourne_importer.hpp: read", "src/library/include/io/network/giscup_importer.hpp: read", "src/library/include/io/network/arc_node_importer.hpp: read", "src/library/include/io/network/seattle_importer.hpp: read"]}
{"id": "C60", "title": "Rows with different keys belong to different tracks", "statement": "When tracks are read from csv rows, two point rows whose key fields differ never end up in one track: with identifier fields the key is the list of the fields, with whole files as tracks it is the file, and without identifiers every row of every file is a key of its own.", "quantifier": "every list of files, rows, fields and settings", "why_tests_cant": "keys are joined into one string and looked up in one map; a collision shows only for particular combinations of field contents or for several files at once", "anchors": ["src/library/include/io/track/csv_track_importer.hpp: process_row", "src/library/src/io/csv_importer.cpp: read"]}
{"id": "C61", "title": "An edge list naming an unknown edge affects only its own file", "statement": "When several files with lists of edge identifiers are imported and one of them names an edge that the network does not have, that file is skipped with a message and the tracks of all other files are imported.", "quantifier": "every network and every list of files", "why_tests_cant": "the importer has a branch that announces exactly this behaviour; whether it can ever be reached is a question about all states of the map", "anchors": ["src/library/include/io/track/edges_list_importer.hpp: _parse_dispatch"]}
{"id": "C62", "title": "A GPX track is imported completely and in order of time", "statement": "For GPX files, exactly the selected tracks are passed on, once each, with one line per segment; a line has exactly the (reprojected) points of its segment, in order of their recorded times, and in the order of the file if they have no times.", "quantifier": "every list of files, every selection, every order std::sort may choose for equal times", "why_tests_cant": "numbers of tracks, segments and points are unbounded, and the order of equal elements in std::sort is not observable by a test on one platform", "anchors": ["src/library/include/io/track/gpx_track_importer.hpp: read, _parse_dispatch, _parse_track_segment", "src/library/src/io/importer.cpp: parse_time"]}
{"id": "C63", "title": "Tracks of GPX files have distinct identifiers", "statement": "No two tracks imported from GPX files in one run have the same identifier, so that their results can be told apart and compared with ground truths by identifier.", "quantifier": "every list of files and every combination of track and file names", "why_tests_cant": "collisions depend on combinations of names and counters over all files", "anchors": ["src/library/include/io/track/gpx_track_importer.hpp: _parse_dispatch"]}
{"id": "C64", "title": "A ground truth given as travelled roads is the line along these roads", "statement": "The Seattle ground truth importer passes on one track whose segments are exactly those of the travelled roads in order and direction of travel; routes over unknown roads or against a one-way direction are refused.", "quantifier": "every road network and every route", "why_tests_cant": "routes and networks are unbounded", "anchors": ["src/library/include/io/track/seattle_ground_truth_importer.hpp: _parse_dispatch"]}
{"id": "C65", "title": "Tracks typed in are numbered by line and independent of each other", "statement": "Of the lines read before the first blank line, exactly the well-formed ones yield a track each, in order, with the number of the line as identifier; a malformed line has no effect on the others; a list of points yields a track of these points in order.", "quantifier": "every sequence of lines", "why_tests_cant": "sequences of lines are unbounded", "anchors": ["src/library/include/io/track/input_importer.hpp: read, _parse_dispatch"]}
{"id": "C66", "title": "Trimming leaves out exactly the part travelled forth and back", "statement": "Trimming and merging two routes that meet gives a valid, connected route along the first and then the second route, without the longest part which the end of the first and the beginning of the second travel forth and back, and without the remaining tip if the way turns back there; the result has no dangling references. Routes that are invalid, without lines or do not meet are refused.", "quantifier": "every pair of routes, geometry and turn predicate", "why_tests_cant": "numbers of lines and points, repeated points and where the way back leaves the way forth are unbounded", "anchors": ["src/library/include/geometry/network/route.hpp: find_return_line, trim_merge"]}
{"id": "C67", "title": "The route between two candidates leads from one projection point to the other", "statement": "If the path of the network between the two edges exists, the route between two candidates is valid, connected and leads from the projection point of the first to that of the second: along the rest of the first edge, the path and the beginning of the second edge, with turns trimmed if turns within edges are allowed; on the same edge, it is the part of the edge in between. Nothing the route refers to is freed with intermediate results. Without a path it is invalid, at the same point it is empty.", "quantifier": "every network, path, pair of candidates, geometry and turn predicate", "why_tests_cant": "paths, lines and the ways they turn back are unbounded; lifetimes of referenced lines depend on which parts were cut", "anchors": ["src/library/include/matching/algorithm/route.hpp: candidate_route"]}
{"id": "C68", "title": "Exported edges are the edges the match travels along", "statement": "The list of edges of a route names, in the order of travel and without immediate repetitions, the edges its segments lie on: a segment that is a segment of the network is attributed to an edge that has it, any other segment to the touching edge with the closest direction. For a route along whole edges the list is exactly these edges, the exported geometry is their lines, and the exported identifiers are theirs in this order.", "quantifier": "every network, answer order of the spatial index, and route", "why_tests_cant": "the order in which the index answers, the number of edges at a node and the shape of routes are unbounded", "anchors": ["src/library/include/matching/algorithm/route.hpp: edges_list, export_edges_route, edge_ids", "src/library/include/geometry/network/network.hpp: fitting_edge, build_spatial_indices"]}
{"id": "C69", "title": "A match that was cut short by the time limit is always marked as aborted", "statement": "If the result of matching a track is not marked as aborted, every part of the track was matched as if there were no time limit and the match is the merge of the matches of the parts in their order. If it is marked as aborted, there is a time limit, the clock passed it, all parts before the last one with a result were matched in full and the later parts have no results.", "quantifier": "every track, time limit, sequence of clock readings, and every environment and learner that asks for the time any number of times", "why_tests_cant": "whether and where the limit strikes depends on the clock; every possible point in time would have to be tested", "anchors": ["src/library/include/matching/matcher.hpp: _match_impl", "src/library/include/util/time_helper.hpp: reached_max_duration, update_and_has_reached"]}
{"id": "C70", "title": "Evaluated lines and segments always carry the values of their points", "statement": "After any sequence of building, slicing, erasing, merging and assigning, an eagerly evaluated line answers length, azimuth, directions and absolute directions, and length, azimuth and direction at every position, as a plain line with the same points would; the operations return whenever the arguments are in range and merged lines meet. A segment taken from such a line, or built from two points, has the length and azimuth of its points.", "quantifier": "every sequence of operations on evaluated lines, every line and every geometry", "why_tests_cant": "the cached values depend on the whole history of the object; there are infinitely many histories", "anchors": ["src/library/include/geometry/rich_type/eager_rich_line.hpp", "src/library/include/geometry/rich_type/rich_line_data.hpp: _compute, _rebuild, _erase_and_replace", "src/library/include/geometry/rich_type/eager_rich_segment.hpp", "src/library/include/geometry/rich_type/lazy_rich_segment.hpp"]}
{"id": "C71", "title": "Length, azimuth and directions of a line in several parts do not depend on how it is divided or cached", "statement": "The length of a line in several parts is the sum over all segments of all parts, its azimuth is that from the first to the last point, and its directions are the sum of all changes of direction inside parts and between parts that meet. Joining parts that meet into one changes none of these values. Lazily evaluated lines answer like plain ones however often and in whatever order they are asked, and evaluated lines show the same values; has_directions tells whether directions returns. Exported parts contain every point and no empty part.", "quantifier": "every list of parts, every order of questions and every geometry with exact sums", "why_tests_cant": "there are infinitely many ways to divide a line and orders of questions", "anchors": ["src/library/include/geometry/rich_type/multi_rich_line.hpp: length, azimuth, directions, merge, multi_line", "src/library/include/geometry/rich_type/multi_rich_line_data.hpp: _compute", "src/library/include/geometry/rich_type/lazy_multi_rich_line.hpp", "src/library/include/geometry/rich_type/eager_multi_rich_line.hpp"]}
{"id": "C72", "title": "Likelier candidates and routes are the nearer and more similar ones, and the match found has the greatest sum", "statement": "For factors that are not negative, every weight of a candidate or route used by the hidden Markov model is the logarithm of a number above zero and at most one, or minus infinity exactly if there is no route. A nearer candidate never has a smaller weight. A route whose length is nearer to that of the track on the same side, whose azimuth is nearer and which turns less never has a smaller weight; a route exactly as long as the track has the best weight of a length. The chosen candidates have routes from each to the next and the greatest sum of weights among all such choices; nothing is matched exactly if there is none.", "quantifier": "every list of distances, every pair of routes and every track, all factors not negative", "why_tests_cant": "weights are functions of real numbers, and the number of choices is exponential", "anchors": ["src/library/include/environment/environments/hmm.hpp: set", "src/library/include/learning/algorithms/viterbi.hpp", "src/library/include/geometry/algorithm/direction.hpp"]}
{"id": "C73", "title": "Rewards of the decision process are never positive and prefer nearer candidates and more similar routes", "statement": "For factors that are not negative no reward of the decision process is positive. Nearer candidates, a length nearer to that of the track, a nearer azimuth and fewer turns never give a smaller reward; a route exactly as long as the track costs nothing for its length and any other length costs something; routes more than ten times as long as the track are skipped. Giving up later costs less by exactly the length of the track between.", "quantifier": "every step, every route and every track, all factors not negative", "why_tests_cant": "rewards are functions of real numbers", "anchors": ["src/library/include/environment/environments/single.hpp: _reward, _fail_reward"]}
{"id": "C74", "title": "A candidate divides its edge at the point of the edge nearest to the track point", "statement": "The projection of a candidate is the point of its edge nearest to the track point, or a point of the edge nearer to that than the tolerance; the distance of the candidate is the distance to the projection. The lines before and after the projection together run through exactly the points of the edge, meet in the projection and are together as long as the edge. The candidate does not depend on how long earlier searches took.", "quantifier": "every edge, every track point, every state of the measured times", "why_tests_cant": "which of two ways to look for near points is used depends on measured times; lines are arbitrary", "anchors": ["src/library/include/matching/algorithm/candidate_search.hpp: _process_candidate_query", "src/library/include/geometry/algorithm/substring.hpp"]}
{"id": "C75", "title": "Candidates of a point are complete, in order of distance and without repetition", "statement": "Each edge found by the search gives exactly one candidate if it has a length, and there are no other candidates; they are in order of distance. The nodes of the candidates are exactly the ends of their edges, each once, in order of distance. A point is marked exactly if the next one is equal. In mode NEXT the edges found stay, with each edge its reverse edges are added, and the edges at its ends are added if they are not farther away.", "quantifier": "every network, every set of edges found, every point", "why_tests_cant": "networks and sets of edges are unbounded", "anchors": ["src/library/include/matching/algorithm/candidate_search.hpp: _additions_next, _process_candidate_query, _finalize_candidates"]}
{"id": "C76", "title": "A mode does its work exactly once and the exit status says whether it did", "statement": "The program does the work of at most one mode, namely of the only one asked for, and only if its options are accepted. With valid options of one mode the work is done once and the exit status is 0; without mode, with several modes or an unknown one nothing is done. The exit status is 0 exactly if the work was done.", "quantifier": "every combination of modes, options and results of the parser", "why_tests_cant": "the combinations of options are many and scripts rely on the exit status", "anchors": ["src/app/src/app/global.cpp: mode", "src/app/src/app/options.cpp: process", "src/app/src/main.cpp: main"]}
{"id": "C77", "title": "Options given take effect, others follow the more general option or the default", "statement": "Every option given takes effect; memory mapping follows the most special option given; the search radius lies between its limits after correction; unknown names of searches, models and types of files are refused; the files of a network are different; an explicit type of file overrides the extension; options for times take effect.", "quantifier": "every combination of options, every list of files", "why_tests_cant": "combinations of options and names of files are unbounded", "anchors": ["src/app/src/app/options.cpp: correct", "src/app/src/app/settings.cpp: _csv_settings, _csv_tracks_settings, get_match_settings"]}
{"id": "C78", "title": "Every track read gives one row, and nothing is used after its destruction", "statement": "From the reader over the workers to the exporter: when the program ends, the file holds exactly one row for each track read; no thread uses the matcher, the comparator or their exporters after their destruction; destruction never waits for ever. A failure of a track or of the reader neither corrupts the rest nor goes unnoticed.", "quantifier": "every interleaving of reader, coordinators, workers and writers, every number of threads and tracks, every point at which the reader or a worker throws", "why_tests_cant": "interleavings are unbounded and the windows are a few instructions wide", "anchors": ["src/app/include/app/match.hpp: _start_matching", "src/app/src/app/compare.cpp: _start_comparison", "src/library/include/matching/matcher.hpp: ~matcher, execute", "src/library/include/util/coordinator.hpp"]}
{"id": "C79", "title": "Networks built in storage that grows hold exactly what the reader handed over", "statement": "When nodes and edges with tags are handed over and the mapped storage runs full at any allocation, the graph holds after the retries every node and edge exactly once, in order, with the tags handed over, as if it had been built in memory; a call that fails has added nothing; the program fails only if the storage ran full twice in a row; converting a graph to its immutable form tries until it fits.", "quantifier": "every sequence of calls, every point at which an allocation fails", "why_tests_cant": "the storage runs full at arbitrary points, in tests with small networks never", "anchors": ["src/library/include/io/helper/graph_helper.hpp: add_vertex, add_edge, convert_graph", "src/library/include/io/memory_mapped/utils.hpp: retry_alloc", "src/library/include/graph/adjacency_list.hpp"]}
{"id": "C80", "title": "A simplification interrupted by full storage gives the same network", "statement": "A simplification of a network that is interrupted because the mapped storage is full, and resumed after the storage has grown, gives the same network as an uninterrupted one, whatever the number and place of the interruptions; no road is lost.", "quantifier": "every well-formed network, every place of the interruptions", "why_tests_cant": "the storage runs full at arbitrary points, in tests with small networks never", "anchors": ["src/library/include/io/helper/graph_helper.hpp: simplify", "src/library/include/geometry/network/network_import.hpp: simplify, _merge"]}
{"id": "C81", "title": "The files of a network are what was prepared, or are refused", "statement": "After a completed preparation the directory holds, whatever was in it before, exactly the prepared network: matching with the same options opens the tags, indices and graph prepared; nothing else in the directory is touched and no temporary file is left, also if the preparation ends with an exception. If the preparation is interrupted at any point, the directory holds the old network, the new one, or one that is refused; networks of another version, compiler, kind of storage or coordinate system are refused.", "quantifier": "every network, every initial directory, every point of interruption, every combination of mapped and serialized parts", "why_tests_cant": "tests prepare into empty directories and are not interrupted", "anchors": ["src/app/include/app/prepare.hpp", "src/app/include/app/network.hpp: save_network, load_network", "src/library/include/io/memory_mapped/storage/base_storage.hpp", "src/library/include/io/serialization/serializer.hpp", "src/library/include/io/serialization/deserializer.hpp"]}
{"id": "C82", "title": "The match is one continuous line along the routes between the chosen candidates", "statement": "If consecutive chosen candidates are linked by the network, the match is valid and connected, leads from the projection point of the first candidate to that of the last through all others along the routes between them, has no segment off the road, and its length is the sum of theirs; removing joints changes neither the way nor its length. Where something was skipped or no route exists, the match is interrupted and nothing bridges the gap. Everything the match refers to is alive. The match of several tracks consists of their matches in order.", "quantifier": "every network, every policy, every choice of options", "why_tests_cant": "the joins depend on the geometry at every joint and on what was skipped before; tests match single tracks", "anchors": ["src/library/include/matching/algorithm/route.hpp: candidates_route", "src/library/include/geometry/network/route.hpp: join, merge", "src/library/include/geometry/network/network.hpp: point_in_edges", "src/library/include/matching/matcher.hpp"]}
{"id": "C83", "title": "The spatial indices hold the whole network, and queries on them find it", "statement": "After build_spatial_indices has returned, the point index holds every vertex and the segment index every segment of every edge, each exactly once and nothing else, whatever allocations failed on the way (in memory or in memory-mapped storage with retries); with enough free disk space every failed allocation in mapped storage is made good. On these indices find_node/find_edge return exactly the vertices/edges with an identifier, point_in_nodes finds a point if and only if a vertex is there, point_in_edges names a segment ending at the point, query_segments_unique returns exactly the edges with a segment in the region, each once, and for k nearest queries no edge left out is nearer than a segment chosen.", "quantifier": "all networks (vertices, edges with any number of points), all sequences of failing allocations, all sizes of storage and free space, all query points and regions, every answer the R-tree may give in any order", "why_tests_cant": "Failing allocations in memory-mapped storage depend on disk sizes and cannot be enumerated; completeness and absence of duplicates is a claim about every network, and ties of an R-tree are resolved arbitrarily.", "anchors": ["cpp/src/geometry/network/network.hpp: build_spatial_indices, point_in_nodes, point_in_edges, find_node, find_edge, query_segments_unique", "cpp/src/io/helper/index_build_helper.hpp", "cpp/src/io/helper/index_helper.hpp", "cpp/src/io/memory_mapped/storage/index_build_storage.hpp", "cpp/src/io/memory_mapped/storage/index_storage.hpp"]}
{"id": "C84", "title": "The lines printed and the file left by a run account for every result", "statement": "With verbose output one numbered line per track, match or comparison is printed with its own numbers, and a last line with the number of results and the sums of all numbers, independent of the order in which they end; on the console the texts of all results in order and nothing else. The weighted fractions printed for all comparisons lie in their range, are those of the comparison if there is only one, and between the least and greatest fraction otherwise. Without the console the file holds the names of the columns and one row per result; with the console no file is touched.", "quantifier": "all lists of results in any order, all combinations of console and verbose, all names of files and folders, any previous content of the file", "why_tests_cant": "Sums and means are claims about every list of results; a test with few results of equal length does not show that a weighted mean leaves the range of the values, and tests do not look at the file when the console is used.", "anchors": ["cpp/src/io/results/results_output_printer.hpp", "cpp/src/io/results/match/match_output_printer.hpp", "cpp/src/io/results/compare/compare_output_printer.hpp", "cpp/src/io/results/track/track_output_printer.hpp", "cpp/src/io/results/track/csv_track_exporter.hpp", "cpp/src/io/file_exporter.cpp", "cpp/src/io/track/track_exporter.cpp"]}
{"id": "C85", "title": "Asking the index for a box misses nothing within the radius", "statement": "Candidate search, adoption of candidates nearby, median merging and the comparison of lines first ask a spatial index for everything that meets the box around a point (buffer_box) and then keep what is within the distance. The box contains every point within the radius, so this gives exactly the edges, candidates and points within the radius; in mode CIRCLE the search ends with exactly the edges within the radius finally used. The box around a segment contains everything within the radius of the segment. For radii that are not positive buffer_box throws.", "quantifier": "all points, radii, segments, networks with complete indices, answers of the index in any order, settings of the search; on the globe all latitudes and radii whose circle does not reach a pole", "why_tests_cant": "A test places a few points around a few centres; an edge lost because it lies at the rim of the circle but outside the box shows only for particular latitudes and distances, and never as an error.", "anchors": ["src/library/include/geometry/algorithm/buffer.hpp:37-133", "src/library/include/matching/algorithm/candidate_search.hpp:122-137", "src/library/include/matching/algorithm/candidate_search.hpp:450-459", "src/library/include/geometry/algorithm/median_merge.hpp:64-76", "src/library/include/geometry/algorithm/compare.hpp:610-632", "src/library/include/geometry/algorithm/distance.hpp:24-36"]}
{"id": "C86", "title": "Choosing between edge and index by measured times is well defined", "statement": "Candidate search remembers how long it took to look at the points of an edge and to ask the index, and adapts the number of points from which on it asks the index (_edge_size_switch). Whatever times are measured, this number is at least 2 and stays bounded, nothing undefined happens, it changes in the direction of the faster way, networks whose edges have at most 16 points never use the index, and the results are the same on fast and slow machines.", "quantifier": "all sequences of edges with any numbers of points and any measured times, in every order", "why_tests_cant": "The times differ between runs and machines and cannot be chosen by a test; a clock that reports zero elapsed time or unlucky ratios occur on other machines only.", "anchors": ["src/library/include/matching/algorithm/candidate_search.hpp:77-79", "src/library/include/matching/algorithm/candidate_search.hpp:229-293", "src/library/include/util/benchmark.hpp:24-34"]}
{"id": "C87", "title": "Points keep their place when they are read or written", "statement": "Every point read from tracks, networks or edge lists is stored with the coordinates that its place has in the chosen target system, every point written to an OpenStreetMap file with those in longitudes and latitudes; lines keep the number and order of their points, and no point is left without coordinates. Tracks are only matched with networks, and matches only compared with ground truths, in the same coordinate system.", "quantifier": "every combination of source and target systems, every point and line", "why_tests_cant": "nine combinations of types times codes, chosen partly at compile time and partly at run time; a mismatch compiles and silently does nothing", "anchors": ["src/library/include/geometry/algorithm/reproject.hpp: reproject_point, reproject_line, reproject_multi_line", "src/library/include/geometry/algorithm/srs_dispatch.hpp", "src/library/include/io/helper/osm_handler_helper.hpp: add_node", "src/library/include/io/network/*_importer.hpp", "src/library/include/io/network/osm_exporter.hpp", "src/library/include/matching/matcher.hpp: _match_dispatch"]}
{"id": "C88", "title": "Lengths and directions of plain lines and of their segments agree", "statement": "The directions of a line are the sum of its changes of direction, one for each inner point, and up to full turns the angle between its first and last segment; the absolute directions bound them and are at most 180 degrees per inner point; the functions that compute both at once, from segments or from given azimuths return the same, and the length of a line is the sum of the lengths of its segments.", "quantifier": "every line, every azimuth function, with and without given azimuths", "why_tests_cant": "agreement of seven functions over all lines, including those without segments", "anchors": ["src/library/include/geometry/algorithm/direction.hpp", "src/library/include/geometry/algorithm/azimuth.hpp", "src/library/include/geometry/algorithm/length.hpp"]}
{"id": "C89", "title": "Counting allocators report the bytes in use", "statement": "At any time the number of bytes a counter reports is the number of bytes allocated and not yet released through the allocators sharing it, whatever requests failed, however blocks were obtained and released, and in whatever order threads get to it; when everything is released it is zero.", "quantifier": "every sequence of operations on any number of counters and allocators", "why_tests_cant": "invariant over all allocation histories including failures, chains, resizing and exchanged containers", "anchors": ["src/library/include/io/allocator/allocation_counter.hpp", "src/library/include/io/allocator/thread_safe_allocation_counter.hpp", "src/library/include/io/allocator/counting_allocator.hpp", "src/library/include/io/allocator/counting_polymorphic_allocator.hpp", "src/library/include/io/memory_mapped/allocator/counting_interprocess_allocator.hpp"]}
{"id": "C90", "title": "The import profiles keep the ways they describe", "statement": "The profile for cars imports exactly the visible ways with a highway tag other than the nine kinds not for cars, in the tagged directions, and ignores the filter texts; the manual profile imports exactly the ways with a tag the query accepts and no tag the filter rejects, where every accepted filter text has the meaning of its notation (first matching rule, otherwise the default); other profiles and texts outside the notation are refused.", "quantifier": "every option value, every text, every file", "why_tests_cant": "texts, tag lists and files are unbounded", "anchors": ["src/app/src/app/options.cpp: prepare_osm_import_data::correct", "src/app/include/app/prepare.hpp: _import_osm", "src/library/include/io/network/osm_car_importer.hpp: query, filter", "src/library/include/io/network/osm_manual_importer.hpp: create_tags_filter", "src/library/include/io/network/osm_pattern.hpp: OSM_TAGS_FILTER_PATTERN"]}
{"id": "C91", "title": "Points can serve as keys, and measurements and tracks are put in order", "statement": "The operators of points form one total order, lexicographic in the coordinates, and equal points have equal hashes; measurements compare by time; sorting tracks keeps all of them and orders them by their number of points; a track made from coordinates has exactly the points they name.", "quantifier": "all points, measurements, lists of tracks and of coordinates", "why_tests_cant": "transitivity, totality and agreement with hashing range over all triples of points", "anchors": ["src/library/include/geometry/point.hpp: hash_value_impl, equals_impl, less_impl, operators", "src/library/include/geometry/track/measurement.hpp: operators", "src/library/include/geometry/track/multi_track.hpp: sort_tracks", "src/library/include/geometry/track/track.hpp: sort_tracks, create_track"]}
{"id": "C92", "title": "Q-learning returns a whole policy that it can walk", "statement": "Whatever is drawn at random and whenever the time is up, training is defined and ends; the policy returned belongs to a walk from the start to the end whose actions are all offered where they are taken; training breaks off only after the given number of attempts without a better one; settled estimates stay and lead to the walk with the greatest discounted return.", "quantifier": "all decision processes, settings, sequences of random draws, answers of the clock", "why_tests_cant": "random draws, episodes and times at which the limit strikes cannot be enumerated", "anchors": ["src/library/include/learning/algorithms/q_learning.hpp: operator()"]}
{"id": "C93", "title": "Lines stay lines when they are prepared for a comparison", "statement": "Before two lines are compared, a point of a line with points of the other line nearer than the tolerance becomes the nearest of these, and no other point changes; the line stays connected. Splitting keeps the start and the end of a line and adds only points of the other line. The parts reported as correct, missing or additional are exactly the aligned segments that have a length, and the sums reported are their lengths.", "quantifier": "all connected lines, tolerances, distance functions", "why_tests_cant": "points of two lines can be near each other in any combination and order; tests compare a few pairs of lines", "anchors": ["src/library/include/geometry/algorithm/compare.hpp: _adapt_points", "src/library/include/geometry/algorithm/compare.hpp: _split_segments", "src/library/include/geometry/algorithm/compare.hpp: _compare"]}
{"id": "C94", "title": "The match of a track is the route over its best candidates", "statement": "If for each point of a track a candidate can be chosen such that each is reachable from the one before, matching with the hidden Markov model returns the route over a choice of this kind that has the greatest sum of weights among them. The route is connected, starts at the projection of the first point and ends at that of the last, consists of pieces of edges in the direction of travel, and is as long as the distances over shortest paths from candidate to candidate together. If no such choice exists, the match is empty.", "quantifier": "all networks, tracks, candidates, weights; any order in which the searches proceed", "why_tests_cant": "the whole from candidates over routing and decoding to the merged route has to agree for all networks and tracks; tests of the parts do not show this", "anchors": ["src/library/include/matching/matcher.hpp: match", "src/library/include/matching/algorithm/route.hpp: candidates_route", "src/library/include/environment/environments/hmm.hpp: _transition_probability", "src/library/include/learning/algorithms/viterbi.hpp: operator()"]}
{"id": "C95", "title": "Every option reaches its setting, and the command line wins over the file", "statement": "After options have been read, each setting of a match or comparison has the value given for the option of that name on the command line, else the value in the configuration file, else the documented default, whatever other options are given and in whatever order. No two options of a mode share a name, a letter or a destination. While the mode is being found out, no option of a mode or abbreviation of one is taken for another option. The configuration file can hold settings for all options. A run needs the files and the output of a preparation and the input of a match to be given, in either place, and no other option.", "quantifier": "all command lines with names and values, all configuration files, all modes", "why_tests_cant": "about a hundred options in three tables are copied by hand twice on the way to the settings; tests set a few of them, one source at a time", "anchors": ["src/app/src/app/options.cpp: options_match, options_compare, options_prepare, parse_cli, parse_file, process", "src/app/src/app/settings.cpp: _match_settings, _compare_settings, _csv_settings"]}
{"id": "C96", "title": "Learners on the environment find the best plan", "statement": "Value iteration and policy iteration, run on an environment that numbers states only as they are met and remembers results, come to an end, never read outside their vectors, and return what is noted along a plan: at each point one of its candidates is taken, and the connection is given up only where the route to the chosen candidate is refused. If rewards are never positive, no plan has a greater discounted return than the one followed, up to the threshold for each step.", "quantifier": "all numbers of points and candidates, all rewards and verdicts on routes, all discounts and thresholds, both values of skip_errors", "why_tests_cant": "the number of states and the order in which they are numbered depend on all routes; that value vectors indexed by these numbers hold what the optimality argument needs is an invariant over all executions", "anchors": ["src/library/include/learning/algorithms/value_iteration.hpp: generate_states, operator()", "src/library/include/learning/algorithms/policy_iteration.hpp: operator()", "src/library/include/environment/environments/single.hpp: step, actions, _reward"]}
{"id": "C97", "title": "A match by the decision process, from candidates to lines", "statement": "Matching a track with value iteration or policy iteration comes to an end with a route for a tour: one candidate of each point that has some, connected from each to the next by a shortest route of at most ten times the length of the track; the connection is given up only where the next point has no candidates or a candidate was tried that cannot be reached or only by a longer route. The route consists of one stretch for each connected part, from the projection of its first candidate to that of its last, along pieces of edges in their direction. No plan, and in particular no connected choice of near candidates, has a greater discounted return beyond the threshold for each step. If all points can be connected, the match is connected.", "quantifier": "all networks, tracks, lists of candidates, factors, discounts and thresholds", "why_tests_cant": "combines all parts of the matcher; optimality over exponentially many plans, and exhaustiveness of the reasons for which a connection is given up", "anchors": ["src/library/include/matching/matcher.hpp: match", "src/library/include/environment/environments/single.hpp: step, _reward, _fail_reward", "src/library/include/learning/algorithms/value_iteration.hpp: operator()", "src/library/include/matching/algorithm/route.hpp: candidates_route"]}
{"id": "C98", "title": "From the ways of the files to the network, and to matches along them", "statement": "A network prepared from OpenStreetMap files consists of the passages that the ways of the files permit, in the permitted directions: every segment of an edge is a permitted passage between two nodes at their points in the files; unless components are removed, every permitted passage is a segment of an edge, as often as ways permit it; vertices are different nodes of the files. Routes along the edges are permitted drives, of the same length, and the shortest distances between nodes of the network are those of the files. Preparing never fails on readable files. A match on the network is invalid or runs along permitted passages in the permitted directions.", "quantifier": "all sequences of nodes and ways, filters, combinations of simplification and removal options, tracks, candidates and bounds of searches", "why_tests_cant": "composition of import, four optional graph rewrites, compression and matching over arbitrary files; absence of added or lost roads in both directions", "anchors": ["src/app/include/app/prepare.hpp: _import_network, _simplify, _remove_unconnected, _remove_duplicate_nodes, _remove_duplicate_edges, _compress", "src/library/include/io/helper/osm_handler_helper.hpp: add_edges", "src/library/include/geometry/network/network_import.hpp: simplify, remove_unconnected_components, remove_duplicate_nodes, remove_duplicate_edges", "src/library/include/io/helper/graph_helper.hpp", "src/library/include/matching/matcher.hpp: match"]}
{"id": "C99", "title": "Simplification leaves nothing to simplify", "statement": "After complete simplification no node of the network is a mere passage: there is none with a single edge to it and a single edge from it, from and to different nodes, and none where two two-way roads to different neighbours meet and nothing else. Simplifying again changes nothing. This holds of prepared networks, whatever the order of nodes and ways in the files.", "quantifier": "all well-formed networks, all orders of vertices and edges, all files", "why_tests_cant": "one pass over the vertices while merges change their neighbours; a vertex that was visited could become a passage later", "anchors": ["src/library/include/geometry/network/network_import.hpp: simplify, _is_mergeable, _populate_merges, _merge", "src/app/include/app/prepare.hpp: _simplify"]}
{"id": "C100", "title": "A storage belongs to one object at a time", "statement": "Storages (of graphs, indexes, imports, tags) can be created, opened, written, grown, moved and closed in any order. Each mapping of a file has exactly one owner; the owner reads what was last written, and what happens to one storage never changes or removes the file of another. When all storages have gone, nothing is mapped, no temporary file is left and every permanent file is there with its last content. In memory, the counter of the memory in use outlives everything it counts, and nothing is left at the end.", "quantifier": "all sequences of operations on any number of storages, all contents and sizes", "why_tests_cant": "the order of moves, growth and destruction is arbitrary; leaks and dangling pointers show only much later, if at all", "anchors": ["src/library/include/io/memory_mapped/storage/base_storage.hpp: memory_mapped_container", "src/library/include/io/memory_mapped/storage/index_build_storage.hpp: memory_mapped_index_build_storage, memory_index_build_storage", "src/library/include/io/memory_mapped/storage/graph_storage.hpp", "src/library/include/io/memory_mapped/storage/index_storage.hpp", "src/library/include/io/memory_mapped/storage/osm_handler_storage.hpp", "src/library/include/io/memory_mapped/storage/tag_storage.hpp"]}
{"id": "C101", "title": "A copy of a mutable graph is the same graph", "statement": "Copying a mutable graph (copy construction, assignment, copy_from with a map of the caller) yields the same graph with its own descriptors: the same vertices and edges with their data in the same order, and at each vertex the same edges out and in, in the same order. The copy is coherent and numbered, and the map leads from the number of each vertex to its copy. Moving keeps the graph.", "quantifier": "all histories of insertions (failed or not), removals and reindexing; directed, undirected and bidirectional graphs; all maps", "why_tests_cant": "edges find their ends through numbers that removals make stale; a wrong copy is a valid graph and nothing fails", "anchors": ["src/library/include/graph/adjacency_list.hpp: copy_from, adjacency_list(const adjacency_list &), operator=, adjacency_list(adjacency_list &&, const allocator_type &), reindex"]}
{"id": "C102", "title": "The match is the best among the roads near the points", "statement": "For each point of a track, every road of the network within the search radius is considered, at the place where the point projects onto it, once, in order of distance; with an adaptive radius the radius is that of the point, grown only as far as needed and never past the upper limit. The match then has a sum of weights at least as large as any choice of roads near the points, one each, that can be travelled one after another. Where no road is within the upper limit of any point there are no candidates and no match.", "quantifier": "all networks, all tracks, all radii and limits, modes CIRCLE, COMBINED, NEAREST and NEXT, with adoption of nearby candidates and siblings", "why_tests_cant": "a road that was not considered leaves no trace: the match is plausible but not the best", "anchors": ["src/library/include/matching/algorithm/candidate_search.hpp: _candidate_search_individual, candidate_search", "src/library/include/geometry/network/network.hpp: query_segments_unique", "src/library/include/matching/matcher.hpp"]}
{"id": "C103", "title": "From files and points to a match along permitted passages", "statement": "A network is prepared from OpenStreetMap files, candidates for the points of a track are searched on it and the track is matched. The whole never fails. The match is invalid or runs along passages that the files permit, in the permitted directions. If near each point there is a road such that by the files one may drive from each to the next, the match is a connected route that is at least as good as the one along these roads. Where no road is near any point there is no match.", "quantifier": "all sequences of nodes and ways, filters, combinations of simplification and removal options, tracks, radii and limits, modes of the search for candidates, bounds of the searches for routes", "why_tests_cant": "composition of import, graph rewrites, spatial search, shortest paths and decoding over arbitrary files and tracks; a match along a forbidden passage or one that misses a permitted one looks plausible", "anchors": ["src/app/include/app/prepare.hpp: _import_network, _simplify, _remove_unconnected, _remove_duplicate_nodes, _remove_duplicate_edges, _compress", "src/library/include/matching/algorithm/candidate_search.hpp: candidate_search", "src/library/include/matching/matcher.hpp: _match_impl", "src/library/include/learning/algorithms/viterbi.hpp", "src/library/include/learning/algorithms/value_iteration.hpp"]}
{"id": "C104", "title": "Routes are values: copies are independent and no route refers to lines that are gone", "statement": "Routes own some of their lines and refer to others. Whatever is done with them (made from references or own lines, copied, moved, assigned, merged, joined, destroyed), each route reads afterwards exactly the lines it has as a plain sequence of lines. A copy keeps its lines when the original is changed or destroyed, a merged route keeps them when its parts are gone, a route moved from is empty, assignment of a route to itself changes nothing, a merge that is refused leaves no route. No reading of a route that exists follows a reference to a line that is gone.", "quantifier": "all sequences of operations on all numbers of routes, all lines of the network", "why_tests_cant": "a dangling reference usually reads the right lines until the storage is used again; the orders of copies, moves and destructions are unbounded", "anchors": ["src/library/include/geometry/network/route/route.hpp: route constructors, operator=, _copy_rich_lines, _move_rich_lines, merge, join, sub_route, _check_references"]}
{"id": "C105", "title": "Learning on the environment itself: what Q-learning returns is a trip through it", "statement": "Q-learning runs on an environment that numbers states and remembers results as it goes, and that tries all actions of a state before it offers them (intelligent_action). Asking for actions changes neither the state nor the set of actions, and offers them in the order of the rewards that steps with them give. The policy returned is what is written for a whole trip through the environment: from a reset, each step with an action offered where it is taken, to the step that reports the end. Every entry names an existing candidate and one of its edges, candidates never go back. Training that breaks off does so only after improvement_stop trips without a better sum of rewards. Learning is always defined.", "quantifier": "all numbers of candidates and edges, all answers of router and geometry (also changing ones), all random draws, all orders of equal rewards, all moments at which the time is up", "why_tests_cant": "states are numbered in the order in which they happen to be reached and rewards are cached, so what the learner sees depends on the whole history of draws; a test sees a few seeds", "anchors": ["src/library/include/learning/algorithms/q_learning.hpp: q_learning::operator()", "src/library/include/environment/environments/single.hpp: actions, _intelligent_actions, step, reset, _internal2state"]}
{"id": "C106", "title": "A match by Q-learning, from candidates to lines", "statement": "Matching a track with Q-learning comes to an end with a route, whatever is drawn and whenever the time is up. With enough episodes, or if the time is up during training, or if learning wrote a policy at all, the route is that of a tour: one candidate of each point that has some, connected from each to the next by a shortest route of at most ten times the length of the track, and given up only where the next point has no candidates or a candidate was tried that cannot be reached or only by a longer route; one stretch of lines for each connected part, along pieces of edges in their direction. From some number of episodes on, which depends only on the track, its candidates and improvement_stop, learning always breaks off by itself. The sums of rewards by which it breaks off are returns of plans that can be carried out, none greater than that of the plan policy iteration finds without discount. Without a policy or candidates the match is invalid.", "quantifier": "all networks, tracks and candidates, all factors, learning rates and discounts, all random draws and orders of equal rewards, all moments at which the time is up", "why_tests_cant": "the seed is the system clock, so that no run can be repeated; a test sees a few draws on a few tracks, and whether learning breaks off at all is a statement on all sequences of draws", "anchors": ["src/library/include/learning/algorithms/q_learning.hpp: q_learning::operator()", "src/library/include/environment/environments/single.hpp: step, _reward, result", "src/library/include/matching/matcher.hpp: _match_impl", "src/library/include/matching/algorithm/route.hpp: candidates_route"]}
{"id": "C107", "title": "From recorded parts of a track to one match", "statement": "A track recorded in several parts is matched part by part with the hidden Markov model: each part is prepared as the settings say (points left out only within the tolerance of the segment between those kept around them, first and last kept; runs of points within the distance of their first replaced by their median), candidates are searched for the prepared points, decoded, and connected. With usable settings this never fails, whatever the points are. Whatever the clock says, the result consists of the lines of the first parts in order, each exactly as if it were matched alone and without a time limit; parts are left out only if the result is marked as aborted, and it is marked only if the clock passed the limit. The match of each part is invalid or a connected route along edges in their direction (for a network prepared from files: along passages the files permit), and the whole is invalid only if all these are. No choice of candidates of a part, in particular not the projections on drivable roads near its prepared points, has a greater sum of weights than the one its match is for. Parts do not influence each other.", "quantifier": "all networks and files, all tracks and ways to divide them into parts, all preparation and search settings, all readings of the clock, all time limits", "why_tests_cant": "the steps are tested one by one if at all; what they give together depends on every point of every part and on the moments at which the clock is read", "anchors": ["src/library/include/environment/environments/hmm.hpp: set, result", "src/library/include/learning/algorithms/viterbi.hpp: viterbi::operator()", "src/library/include/matching/matcher.hpp: _match_impl", "src/library/include/matching/algorithm/candidate_search.hpp: candidate_search"]}
{"id": "C108", "title": "Recorded parts of a track matched by the decision process and by Q-learning", "statement": "A track recorded in several parts is matched part by part by value iteration, policy iteration or Q-learning (errors skipped or not, routes searched with or without a bound). Each part can be prepared and its candidates are found; with enough rounds and, for Q-learning, enough episodes, its match is invalid only if it has no candidates or goes nowhere, and otherwise the route for a tour that has one candidate of each point that has some, whatever numbers are drawn; value iteration is within its threshold for each step of the best return, policy iteration is best. Whatever the clock says, the result is defined, refers to living lines only and consists of the lines of the first parts in order, each as if it were matched alone and without a time limit, then of at most one more: with value and policy iteration that is the match of the next part or nothing, with Q-learning possibly the route for another tour of it. Parts are left out only if the result is marked as aborted, and it is marked only if the clock passed the limit. On a network prepared from files, unless turns within edges are trimmed, all segments are on passages the files permit. Without a limit parts do not influence each other.", "quantifier": "all networks and files, all tracks and ways to divide them into parts, all preparation, search and learning settings that can be used, all numbers drawn, all readings of the clock, all time limits", "why_tests_cant": "learning is random and interrupted at moments that depend on the clock; a test sees one run of one learner on one track", "anchors": ["src/library/include/environment/environments/single.hpp: set, init, result", "src/library/include/learning/algorithms/value_iteration.hpp: operator()", "src/library/include/learning/algorithms/policy_iteration.hpp: operator()", "src/library/include/learning/algorithms/q_learning.hpp: operator()", "src/library/include/matching/matcher.hpp: _match_impl"]}
{"id": "C109", "title": "A comparison run gives one row for each ground truth", "statement": "When a run of the comparison ends, the file holds exactly one row for each ground truth read: the comparison with the match of the same identifier, or with an empty match unless that is to be ignored, which counts as wrong altogether with the whole length missed. Matches without ground truth give no row. The fractions of every row are in range, tracks compared with themselves are correct without error, and only the segments of a line count, not how it is divided into parts. Files of other kinds are refused before anything is compared.", "quantifier": "for all ground truths and matches in any order and with any identifiers, all lines in any number of parts, all tolerances, all numbers of threads and all schedules", "why_tests_cant": "The rows depend on the interleaving of reader, coordinator and workers, on the identifiers of all tracks and on the division of all lines; tests run few schedules on few tracks and do not notice rows that are missing.", "anchors": ["src/app/src/app/compare.cpp: _read_compares, _start_comparison", "src/library/include/compare/comparator.hpp: _compare_impl", "src/library/src/compare/comparator.cpp: _compare_dispatch", "src/library/include/geometry/algorithm/compare.hpp: compare"]}
{"id": "C110", "title": "A network prepared by one run is the network a later run matches with", "statement": "After a preparation that ran to its end, a later run of the same program with the same options opens exactly the graph its input files describe, with an index that holds every segment of every edge: searches find exactly the edges of that graph, every edge found can be looked up, and matches lead only along passages that the input permits. It does not matter what the directory held before, which parts are memory mapped or serialised, or how often storage had to be enlarged. A run that ended while it still read its input leaves the network of before, a repeated complete run repairs whatever another left, other versions and other options are refused.", "quantifier": "for all input files, filters and processing steps, all contents of the directory, all choices of storages and archives, all failures of allocations, all points at which an earlier run ended, all tracks and all search modes", "why_tests_cant": "Graph, index and tags are written one after the other into separate files that refer to each other by position only; whether they fit together depends on the input, on the former contents and on the point at which a run ends, and tests open the files of few complete runs.", "anchors": ["src/app/include/app/prepare.hpp: _import_network, _finish_preparation", "src/app/include/app/network.hpp: save_network, load_network", "src/app/src/app/network.cpp: open_network", "src/library/include/geometry/network/network.hpp: build_spatial_indices, query_segments_unique", "src/library/include/matching/algorithm/candidate_search.hpp: _candidate_search_individual"]}
{"id": "C111", "title": "Segments have the points they were given, or follow those of the line", "statement": "A segment built from another segment or assigned one has the points of that segment, whether it holds its points, refers to them or points to them, and whether it evaluates its values at once, at the first time or each time. Building and assigning changes no line and no other segment. A segment that holds its points keeps them whatever happens to lines and other segments; one that refers to points can be used as long as these exist. Each segment answers with the length and the azimuth its points have at that moment.", "quantifier": "every program of building, taking, copying, assigning, asking and ending lines and segments of all kinds, every geometry", "why_tests_cant": "what a segment shows depends on what it shares with others and on the whole history of them; tests look at a few objects that share nothing", "anchors": ["src/library/include/geometry/rich_type/rich_segment.hpp: constructors, operator=, first, second", "src/library/include/geometry/rich_type/lazy_rich_segment.hpp", "src/library/include/geometry/rich_type/eager_rich_segment.hpp", "src/library/include/geometry/rich_type/rich_segment_data.hpp", "src/library/include/geometry/types.hpp: segment_type, referring_segment_type, pointing_segment_type"]}
{"id": "C112", "title": "Tags of nodes and roads arrive in the prepared network", "statement": "A vertex of the prepared network has exactly the tags of the node it stands for, a road exactly the tags of the ways it consists of, key by key and value by value in the order of the file, whatever was read, merged and compressed in between and although every storage on the way gives identifiers of its own; reading and compressing never fail, and the tags can be read from the finished network.", "quantifier": "for all sequences of nodes and ways with any tags, all merges of edges, all orders and repetitions in which the compressed network takes over its elements", "why_tests_cant": "Tags are stored per identifier, not per edge, and pass through three storages with different identifiers; whether a tag shows up on a road that was never merged depends on which other edges of the same way were, so only the whole history decides.", "anchors": ["src/library/include/io/helper/tag_helper.hpp:84-447", "src/library/include/io/helper/graph_helper.hpp:110-160", "src/library/include/io/helper/graph_helper.hpp:270-426", "src/library/include/io/helper/osm_handler_helper.hpp:110-214", "src/library/include/geometry/network/network_import.hpp:272-443", "src/library/include/io/memory_mapped/storage/tag_storage.hpp:541-782"]}
{"id": "C113", "title": "What is read from OpenStreetMap files has the tags it has there", "statement": "After reading any files, each vertex of the graph has exactly the tags of the node it was made from, and that node is the one whose place it has; a node that became no vertex leaves no tags in the graph; each edge has exactly the tags of the road it was made from. The tags have no influence on which vertices and edges there are. After simplifying within roads and compressing, every edge of the prepared network still has the tags of its road and every vertex those of its node.", "quantifier": "for all files: nodes and ways in any order, repeated, invisible, unknown, with any tags and identifiers; all filters; all merges within roads; all choices of kept vertices", "why_tests_cant": "Which of several nodes with the same identifier counts, whether a way gave edges at all, and in which storage a tag was first named depend on the whole content of the files; tests read a few small extracts with unique identifiers.", "anchors": ["src/library/include/io/network/osm_handler.hpp:45-127", "src/library/include/io/helper/osm_handler_helper.hpp:110-214", "src/library/include/io/helper/graph_helper.hpp:270-294", "src/library/include/io/helper/graph_helper.hpp:395-430", "src/library/include/io/network/osm_importer.hpp:37-84"]}
{"id": "C114", "title": "A session turns every track into one correct row", "statement": "A network prepared from files by an earlier run is opened, tracks are read and matched by several threads, and the rows are written by another. When the program has ended, the file has a header and exactly one row for each track. The row has the identifier of the track and its geometry; its match consists only of pieces of roads in a direction that the files permit, and of the matches of the parts of the track one after the other, each as if it were alone; parts are only missing if the row says aborted, and it says so only if the clock passed the limit. Lengths in the row are those of the lines in the row. Without a time limit, two sessions write the same rows up to order and duration, whatever the number of threads. With GPX files, identifiers are the names of the selected tracks.", "quantifier": "for all files, networks, tracks with any number of parts, numbers of threads, queue sizes, interleavings and readings of the clock", "why_tests_cant": "The result depends on files of another run, on the whole chain from preparation to export, on the turns the threads take and on the clock; a test sees one combination of these.", "anchors": ["src/app/include/app/match.hpp:122-152", "src/library/include/matching/matcher.hpp:103-201", "src/library/include/util/coordinator.hpp:48-112", "src/library/include/io/results/match/csv_match_exporter.hpp:47-205"]}
{"id": "C115", "title": "Matches that were written are what is compared", "statement": "A file of matches written by a session is given to the comparison. It can be read; the selected tracks come in the order of the rows, each with its identifier and the lines of its match, with coordinates as far as they were written; a match of one line, of several and an empty match are all read back as such. When the comparison has ended, each ground truth with the identifier of a selected track has exactly one result, that of comparing it with the match of this track, which runs along roads. If the file of one session is the ground truth and that of another session without time limit on the same tracks the match, every result is correct without error.", "quantifier": "for all files, tracks, matches of any number of lines, columns, numbers of threads and interleavings of both sessions and of the comparison", "why_tests_cant": "It spans two programs and the file between them: text of geometries, columns by name, pairing by identifier and the schedules of three runs.", "anchors": ["src/library/include/geometry/rich_type/multi_rich_line.hpp:422-430", "src/library/include/io/track/csv_track_importer.hpp:68-214", "src/library/src/io/csv_importer.cpp:41-51", "src/app/src/app/compare.cpp:44-90"]}
{"id": "C116", "title": "Nodes and edges handed over by value are stored as they are", "statement": "Nodes and edges can be added to a network by value, with or without calls by reference in between. Whatever allocations fail, nothing is undefined, only edges between nodes that do not exist are refused, and the storage holds exactly the nodes and edges of the calls that returned, once each, in order, with their ids and lines, between the nodes they were added for, whether the storage is in memory or a file that has to grow.", "quantifier": "for all sequences of calls by value and by reference, all patterns of failing allocations, both kinds of storage", "why_tests_cant": "The loss depends on which allocation of which call fails, and the call reports success.", "anchors": ["src/library/include/io/helper/graph_helper.hpp:344-361", "src/library/include/io/helper/graph_helper.hpp:449-472", "src/library/include/io/memory_mapped/utils.hpp:72-87"]}
{"id": "C117", "title": "The way travelled forth and back is found and charged", "statement": "For two valid connected routes, the second beginning where the first ends, the part found is exactly the longest way at the end of the first route that the second retraces, point by point up to repeated points; it is empty if nothing is retraced, if a route is invalid or has no lines, or if the routes do not meet. The decision process charges the length of this way forth and back.", "quantifier": "for all routes, owning or referring to their lines, all points and numbers of lines", "why_tests_cant": "Positions run over lines of any number and size with repeated points and parts within a line; wrong ones only shift rewards.", "anchors": ["src/library/include/geometry/network/route/route.hpp:562-681", "src/library/include/environment/environments/single.hpp:471-479"]}
{"id": "C118", "title": "Eager and lazy routes tell the same about the same lines", "statement": "An eager_route (values computed by the constructor) and a lazy_route (values computed when first asked) that consist of the same lines give the same answers to is_connected, length, azimuth, directions and absolute_directions, and these are the values of the lines, whatever the route was built from: constructed, copied or assigned from a route that was or was not asked before, merged, cut by sub_route, trimmed by trim_merge, joined.", "quantifier": "all lists of lines, all histories of building, asking, copying, merging, cutting and trimming, all five queries", "why_tests_cant": "a stale or missing value depends on the order in which a route was asked, copied and changed, so the histories cannot be enumerated", "anchors": ["src/library/include/geometry/network/route/eager_route.hpp:54-167", "src/library/include/geometry/network/route/route_data.hpp:40-285", "src/library/include/geometry/network/route/lazy_route.hpp:78-167"]}
{"id": "C119", "title": "A network is matched in the coordinate system it was prepared in", "statement": "After --prepare has written a network in a coordinate system (chosen by --srs, --srs-type, --transform-srs, --transform-srs-type), --match opens it in that system and matches tracks against it in that system, so that a point of a track and a node of the network have the same coordinates exactly if they are at the same place; tracks in another kind of coordinate system are refused.", "quantifier": "every combination of options of both runs, every node and point", "why_tests_cant": "two runs of the program with their own options; product of codes and types on both sides, a wrong combination gives numbers that look valid", "anchors": ["src/app/src/app/network.cpp: create_network_import, open_network", "src/app/src/app/options.cpp:129-135, 331-354, 631-664, 1297-1302", "src/library/include/matching/matcher.hpp:190-215"]}
{"id": "C120", "title": "Nodes, edges, lines and segments can serve as keys", "statement": "Two points, segments, lines, nodes or edges compare equal exactly if their identifiers and the places of their points are the same; the comparison is an equality; what is equal has equal hashes. A hashed map or set of them therefore answers every search with what was stored first under an equal key and not erased since, whatever was stored, erased or grown before.", "quantifier": "all points, segments, lines, nodes and edges, all sequences of operations on a container, all numbers of buckets, all hash functions of the library", "why_tests_cant": "a search that misses an equal key depends on hashes, buckets and the history of the container; equality, transitivity and agreement with hashing range over all triples of keys", "anchors": ["src/library/include/geometry/network/node.hpp: operator==, hash_value", "src/library/include/geometry/network/edge.hpp: operator==, hash_value", "src/library/include/geometry/rich_type/rich_line.hpp: operator==, hash_value", "src/library/include/geometry/rich_type/rich_segment.hpp: operator==, hash_value", "src/library/include/geometry/algorithm/equals.hpp: equals_points", "src/library/include/geometry/network/network_import.hpp: remove_duplicate_nodes, remove_duplicate_edges"]}
{"id": "C121", "title": "The file of candidates tells of which candidates a match consists", "statement": "For every track that is matched with Viterbi, the rows of the file of candidates list, for each part and each point of the prepared line, every candidate the search found, with the segment to its projection, both pieces of its edge, its distance and the identifier of its edge. The rows with `is_result` 1 tell of which candidates the match in the file of matches consists: for each part either its match is invalid and none is marked (then no candidates can be chosen such that a route is found from each to the next), or exactly one candidate of each point from the first one with candidates on is marked, a route was found from each to the next, no other such choice has a greater sum of weights, and the match of the part is connected and leads from the projection of the first marked to that of the last. Without a bound on the searches, routes are found wherever one can go. No candidate of a part that was not finished within the time limit is marked.", "quantifier": "all networks, tracks with any number of parts, preparation settings, weights, clocks and time limits, and all lists of known columns", "why_tests_cant": "The candidates and the policies that are exported pass through preparation, search, adoption, decoding and two exporters, are stored per part in separate vectors and are cut off by the clock at any point; that the marks agree with the exported match in all of these cases cannot be sampled.", "anchors": ["src/library/include/io/results/match/csv_candidates_exporter.hpp:60-140", "src/library/include/matching/matcher.hpp:103-183", "src/library/include/matching/candidate/candidate.hpp:58-60"]}
