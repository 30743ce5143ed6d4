# Formal model of iisys-hof/map-matching-2

All paths of the modelled code are relative to `/repo`; `INC` stands for `src/library/include`.

## Trusted base

* Lean's kernel (Lean 4.33.0) and the three standard axioms `propext`, `Classical.choice`, `Quot.sound`. No
  axiom is added, there is no `sorry`, `admit`, `native_decide` or `bv_decide`.
* The reading of the C++ source: each definition of the model cites the lines it models. The code is not run.
* Library behaviour that is not part of the repository is taken from its documentation: `std::vector`/`std::list`
  as lists, `boost::unordered_flat_map` as a finite map whose `operator[]` default-inserts, the heap as a bag from
  which *some* minimal element is popped (every theorem quantifies over the choice among ties), `std::sort`
  as some sorted permutation, `std::binary_search`/`lower_bound` as specified on sorted ranges,
  `std::counting_semaphore` and `boost::sync_bounded_queue` as specified.
* Numbers: lengths, weights, probabilities are elements of an abstract ordered type. Where a proof needs only that
  addition (or multiplication) is monotone, it is stated for every such operation, which includes
  IEEE-754 rounding on non-NaN values; where it needs exact arithmetic this is said at the theorem, and the claim
  is then about exact arithmetic only.

## Conventions

* `Verif/Model/*.lean` – the model, one file per part of the program, each definition with its source lines.
* `Verif/Spec/*.lean` – small independent specifications (walks, reachability, list algebra ...), where they are not
  stated in the theorem itself.
* `Verif/Proofs/*.lean` – helper lemmas.
* `Verif/Props/*.lean` – property theorems with, beside each, an example that meets its hypotheses.
* Exceptions and undefined behaviour are separate outcomes (`Outcome.throws`, `Outcome.ub`), never
  totalised away.
* `…_partial` – the theorem proves only part of the property; the note in `MANIFEST.json` says what is missing.
* `…_fails` – a proved counterexample: the property as stated is false of the modelled code.

## Per property: model and proof

Model files are `lean/Verif/Model/<name>.lean`, theorems `lean/Verif/Props/<name>.lean` (same name unless given). The
status, the exact theorem names and what is missing are in `MANIFEST.json`.

| id | model | what is modelled | how it is proved |
|----|-------|------------------|------------------|
| C01 | ShortestPath | Dijkstra loop as a transition system over (predecessors, distances, colours, queue); any minimal entry is popped | invariant over steps, termination measure, final state = minimum over walks |
| C02 | ShortestPath | same with the stop condition of the goal visitors | popped vertices are settled |
| C03 | ShortestPath | same with the bounding visitor that colours vertices | reported values are lengths of walks; counterexample graphs |
| C04 | AStar | A* loop, path reconstruction with a default-inserting map | invariant with consistent heuristic; counterexample for the unreachable goal |
| C05 | Traversal | BFS and DFS loops | invariant, reachability |
| C06–C09 | AdjList | records of vertices, edges, incidence lists; operations with rollback and failing allocations | refinement to abstract content by induction over histories; counterexamples |
| C10 | Csr | compressed rows built by the conversion loop | lookup lemma per vertex |
| C11 | View | `at` and sub views with outcomes | case analysis; counterexamples |
| C12 | ExtractRoute | edge choice loop | induction over the path |
| C13 | Viterbi | forward recursion, back pointers | optimal substructure for every monotone operation |
| C14, C15, C55 | Env | environments with interning and memo tables | induction over step histories; lexicographic measure; counterexample |
| C16–C18 | Learn | value iteration, policy iteration, Q learning on a table | fixpoints, optimality in exact arithmetic; counterexamples |
| C19, C22 | Router | candidate routes, skipping, routing cache | induction; counterexamples |
| C20, C21 | Candidates | radius loop and adoption loops over abstract nearest-edge queries | termination measure; counterexamples |
| C23–C25 | NetImport | simplification, components, duplicate removal on the abstract graph | invariants for merges, walks; counterexamples |
| C26, C28 | RichLine (Props: LineAlgebra) | lines as point lists | list algebra |
| C27 | RichLine (Props: LazyLine) | cached cells of lines | coherence invariant over histories; counterexamples |
| C29 | Route | routes as lists of references to lines with cached values | same |
| C30 | SimplifyLine | Douglas–Peucker recursion | well-founded induction |
| C31 | MedianMerge | median, merging of points | loop invariant |
| C32, C56 | Substring | substring by length, distance along a line | induction; counterexamples |
| C33, C34 | Compare | alignment loop on segments, scores | termination, conservation up to repetition, bounds |
| C35 | Memo | cache of distances | induction over queries; counterexample |
| C36, C54, C57 | Tags | interning tables with failing allocations, stale references after growth | invariant over histories |
| C37 | Coordinator | producer, coordinator and workers | safety invariant, progress measure, every schedule |
| C38 | Forwarder | pairing maps | invariant over interleavings |
| C39, C40 | Osm | node store, way handler | fold invariants; counterexamples |
| C41 | Rules | rule parser, filters | parser inverts the printed notation |
| C42 | OsmExport | numbering and writing of nodes and ways | fold invariants; counterexamples |
| C43 | Rows | column logic of result files | list induction |
| C44, C59 | NetFiles | importers of networks from groups of text files | fold invariants; counterexamples |
| C45, C60 | TrackCsv | rows to tracks | fold invariant; `std::sort` and map order arbitrary |
| C46, C61 | EdgesList | breadth first search for connected pieces | queue invariant with completeness, weight of the search tree as bound |
| C47 | TimeLimit | time helper | induction over calls |
| C48 | Delimiter | delimiter parser | induction |
| C49 | Common | angles, powers of two | ordered field; bit arithmetic |
| C50 | Srs | choice and chaining of transformations | case analysis |
| C51, C58 | Detect | defect sets, removal | list induction |
| C52 | Convert | conversions, reversal | list induction |
| C53 | Tags | retry loop | induction |
| C62, C63 | TrackFiles (`MM.Gpx`) | GPX tracks: times, sorting, identifiers | permutations; `std::sort` arbitrary; counterexamples |
| C64 | TrackFiles (`MM.SeattleTruth`) | ground truth made of travelled roads | induction over the route; counterexample |
| C65 | TrackFiles (`MM.Console`) | tracks typed in: trimming, tokens, counter | list induction |
| C66 | TrimMerge | find_return_line as a walk over two lists of positions, the parts by positions (C35, C36), join of the tip, merge (C28) | trim_merge_partial by the walk finding the longest common part of the squashed point sequences, then the values of the parts; refuses; fails: residual turn, empty first or last line |
| C67 | CandidateRoute | candidate_route with the path as argument: same point, same edge, trimming at both ends, merge with gaps refused | candidate_route_partial by legs (valid, connected, leading from p to q) that compose under merge and trim_merge; liveness of references because own lines come first (trimmed_front); same edge by C32; fails: node turn, freed line, begin of edge |
| C68 | ExportEdges | Entries of the segment index, choice of the fitting edge, list of edges, export of edges and identifiers; the index answers in any order | Invariant of the choice over the answers; segments of merged lines; two counterexamples |
| C69 | Matcher | Loop over the parts of a track with arbitrary computations that ask the time helper | Induction over computations and parts: once reached the limit stays reached, otherwise nothing was cut |
| C70 | EagerLine | Eagerly evaluated lines as points with cells computed by every operation; segments | Induction over the history with the invariant that all cells are there and right; lazy histories by a second invariant on totals; counterexamples by evaluation |
| C71 | MultiLine | Plain, lazily evaluated and evaluated lines in several parts | Cells missing or right as invariant over questions; joining two neighbouring parts keeps segments, ends and changes of direction, lifted to merge by induction over its ranges |
| C72 | Weights | Observation and transition weights of the hidden Markov model, fed into the decoder | Real analysis (logarithms of powers, monotone ratios); joint weight equals the sum of weights up to a constant, then C13 |
| C73 | Weights | Rewards of steps, first points, giving up and routes forth and back | Sums of non-negative parts, each monotone; counterexample for routes shorter than the track |
| C74 | CandidateEdge | Projection, snapping to a near point by scan or by index, division of the edge line | Cases of the projection; counterexamples for loops and for the switch by measured times |
| C75 | NextSearch | Edges added in mode NEXT, set of candidates, set of nodes, mark of equal points | Induction on the edges; exact characterisation; counterexample for the distance of adjacent edges |
| C76 | Program | `main`, `mode`, `_mode`, the functions of the modes and `process` as a function from the result of the parser to the events (help, errors, work) and the exit status | case analysis over modes and results |
| C77 | Options | the functions `correct` and the settings made of the options, from the values stored by program_options | case analysis; induction over the list of files |
| C78 | Lifetime | the main thread of match and compare, two coordinators (matcher or comparator, one exporter), destructors and unwinding as one transition system over the one of C37 | inductive invariant over all interleavings; projection to the coordinator; decreasing measure; explicit executions as counterexamples |
| C79 | GraphHelper | the functions of graph_helper over the graph of C06 with failing allocations, retries, tags and index maps; the loop converting a graph | invariant over all sequences of calls and failures; counterexamples |
| C80 | SimplifyRetry | simplify with the mark of the interrupted vertex and its repetition, over the network of C23 | induction over the merges, the vertices and the retries: what is left to do after an interruption gives the result of the whole; counterexamples |
| C81 | NetDisk | the operations on files of a preparation as a list, crashes as prefixes, exceptions as unwinding; opening of storages and archives | the operations on one file are those of the whole list that concern it; their effect is computed per file by induction over the attempts; counterexamples |
| C82 | MatchRoute | the loop over the policy with skips, joins and the final merge over the routes of C67 and the merge of C06; the shortest path and the index are functions | invariant over the kept routes (connected, along the concatenated legs, on the road, of the same length), induction over runs; counterexamples |
| C83 | IndexBuild | Collection of points and segments, reserve/grow/retry in both storages, bulk build of both indices with drop and grow, queries given the R-tree's answers | Invariants through retry, induction over vertices and edges, potential size * 2^failures for liveness; R-tree answers as hypotheses |
| C84 | Report | Printers of tracks, matches and comparisons with counters and sums, weighted means, opening, header and rows of the file of results | Induction over results; sums of ordered fields; single comparison tied to the model of C34 |
| C85 | BufferBox | buffer_box, segment_buffer_box and the queries made with them; R-tree answers are any order of the segments meeting the box; globe as unit vectors over an ordered field | membership in the box by linear arithmetic; combined with the complete index of C83 and the radius search of C20; on the globe the distance from a meridian (Bessel) and monotonicity of latitude; counterexamples for every latitude off the equator and for spherical coordinates |
| C86 | EdgeSwitch | the adaptation of _edge_size_switch to measured times, with infinities and NaN of double and the conversion to size_t | invariant over any sequence of edges: the time kept for edges belongs to the present size, or the size is below the largest edge; counterexamples for zero times and for different times |
| C87 | Reproject | `reproject_point` with the types of the points as parameters and the reprojector as a value, every place that reads or writes points, an unassigned point is `none` | case analysis; the transformations of Boost.Geometry are any function that keeps places |
| C88 | Measures | the loops over lines, segments and azimuths by index, angles in an ordered field, azimuths any function | induction over the loop; sum over the list of turns |
| C89 | CountAlloc | counters modulo 2^64, blocks with the counter through which they are released, every allocator function as an operation | invariant by induction over the operations; commutation for threads |
| C90 | Profile | regular expression of the check, options check, choice of importer, filters of the car profile, texts of the manual profile, over the handler of C39/C40 | derivative matcher against the language; induction over the elements |
| C91 | Ordering | operators and hash of points over floating point numbers with NaN and two zeros, operators of measurements, sorting of tracks, create_track | induction over coordinates; sortedness and permutation of the sort |
| C92 | QLearn | the episodes, action choice, table, early stop and policy extraction of q_learning.hpp over a fixed process; draws and clock are inputs | invariants over steps and episodes (estimates of offered steps only, estimated steps lead to known states); induction over walks for the greatest return |
| C93 | Compare, Props/Adapt | adapting the points, splitting, preparation, sums of the parts | paths of segments by induction; nearest point as an abstract finder with its two properties; counterexample for a first segment that vanishes |
| C94 | Pipeline | candidates, edges, shortest paths, legs, weights, decoding and the merged route as one program | composition of C01, C12, C13, C74, C86 and the others: every leg is shown to be valid exactly if the candidate can be reached, with the length of the shortest path; decoding then takes the best choice |
| C95 | Settings | tables of options as lists, `store` of boost with first source winning, `notify`, assignments of settings.cpp; values are strings | lookup lemmas by induction over sources and tables, distinctness of the finite tables by evaluation in the kernel |
| C96 | Model/Decide.lean, Props/Decide.lean | learners as programs over the environment tables, vectors of values with out-of-range reads as undefined behaviour; time limits and intelligent actions not modelled | simulation between the programs and the learners on the process of coded internal states; plans as specification |
| C97 | Model/Tour.lean, Props/Tour.lean, Props/TourBounded.lean, Props/Unskipped.lean | matching of one track with the decision process: rewards from routes and track, learners, policy, merged route; state size 2, exact numbers, searches without bound; with any bounds and trimmed turns in TourBounded; with `skip_errors` off in Unskipped | plans of C96 are cut into runs; each run is a stretch by C94's legs and C86; verdicts on legs are shown to say near or barred in terms of shortest paths, or, with bounds, led or refused in terms of the routes found |
| C98 | Model/Prepare.lean, Proofs/Prepare.lean, Props/Prepare.lean | the way from OpenStreetMap files over import, simplification, removals and compression to the network that is matched on; storage, indices and tags are left out | an invariant (well-formed, same multiset of segments) is carried through all steps; distances by C23's simulation; matches by C94 and C97 on the network so obtained |
| C99 | Model/NetImport.lean, Props/Thorough.lean, Props/Tidy.lean | the pass over the vertices with all merges, and its place in the preparation of networks | a merge turns no other vertex into a passage: reflection of passages from the network after a step to the network before it; the order of vertices is arbitrary |
| C100 | Model/Storage.lean, Props/Storage.lean | the storages as objects: file, mapping, pointers and allocator; create, open, write, grow, drop_grow, shrink_to_fit, move construction and assignment, destruction; and the variant in memory with its counter | a book of who owns what, kept independently of the model; invariant between book and world, induction over the operations |
| C101 | Model/GraphCopy.lean, Props/GraphCopy.lean | copy_from with its map, copy construction and assignment, moves with the same and with another allocator | the state of the copy in closed form for each prefix of vertices and edges; the representation invariant of C06 gives the incidence lists |
| C102 | Model/Seek.lean, Props/Seek.lean | the search of candidates of a whole track (radius of each point, modes CIRCLE, COMBINED, NEAREST, NEXT, division of the edges, sets, adoption, siblings) put before the matcher of C97 | the search of each point in closed form; places on edges by C19, adoption by C21, the best sequence by C97; counterexample for the nearest segments |
| C103 | Props/Found.lean (Model/Prepare, Seek, Pipeline, Tour) | nothing new: the parts modelled before, run one after another from the elements of the files to the route | composition of the theorems of C98, C102, C94 and C97; drives by the files become paths of the searches, empty candidates lead to an invalid match |
| C104 | Model/RouteLife.lean, Props/RouteLife.lean | routes as objects with a lifetime: construction, copy, move, assignment, merge, join, sub_route, destruction; addresses of lines | plain values (flag and lines) as specification; invariant: own lines at different addresses, references to own lines or to the network; simulation by induction over the operations |
| C105 | Model/QEnv.lean, Props/QEnv.lean | q_learning.hpp run on the environment of single.hpp with intelligent_action: probing and sorting of actions, episodes, extraction | simulation: the growing tables only extend, so the run equals one on the fixed process given by the final tables; trips as inductive relation over environment steps; C15 and C92 composed |
| C106 | Model/QMatch.lean, Props/QMatch.lean, Props/TourBounded.lean, Props/Unskipped.lean | q_learning.hpp on the decision process of a track (Model/Tour.lean), route for its policy | invariant that every remembered step is that of the decision process, kept by all parts of the learner; walks through the tables are plans, plans have routes (C97); finitely many returns and strictly increasing records bound the number of episodes |
| C107 | Model/Recorded.lean, Props/Recorded.lean | hmm.hpp set/learn/result and matcher.hpp as an engine that asks the clock, over the models of preparation, search, decoding and routing | the learner gives a whole policy or none, so the loop over the parts gives a prefix (refinement of C69); every route of a policy owns its lines or refers to living ones (induction over the policy), so the merge is defined; more rounds of the searches give the same candidates; then C30, C32, C102, C103 for each part |
| C108 | Model/Methods.lean, Props/Methods.lean | single.hpp set/init/result and the three learners as engines that ask the clock, over the models of preparation, search, decision process and Q-learning | interrupted learners give nothing, the whole policy or (Q-learning, by induction over the episodes) the policy of another plan; every plan's route is that of a tour, journey or (errors not skipped) course (C97); all but the last part tried are as without a limit (refinement of C69), then as C107 |
| C109 | CompareRun | Reading order, pairing, tasks, exceptions of tasks, comparison of lines in parts and rows of the file, on top of Forwarder, Coordinator, Compare, MultiLine and Rows | Pairs of each identifier exactly; executed tasks are those queued (join_partial of C37 with `stop` after reading); one row each; scores, self comparison, division into parts; counterexamples for different coordinate systems and repeated identifiers |
| C110 | TwoRuns | First run: Prepare, IndexBuild and NetDisk put together; second run: NetDisk's opening, and Seek with graph and index as read | The index written is exactly that of the graph written (gather_spec, buildIndices_spec), read back by `prepared` of C81; edges_found and edges_nearest of C83 give the hypotheses of C102 and C103 for all search modes; crash prefixes of the operations; counterexample for a crash between index and graph |
| C111 | SegmentRef | points in cells with addresses; lines, and segments that own, refer to or point to cells, in three styles of evaluation; a program is a list of steps | invariant of ownership by induction over the program; frame lemmas (which cells a step touches); definedness and values by invariants under stated discipline; counterexamples for aliasing, dangling and stale values |
| C112 | TagFlow | The three storages of tags (handler, graph, compressed graph) as interned identifiers with maps of elements; steps node, vertex, edge, merge; cloning, finalizing, reading | Simulation of a description in pairs only (`tags_exact`, `compress_exact`), from it invariants: own tags first, tags of all merged ways present (`road_has`), exactly the own ones without merges across ways (`road_tags_partial`, `prepared_partial`); counterexamples for the rest |
| C113 | OsmTags (on Osm and TagFlow) | Each function of the handler on nodes, graph and both storages of tags at once; simplification as merges | Simulation: the graph is that of `Osm`, the tags are those of a history of `TagFlow` steps; invariant that the tags told are those of the first node or road of its kind (`vertex_tags_partial`, `edge_tags_partial`), composed with C112 (`prepared_tags_partial`); counterexample with two versions of a road |
| C114 | Session (on TwoRuns, Recorded, Lifetime, Rows, TrackFiles) | A task is the parts of a track and what its worker reads from the clock; `execute` as in `_match_impl`; tasks are numbered and go through the threads of `Lifetime`; the file is made of the results in the order the exporter executed them | Composition: uniform number of rounds for all parts, each task gives a `Right` result whatever its clock says, the rows executed are a permutation of the tasks, and the rows line up with the results; without a limit results are independent of the clock (`session_same_partial`); counterexample from C78 for any matching |
| C115 | Model/Exchange, Props/Exchange | wkt of lines, rows and columns by name, csv import of rows with wkt, tracks passed on to the comparison | read_written and read_texts by induction over the rows on top of C36/C71; scored_partial and sessions_agree_partial compose C114, reading, pairing (C109) and comparison (C78) |
| C116 | Model/ByValue.lean, Props/ByValue.lean | the overloads of graph_helper taking nodes and edges by value, the parameter as part of the state of the retry | every call by value comes down to one by reference, with or without the line; then C79; counterexample |
| C117 | Model/ReturnLine.lean, Props/ReturnLine.lean | extract_return_line on the positions of find_return_line, and the length charged | the search of C66 with the suffix of a route; length invariant under repeated points and reversal; counterexample |
| C118 | EagerRoute | eager_route.hpp: constructors that compute all values, queries, copies, merge, sub_route, join; lazy_route.hpp copies, parts and trimmed routes | invariant over histories: all values are those of the lines (eager), each value is unset or that of the lines (lazy); counterexamples for the default constructor, a line with a single point, and join |
| C119 | SameSystem | network.cpp dispatch of both runs, options of coordinate systems, matcher.hpp check of kinds; on Srs and Reproject | refinement to places: coordinates after both runs determine the places; counterexamples for options not repeated |
| C120 | Keys | equality and hashes of points, segments, lines, nodes, edges; hashed map as buckets with find, emplace, erase, growth | equality characterised by identifier and places; hash agreement by induction over lines; invariant of the buckets and refinement to a function of keys over all operation sequences |
| C121 | CandidateFile | What the exporter of candidates gets after a match: the candidates of the environments with the points of the prepared lines, and the policies as collected until the time is over; its records and rows (Rows) | Collected lists are those of the first parts, alone, and of one more without a policy (induction over the loop); the policy is the best choice (Weights, Pipeline); rows and columns from C43; joined with the row of the match (C114) |

Not modelled: file formats and parsing libraries (osmium, csv, gpx), Boost.Geometry's numeric kernels (distance,
azimuth, r-tree queries appear as parameters), memory mapping (except for references that become stale), the command
line front end.

## Properties that are false of the code

Each has a proved counterexample (`…_fails`), named in `MANIFEST.json` with what does hold.

* **C03** A distance-bounded search finds every goal within the bound: `MM.SP.bounded_misses_goal_fails`, `MM.SP.bounded_wrong_distance_fails`.
* **C04** Goal-directed search returns a shortest path or reports unreachability: `MM.SP.AStar.astar_unreachable_fails`, `MM.SP.AStar.astar_path_never_empty_fails`.
* **C08** Removing a vertex never leaves an edge that refers to it: `MM.AdjList.remove_vertex_dangling_fails`, `MM.AdjList.remove_vertex_dangling_bidirectional_fails`.
* **C09** Vertex and edge indices identify vertices and edges: `MM.AdjList.indices_distinct_fails`.
* **C10** Converting a graph to compressed form preserves it: `MM.Csr.csr_not_cleared_fails`.
* **C11** Element access through container views is range checked: `MM.View.view_at_minus_size_fails`, `MM.View.view_at_empty_fails`, `MM.View.subview_at_fails`.
* **C12** A route extracted from a vertex path follows the network: `MM.Extract.missing_edge_bridged_fails`, `MM.Extract.unmeasured_line_fails`.
* **C16** Value iteration stops and its policy is optimal: `MM.Learn.value_iteration_optimal_fails`.
* **C17** Policy iteration stops only at a policy it cannot improve: `MM.Learn.policy_iteration_optimal_fails`.
* **C18** The Q-learning update moves the estimate towards the target: `MM.Learn.q_update_target_fails`.
* **C19** The final route follows the chosen candidates: `MM.Router.double_skip_fails`.
* **C20** Candidate search terminates and returns candidates when any exist in reach: `MM.Cand.combined_empty_fails`, `MM.Cand.zero_radius_fails`.
* **C21** Adoption of neighbouring candidates only adds legitimate candidates: `MM.Cand.per_edge_fails`.
* **C22** Routing results do not depend on what was routed before: `MM.Router.bound_dependent_fails`.
* **C23** Network simplification preserves routes: `MM.Net.simplify_ids_fails`.
* **C24** Removing unconnected components keeps a largest connected component: `MM.Net.one_way_fails`, `MM.Net.empty_network_fails`.
* **C25** Removing duplicates leaves one representative of each: `MM.Net.duplicate_left_fails`, `MM.Net.duplicate_edges_fails`.
* **C27** Cached lengths, azimuths and directions always agree with the points: `MM.Line.sub_stale_fails`, `MM.Line.erase_stale_fails`, `MM.Line.assign_plain_fails`, `MM.Line.assign_eager_fails`, `MM.Line.merge_throw_fails`, `MM.Line.direction_at_fails`.
* **C28** Merging a list of lines splits exactly at gaps: `MM.Line.hidden_gap_fails`.
* **C29** Joining routes is consistent with their geometry: `MM.Route.join_stale_fails`, `MM.Route.single_point_fails`, `MM.Route.hidden_gap_connected_fails`, `MM.Route.sub_route_dangling_fails`, `MM.Route.sub_route_same_line_fails`, `MM.Route.gap_behind_fails`.
* **C30** Line simplification never moves the line by more than the tolerance: `MM.Simplify.negative_tolerance_fails`, `MM.Simplify.gap_detour_fails`.
* **C31** Median merging partitions the track: `MM.Median.median_even_fails`.
* **C32** Cutting a line by distances yields the piece between them: `MM.Substring.repeated_point_fails`, `MM.Substring.behind_end_fails`, `MM.Substring.beside_line_to_fails`, `MM.Substring.repeated_distance_fails`.
* **C33** Comparing a match with the ground truth accounts for every segment: `MM.Compare.repeated_fails`.
* **C34** Comparison scores are in range and exact at the extremes: `MM.Compare.compare_same_fails`.
* **C35** Memoised distances and azimuths equal direct computation: `MM.Memo.other_system_fails`.
* **C37** Every queued task is executed exactly once before join returns: `MM.Coordinator.join_fails`.
* **C39** Imported OSM nodes can be looked up whatever the input order: `MM.Osm.empty_way_fails`.
* **C40** One-way tagging yields edges in the permitted directions only: `MM.Osm.reverse_fails`, `MM.Osm.empty_way_fails`.
* **C42** Exported OSM elements have unique identifiers and describe the network: `MM.OsmExport.nodes_fails`, `MM.OsmExport.ways_duplicate_fails`, `MM.OsmExport.ways_tags_fails`, `MM.OsmExport.ways_nodes_fails`.
* **C43** Rows of result files line up with their header: `MM.Rows.match_fails`, `MM.Rows.compare_twice_fails`, `MM.Rows.route_fails`, `MM.Rows.track_fails`, `MM.Rows.unknown_tag_fails`.
* **C44** Networks given in several file groups are imported independently: `MM.NetFiles.melbourne_fails`, `MM.NetFiles.giscup_fails`, `MM.NetFiles.seattle_fails`, `MM.NetFiles.seattle_empty_fails`.
* **C46** An edge-id list is turned into connected pieces of the requested edges: `MM.EdgesList.min_id_fails`.
* **C48** Delimiter escapes are decoded faithfully: `MM.Delimiter.decoders_fails`.
* **C50** Coordinate system selection is consistent: `MM.Srs.next_back_fails`, `MM.Srs.next_fails`.
* **C51** Removing defects removes only defective points: `MM.Detect.remove_all_fails`.
* **C55** Offered actions of the decision process can be taken safely: `MM.Env.offered_actions_defined_fails`.
* **C56** Distance of a point along a line: `MM.Substring.beside_line_fails`.
* **C57** Tags assigned while the memory-mapped storage has to grow are kept: `MM.Tags.set_grow_fails`, `MM.Tags.merge_grow_fails`, `MM.Tags.clone_grow_fails`.
* **C58** Duplicate filtering removes adjacent equal points before matching: `MM.Detect.filter_fails`.
* **C59** Imported edges run between the positions of their nodes: `MM.NetFiles.seattle_fits_fails`, `MM.NetFiles.giscup_fits_fails`.
* **C60** Rows with different keys belong to different tracks: `MM.TrackCsv.key_fails`, `MM.TrackCsv.key_files_fails`.
* **C61** An edge list naming an unknown edge affects only its own file: `MM.EdgesList.unknown_fails`.
* **C62** A GPX track is imported completely and in order of time: `MM.Gpx.order_fails`, `MM.Gpx.mixed_fails`, `MM.Gpx.unparsable_fails`.
* **C63** Tracks of GPX files have distinct identifiers: `MM.Gpx.same_name_fails`, `MM.Gpx.counter_fails`.
* **C64** A ground truth given as travelled roads is the line along these roads: `MM.SeattleTruth.gap_fails`.
* **C66** Trimming leaves out exactly the part travelled forth and back: `MM.Route.trim_merge_turns_fails`, `MM.Route.trim_merge_empty_line_fails`.
* **C67** The route between two candidates leads from one projection point to the other: `MM.Route.candidate_route_node_turn_fails`, `MM.Route.candidate_route_freed_fails`, `MM.Route.candidate_route_edge_begin_fails`.
* **C68** Exported edges are the edges the match travels along: `MM.ExportEdges.straight_on_fails`, `MM.ExportEdges.round_again_fails`.
* **C70** Evaluated lines and segments always carry the values of their points: `MM.Line.eager_sub_fails`, `MM.Line.eager_erase_fails`, `MM.Line.eager_assign_plain_fails`, `MM.Line.eager_assign_lazy_fails`, `MM.Line.eager_of_lazy_fails`, `MM.Line.eager_merge_throw_fails`, `MM.Line.segment_assign_fails`.
* **C71** Length, azimuth and directions of a line in several parts do not depend on how it is divided or cached: `MM.MultiLine.single_point_fails`, `MM.MultiLine.empty_part_fails`, `MM.MultiLine.several_empty_fails`, `MM.MultiLine.multi_assign_fails`, `MM.MultiLine.multi_merge_stale_fails`.
* **C73** Rewards of the decision process are never positive and prefer nearer candidates and more similar routes: `MM.Weights.short_route_fails`.
* **C74** A candidate divides its edge at the point of the edge nearest to the track point: `MM.CandEdge.loop_fails`, `MM.CandEdge.times_fails`.
* **C75** Candidates of a point are complete, in order of distance and without repetition: `MM.NextSearch.farther_fails`.
* **C76** A mode does its work exactly once and the exit status says whether it did: `MM.Program.wrong_options_fails`, `MM.Program.server_fails`, `MM.Program.help_fails`.
* **C77** Options given take effect, others follow the more general option or the default: `MM.Options.temporary_fails`, `MM.Options.no_extension_fails`, `MM.Options.compare_type_fails`, `MM.Options.compare_times_fails`.
* **C78** Every track read gives one row, and nothing is used after its destruction: `MM.Lifetime.row_lost_fails`, `MM.Lifetime.failure_unnoticed_fails`, `MM.Lifetime.unwinding_fails`.
* **C79** Networks built in storage that grows hold exactly what the reader handed over: `MM.GHelper.one_retry_fails`, `MM.GHelper.convert_fails`.
* **C80** A simplification interrupted by full storage gives the same network: `MM.SimplifyRetry.second_growth_fails`, `MM.SimplifyRetry.road_lost_fails`.
* **C81** The files of a network are what was prepared, or are refused: `MM.NetDisk.mixed_fails`, `MM.NetDisk.unfinished_fails`, `MM.NetDisk.unbuilt_fails`, `MM.NetDisk.version_fails`, `MM.NetDisk.coordinates_fails`, `MM.NetDisk.unwritable_fails`, `MM.NetDisk.unreadable_fails`.
* **C82** The match is one continuous line along the routes between the chosen candidates: `MM.MatchRoute.broken_bridged_fails`, `MM.MatchRoute.corner_cut_fails`, `MM.MatchRoute.standing_fails`.
* **C83** The spatial indices hold the whole network, and queries on them find it: `MM.IndexBuild.free_space_fails`, `MM.IndexBuild.point_in_edges_fails`, `MM.IndexBuild.edges_nearest_fails`.
* **C84** The lines printed and the file left by a run account for every result: `MM.Report.misses_title_fails`, `MM.Report.weighted_correct_fails`, `MM.Report.weighted_single_fails`, `MM.Report.console_fails`, `MM.Report.file_lost_fails`, `MM.Report.no_header_fails`.
* **C85** Asking the index for a box misses nothing within the radius: `MM.BufferBox.globe_fails`, `MM.BufferBox.spherical_fails`.
* **C86** Choosing between edge and index by measured times is well defined: `MM.EdgeSwitch.zero_time_fails`, `MM.EdgeSwitch.times_decide_fails`, `MM.CandEdge.times_fails`, `MM.EdgeSwitch.unequal_times_fails`.
* **C87** Points keep their place when they are read or written: `MM.Reproject.osm_fails`, `MM.Reproject.text_fails`, `MM.Reproject.list_fails`, `MM.Reproject.export_fails`, `MM.Reproject.export_wrong_fails`, `MM.Reproject.same_type_fails`.
* **C88** Lengths and directions of plain lines and of their segments agree: `MM.Measures.segments_fails`, `MM.Measures.length_fails`.
* **C89** Counting allocators report the bytes in use: `MM.CountAlloc.failure_fails`, `MM.CountAlloc.chain_fails`, `MM.CountAlloc.resize_fails`, `MM.CountAlloc.swap_fails`.
* **C90** The import profiles keep the ways they describe: `MM.Profile.key_fails`, `MM.Profile.untagged_fails`, `MM.Profile.car_reverse_fails`, `MM.Profile.manual_reverse_fails`.
* **C91** Points can serve as keys, and measurements and tracks are put in order: `MM.Ordering.nan_fails`, `MM.Ordering.measurement_fails`, `MM.Ordering.create_fails`.
* **C92** Q-learning returns a whole policy that it can walk: `MM.QLearn.few_episodes_fails`, `MM.QLearn.rate_fails`.
* **C93** Lines stay lines when they are prepared for a comparison: `MM.Compare.adapt_start_fails`.
* **C95** Every option reaches its setting, and the command line wins over the file: `MM.Settings.shared_file_fails`.
* **C97** A match by the decision process, from candidates to lines: `MM.Pipe.decided_connected_fails`.
* **C98** From the ways of the files to the network, and to matches along them: `MM.Prepare.overlap_fails`, `MM.Prepare.one_way_lost_fails`, `MM.Prepare.nothing_fails`.
* **C99** Simplification leaves nothing to simplify: `MM.Net.simplify_again_fails`, `MM.Net.simplify_again_ids_fails`.
* **C100** A storage belongs to one object at a time: `MM.Storage.assign_fails`, `MM.Storage.assign_leaves_fails`, `MM.Storage.shrink_fails`, `MM.Storage.same_file_fails`, `MM.Storage.memory_assign_fails`.
* **C101** A copy of a mutable graph is the same graph: `MM.AdjList.copy_fails`, `MM.AdjList.copy_wrong_fails`, `MM.AdjList.move_fails`.
* **C102** The match is the best among the roads near the points: `MM.Pipe.combined_misses_fails`.
* **C104** Routes are values: copies are independent and no route refers to lines that are gone: `MM.RouteLife.part_dangles_fails`.
* **C105** Learning on the environment itself: what Q-learning returns is a trip through it: `MM.QEnv.run_defined_fails`.
* **C109** A comparison run gives one row for each ground truth: `MM.CompareRun.systems_fails`, `MM.CompareRun.repeated_fails`.
* **C110** A network prepared by one run is the network a later run matches with: `MM.TwoRuns.torn_fails`.
* **C111** Segments have the points they were given, or follow those of the line: `MM.SegRef.shifted_fails`, `MM.SegRef.overwritten_fails`, `MM.SegRef.dangling_fails`, `MM.SegRef.nowhere_fails`, `MM.SegRef.stale_fails`.
* **C112** Tags of nodes and roads arrive in the prepared network: `MM.TagFlow.spread_fails`, `MM.TagFlow.version_fails`, `MM.TagFlow.full_fails`.
* **C113** What is read from OpenStreetMap files has the tags it has there: `MM.OsmTags.version_fails`.
* **C114** A session turns every track into one correct row: `MM.Session.row_lost_fails`.
* **C116** Nodes and edges handed over by value are stored as they are: `MM.GHelper.line_lost_fails`.
* **C117** The way travelled forth and back is found and charged: `MM.Route.no_meeting_fails`.
* **C118** Eager and lazy routes tell the same about the same lines: `MM.Route.blank_unconnected_fails`, `MM.Route.not_made_fails`, `MM.Route.eager_join_stale_fails`.
* **C119** A network is matched in the coordinate system it was prepared in: `MM.SameSystem.not_stored_fails`, `MM.SameSystem.other_refused_fails`.
* **C120** Nodes, edges, lines and segments can serve as keys: `MM.Keys.not_a_number_fails`.
