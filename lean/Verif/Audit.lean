import Verif.Props.AStar
import Verif.Props.Adapt
import Verif.Props.AdjList
import Verif.Props.BufferBox
import Verif.Props.ByValue
import Verif.Props.CandidateEdge
import Verif.Props.CandidateFile
import Verif.Props.CandidateRoute
import Verif.Props.Candidates
import Verif.Props.Common
import Verif.Props.Compare
import Verif.Props.CompareRun
import Verif.Props.Convert
import Verif.Props.Coordinator
import Verif.Props.CountAlloc
import Verif.Props.Csr
import Verif.Props.Decide
import Verif.Props.Delimiter
import Verif.Props.Detect
import Verif.Props.EagerLine
import Verif.Props.EagerRoute
import Verif.Props.EdgeSwitch
import Verif.Props.EdgesList
import Verif.Props.Env
import Verif.Props.Exchange
import Verif.Props.ExportEdges
import Verif.Props.ExtractRoute
import Verif.Props.Forwarder
import Verif.Props.Found
import Verif.Props.GraphCopy
import Verif.Props.GraphHelper
import Verif.Props.IndexBuild
import Verif.Props.Keys
import Verif.Props.LazyLine
import Verif.Props.Learn
import Verif.Props.LearnNear
import Verif.Props.Lifetime
import Verif.Props.LineAlgebra
import Verif.Props.MatchRoute
import Verif.Props.Matcher
import Verif.Props.Measures
import Verif.Props.MedianMerge
import Verif.Props.Memo
import Verif.Props.Methods
import Verif.Props.MultiLine
import Verif.Props.NetDisk
import Verif.Props.NetFiles
import Verif.Props.NetImport
import Verif.Props.NextSearch
import Verif.Props.Options
import Verif.Props.Ordering
import Verif.Props.Osm
import Verif.Props.OsmExport
import Verif.Props.OsmTags
import Verif.Props.Pipeline
import Verif.Props.Prepare
import Verif.Props.Profile
import Verif.Props.Program
import Verif.Props.QEnv
import Verif.Props.QLearn
import Verif.Props.QMatch
import Verif.Props.Recorded
import Verif.Props.Report
import Verif.Props.Reproject
import Verif.Props.ReturnLine
import Verif.Props.Route
import Verif.Props.RouteLife
import Verif.Props.RouteValues
import Verif.Props.Router
import Verif.Props.Rows
import Verif.Props.Rules
import Verif.Props.SameSystem
import Verif.Props.Seek
import Verif.Props.SegmentRef
import Verif.Props.Session
import Verif.Props.Settings
import Verif.Props.ShortestPath
import Verif.Props.SimplifyLine
import Verif.Props.SimplifyRetry
import Verif.Props.Srs
import Verif.Props.Storage
import Verif.Props.Substring
import Verif.Props.TagFlow
import Verif.Props.Tags
import Verif.Props.Thorough
import Verif.Props.Tidy
import Verif.Props.TimeLimit
import Verif.Props.Tour
import Verif.Props.TourBounded
import Verif.Props.TrackCsv
import Verif.Props.TrackFiles
import Verif.Props.Traversal
import Verif.Props.TrimMerge
import Verif.Props.TwoRuns
import Verif.Props.Unskipped
import Verif.Props.View
import Verif.Props.Viterbi
import Verif.Props.Weights

/-! # Axioms of every property theorem (generated by `tools/manifest.py`) -/

#print axioms MM.SP.dijkstra_terminates
#print axioms MM.SP.dijkstra_progress
#print axioms MM.SP.dijkstra_exact
#print axioms MM.SP.dijkstra_path
#print axioms MM.SP.dijkstra_terminates_within
#print axioms MM.SP.dijkstra_goals_exact
#print axioms MM.SP.dijkstra_finished_exact
#print axioms MM.SP.bounded_sound_partial
#print axioms MM.SP.bounded_complete_partial
#print axioms MM.SP.bounded_disabled_reason_partial
#print axioms MM.SP.bounded_misses_goal_fails
#print axioms MM.SP.bounded_wrong_distance_fails
#print axioms MM.SP.AStar.astar_terminates
#print axioms MM.SP.AStar.astar_shortest_partial
#print axioms MM.SP.AStar.astar_sound_partial
#print axioms MM.SP.AStar.astar_unreachable_fails
#print axioms MM.SP.AStar.astar_path_never_empty_fails
#print axioms MM.Traversal.bfs_visits_exactly_reachable
#print axioms MM.Traversal.dfs_visits_exactly_reachable
#print axioms MM.AdjList.history_coherent
#print axioms MM.AdjList.history_defined
#print axioms MM.AdjList.add_edge_defined_iff
#print axioms MM.AdjList.add_edge_failed_restores
#print axioms MM.AdjList.add_vertex_failed_restores
#print axioms MM.AdjList.add_edge_throws_iff
#print axioms MM.AdjList.add_edge_retry
#print axioms MM.AdjList.remove_vertex_no_dangling_partial
#print axioms MM.AdjList.clear_then_remove_vertex
#print axioms MM.AdjList.remove_vertex_dangling_fails
#print axioms MM.AdjList.remove_vertex_dangling_bidirectional_fails
#print axioms MM.AdjList.reindex_indexed
#print axioms MM.AdjList.indices_distinct_partial
#print axioms MM.AdjList.remove_keeps_distinct_partial
#print axioms MM.AdjList.indices_distinct_fails
#print axioms MM.Csr.csr_preserves
#print axioms MM.Csr.csr_rows_are_out_edges
#print axioms MM.Csr.csr_not_cleared_fails
#print axioms MM.View.view_at_partial
#print axioms MM.View.view_at_safe_partial
#print axioms MM.View.subview_access_partial
#print axioms MM.View.subview_range_checked
#print axioms MM.View.view_at_minus_size_fails
#print axioms MM.View.view_at_empty_fails
#print axioms MM.View.subview_at_fails
#print axioms MM.Extract.extract_route_partial
#print axioms MM.Extract.missing_edge_bridged_fails
#print axioms MM.Extract.unmeasured_line_fails
#print axioms MM.Viterbi.viterbi_optimal
#print axioms MM.Viterbi.viterbi_empty
#print axioms MM.Env.encode_decode
#print axioms MM.Env.decode_encode
#print axioms MM.Env.state_numbers_faithful
#print axioms MM.Env.state_number_denotes
#print axioms MM.Env.state_number_stable
#print axioms MM.Env.step_reproducible
#print axioms MM.Env.episode_ends
#print axioms MM.Learn.value_iteration_terminates
#print axioms MM.Learn.value_iteration_optimal_partial
#print axioms MM.Learn.value_iteration_near_partial
#print axioms MM.Learn.value_iteration_optimal_fails
#print axioms MM.Learn.threshold_costs
#print axioms MM.Learn.env_process
#print axioms MM.Learn.policy_iteration_stable
#print axioms MM.Learn.policy_iteration_optimal_partial
#print axioms MM.Learn.policy_iteration_terminates_partial
#print axioms MM.Learn.policy_iteration_optimal_fails
#print axioms MM.Learn.q_update_frame_partial
#print axioms MM.Learn.q_update_bounds_partial
#print axioms MM.Learn.q_update_value
#print axioms MM.Learn.q_update_target_fails
#print axioms MM.Router.route_follows_policy_partial
#print axioms MM.Router.route_follows_policy_plain_partial
#print axioms MM.Router.gap_independent
#print axioms MM.Router.policy_repeats
#print axioms MM.Router.double_skip_fails
#print axioms MM.Router.joined_in_order
#print axioms MM.Cand.circle_search_partial
#print axioms MM.Cand.combined_search_partial
#print axioms MM.Cand.search_stable
#print axioms MM.Cand.combined_empty_fails
#print axioms MM.Cand.zero_radius_fails
#print axioms MM.Cand.adoption_sound_partial
#print axioms MM.Cand.siblings_complete
#print axioms MM.Cand.adopt_ordered
#print axioms MM.Cand.per_edge_fails
#print axioms MM.Cand.adopt_inside
#print axioms MM.Cand.add_equals
#print axioms MM.Router.history_independent_partial
#print axioms MM.Router.bound_dependent_fails
#print axioms MM.Net.simplify_keeps_geometry
#print axioms MM.Net.simplify_keeps_distances_partial
#print axioms MM.Net.simplify_ids_fails
#print axioms MM.Net.largest_component_partial
#print axioms MM.Net.largest_component_order
#print axioms MM.Net.one_way_fails
#print axioms MM.Net.empty_network_fails
#print axioms MM.Net.duplicate_nodes_partial
#print axioms MM.Net.duplicate_nodes_length
#print axioms MM.Net.duplicate_left_fails
#print axioms MM.Net.duplicate_edges_partial
#print axioms MM.Net.duplicate_edges_fails
#print axioms MM.Line.merge_concat
#print axioms MM.Line.merge_grouping
#print axioms MM.Line.merge_size
#print axioms MM.Line.slices_merge
#print axioms MM.Line.slice_out_of_range
#print axioms MM.Line.erase_keeps_others
#print axioms MM.Line.attaches_iff
#print axioms MM.Line.lazy_agrees_partial
#print axioms MM.Line.sub_stale_fails
#print axioms MM.Line.erase_stale_fails
#print axioms MM.Line.assign_plain_fails
#print axioms MM.Line.assign_eager_fails
#print axioms MM.Line.merge_throw_fails
#print axioms MM.Line.direction_at_fails
#print axioms MM.Line.multi_merge_partial
#print axioms MM.Line.hidden_gap_fails
#print axioms MM.Route.merge_lines
#print axioms MM.Route.merge_invalid
#print axioms MM.Route.merge_connected
#print axioms MM.Route.merge_length
#print axioms MM.Route.merge_refuses_gaps
#print axioms MM.Route.merge_bridges_gaps
#print axioms MM.Route.join_connects
#print axioms MM.Route.join_retains
#print axioms MM.Route.sub_route_lines
#print axioms MM.Route.cached_values_partial
#print axioms MM.Route.connected_values
#print axioms MM.Route.sub_route_at_partial
#print axioms MM.Route.join_stale_fails
#print axioms MM.Route.single_point_fails
#print axioms MM.Route.hidden_gap_connected_fails
#print axioms MM.Route.sub_route_dangling_fails
#print axioms MM.Route.sub_route_same_line_fails
#print axioms MM.Route.join_good
#print axioms MM.Route.rich_line_always
#print axioms MM.Route.gap_behind_fails
#print axioms MM.Route.asked_again
#print axioms MM.Simplify.simplify_within_partial
#print axioms MM.Simplify.simplify_part
#print axioms MM.Simplify.simplify_keeps_reversals
#print axioms MM.Simplify.simplify_empty
#print axioms MM.Simplify.segments_within_partial
#print axioms MM.Simplify.negative_tolerance_fails
#print axioms MM.Simplify.gap_detour_fails
#print axioms MM.Median.merge_runs
#print axioms MM.Median.merge_throws
#print axioms MM.Median.Runs.unique
#print axioms MM.Median.Runs.length_le
#print axioms MM.Median.Runs.isolated
#print axioms MM.Median.median_odd
#print axioms MM.Median.median_even_partial
#print axioms MM.Median.median_one
#print axioms MM.Median.median_even_fails
#print axioms MM.Median.adaptive_ge
#print axioms MM.Substring.substring_partial
#print axioms MM.Substring.substring_whole
#print axioms MM.Substring.substring_empty
#print axioms MM.Substring.substring_from_partial
#print axioms MM.Substring.substring_to_partial
#print axioms MM.Substring.repeated_point_fails
#print axioms MM.Substring.behind_end_fails
#print axioms MM.Substring.beside_line_to_fails
#print axioms MM.Substring.repeated_distance_fails
#print axioms MM.Substring.ends_empty
#print axioms MM.Substring.segment_distances
#print axioms MM.Compare.alignment_partial
#print axioms MM.Compare.alignment_exact
#print axioms MM.Compare.repeated_fails
#print axioms MM.Compare.reverse_round_trip
#print axioms MM.Compare.compare_ends
#print axioms MM.Compare.correct_range
#print axioms MM.Compare.compare_empty
#print axioms MM.Compare.error_fraction
#print axioms MM.Compare.compare_same_partial
#print axioms MM.Compare.compare_same_fails
#print axioms MM.Memo.memo_partial
#print axioms MM.Memo.memo_disabled
#print axioms MM.Memo.other_system_fails
#print axioms MM.Tags.id_decodes
#print axioms MM.Tags.id_unique
#print axioms MM.Tags.tag_stable
#print axioms MM.Tags.id_succeeds
#print axioms MM.Tags.tag_known_or_throws
#print axioms MM.Coordinator.exactly_once
#print axioms MM.Coordinator.in_flight
#print axioms MM.Coordinator.accepted_or_refused
#print axioms MM.Coordinator.no_deadlock
#print axioms MM.Coordinator.schedules_end
#print axioms MM.Coordinator.join_partial
#print axioms MM.Coordinator.join_rest
#print axioms MM.Coordinator.join_fails
#print axioms MM.Coordinator.default_size
#print axioms MM.Forwarder.paired
#print axioms MM.Forwarder.unmatched
#print axioms MM.Forwarder.nothing_else
#print axioms MM.Osm.lookup_partial
#print axioms MM.Osm.vertices_partial
#print axioms MM.Osm.empty_way_fails
#print axioms MM.Osm.edges_exact
#print axioms MM.Osm.oneway_partial
#print axioms MM.Osm.reverse_fails
#print axioms MM.Rules.parse_show
#print axioms MM.Rules.filter_show
#print axioms MM.Rules.parse_terminates
#print axioms MM.Rules.filter_nothing
#print axioms MM.OsmExport.nodes_places
#print axioms MM.OsmExport.nodes_once
#print axioms MM.OsmExport.nodes_partial
#print axioms MM.OsmExport.nodes_fails
#print axioms MM.OsmExport.ways_refs
#print axioms MM.OsmExport.oneway_kept
#print axioms MM.OsmExport.ways_partial
#print axioms MM.OsmExport.ways_duplicate_fails
#print axioms MM.OsmExport.ways_tags_fails
#print axioms MM.OsmExport.ways_nodes_fails
#print axioms MM.Rows.columns_split
#print axioms MM.Rows.match_partial
#print axioms MM.Rows.match_fails
#print axioms MM.Rows.compare_partial
#print axioms MM.Rows.compare_twice_fails
#print axioms MM.Rows.candidates_partial
#print axioms MM.Rows.candTasks_spec
#print axioms MM.Rows.nodes_good
#print axioms MM.Rows.edges_good
#print axioms MM.Rows.route_partial
#print axioms MM.Rows.route_fails
#print axioms MM.Rows.track_fails
#print axioms MM.Rows.tracks_good
#print axioms MM.Rows.saved_candidates_good
#print axioms MM.Rows.inactive_writes_nothing
#print axioms MM.Rows.unknown_tag_fails
#print axioms MM.NetFiles.arc_groups
#print axioms MM.NetFiles.melbourne_partial
#print axioms MM.NetFiles.melbourne_fails
#print axioms MM.NetFiles.giscup_partial
#print axioms MM.NetFiles.giscup_fails
#print axioms MM.NetFiles.seattle_partial
#print axioms MM.NetFiles.seattle_fails
#print axioms MM.NetFiles.giscup_refused
#print axioms MM.NetFiles.giscup_no_ub
#print axioms MM.NetFiles.melbourne_refused
#print axioms MM.NetFiles.seattle_empty_fails
#print axioms MM.TrackCsv.assembled
#print axioms MM.TrackCsv.assembled_grouped
#print axioms MM.TrackCsv.lineId_eq
#print axioms MM.TrackCsv.insSort_lawful
#print axioms MM.EdgesList.pieces_partial
#print axioms MM.EdgesList.search_spec
#print axioms MM.EdgesList.pathLoop_spec
#print axioms MM.EdgesList.covered_length
#print axioms MM.EdgesList.covered_fits
#print axioms MM.EdgesList.covered_apart
#print axioms MM.EdgesList.covered_lines
#print axioms MM.EdgesList.steps_asked
#print axioms MM.EdgesList.min_id_fails
#print axioms MM.TimeLimit.reached_sticky
#print axioms MM.TimeLimit.reached_first
#print axioms MM.TimeLimit.never_reached
#print axioms MM.Delimiter.writable
#print axioms MM.Delimiter.parse_written
#print axioms MM.Delimiter.decoders_partial
#print axioms MM.Delimiter.decoders_fails
#print axioms MM.Common.angle_range
#print axioms MM.Common.angle_congruent
#print axioms MM.Common.angle_least
#print axioms MM.Common.pow2_least
#print axioms MM.Common.pow2_zero
#print axioms MM.Common.buffer_points
#print axioms MM.Srs.transform_iff
#print axioms MM.Srs.source_given
#print axioms MM.Srs.target_given
#print axioms MM.Srs.target_default
#print axioms MM.Srs.refused
#print axioms MM.Srs.next_partial
#print axioms MM.Srs.next_back_fails
#print axioms MM.Srs.next_fails
#print axioms MM.Srs.refused_iff
#print axioms MM.Detect.detect_partial
#print axioms MM.Detect.remove_partial
#print axioms MM.Detect.remove_all_fails
#print axioms MM.Convert.segments_spec
#print axioms MM.Convert.line_back
#print axioms MM.Convert.segments_back
#print axioms MM.Convert.reversed_iff
#print axioms MM.Tags.retry_spec
#print axioms MM.Tags.merge_tags
#print axioms MM.Tags.merge_tags_union
#print axioms MM.Tags.set_tags
#print axioms MM.Env.offered_actions_defined_partial
#print axioms MM.Env.offered_actions_defined_fails
#print axioms MM.Substring.distance_from_partial
#print axioms MM.Substring.distance_to_partial
#print axioms MM.Substring.beside_line_fails
#print axioms MM.Tags.mem_partial
#print axioms MM.Tags.merge_existing
#print axioms MM.Tags.set_grow_fails
#print axioms MM.Tags.merge_grow_fails
#print axioms MM.Tags.clone_grow_fails
#print axioms MM.Detect.filter_partial
#print axioms MM.Detect.filter_fails
#print axioms MM.NetFiles.arc_fits
#print axioms MM.NetFiles.melbourne_fits
#print axioms MM.NetFiles.seattle_fits_partial
#print axioms MM.NetFiles.seattle_fits_fails
#print axioms MM.NetFiles.giscup_fits_partial
#print axioms MM.NetFiles.giscup_fits_fails
#print axioms MM.TrackCsv.key_single
#print axioms MM.TrackCsv.key_partial
#print axioms MM.TrackCsv.key_whole_files
#print axioms MM.TrackCsv.key_fails
#print axioms MM.TrackCsv.key_files_fails
#print axioms MM.EdgesList.unknown_partial
#print axioms MM.EdgesList.missing_skipped
#print axioms MM.EdgesList.unknown_fails
#print axioms MM.Gpx.points_kept
#print axioms MM.Gpx.order_partial
#print axioms MM.Gpx.order_numbers
#print axioms MM.Gpx.order_untimed
#print axioms MM.Gpx.imported
#print axioms MM.Gpx.order_fails
#print axioms MM.Gpx.mixed_fails
#print axioms MM.Gpx.unparsable_fails
#print axioms MM.Gpx.distinct_partial
#print axioms MM.Gpx.same_name_fails
#print axioms MM.Gpx.counter_fails
#print axioms MM.SeattleTruth.truth_partial
#print axioms MM.SeattleTruth.rejected
#print axioms MM.SeattleTruth.gap_fails
#print axioms MM.Console.typed
#print axioms MM.Console.point_list
#print axioms MM.Console.line_texts
#print axioms MM.Route.trim_merge_partial
#print axioms MM.Route.trim_merge_refuses
#print axioms MM.Route.trim_merge_turns_fails
#print axioms MM.Route.trim_merge_empty_line_fails
#print axioms MM.Route.candidate_route_partial
#print axioms MM.Route.candidate_route_same_edge_partial
#print axioms MM.Route.candidate_route_none
#print axioms MM.Route.candidate_route_gap
#print axioms MM.Route.candidate_route_node_turn_fails
#print axioms MM.Route.candidate_route_freed_fails
#print axioms MM.Route.candidate_route_edge_begin_fails
#print axioms MM.ExportEdges.edges_list_partial
#print axioms MM.ExportEdges.edges_path_partial
#print axioms MM.ExportEdges.fitting_edge
#print axioms MM.ExportEdges.index_complete
#print axioms MM.ExportEdges.straight_on_fails
#print axioms MM.ExportEdges.round_again_fails
#print axioms MM.Matcher.not_aborted
#print axioms MM.Matcher.aborted_prefix
#print axioms MM.Matcher.aborted_late
#print axioms MM.Matcher.whole_match
#print axioms MM.Matcher.in_time
#print axioms MM.Line.eager_agrees_partial
#print axioms MM.Line.eager_returns_partial
#print axioms MM.Line.ofLazy_done
#print axioms MM.Line.segment_values
#print axioms MM.Line.eager_sub_fails
#print axioms MM.Line.eager_erase_fails
#print axioms MM.Line.eager_assign_plain_fails
#print axioms MM.Line.eager_assign_lazy_fails
#print axioms MM.Line.eager_of_lazy_fails
#print axioms MM.Line.eager_merge_throw_fails
#print axioms MM.Line.segment_assign_fails
#print axioms MM.MultiLine.lazy_multi_agrees_partial
#print axioms MM.MultiLine.eager_multi_agrees_partial
#print axioms MM.MultiLine.merging_keeps_values_partial
#print axioms MM.MultiLine.length_flat
#print axioms MM.MultiLine.azimuth_ends
#print axioms MM.MultiLine.directions_total
#print axioms MM.MultiLine.one_part
#print axioms MM.MultiLine.expected_returns
#print axioms MM.MultiLine.has_directions
#print axioms MM.MultiLine.exported_points
#print axioms MM.MultiLine.single_point_fails
#print axioms MM.MultiLine.empty_part_fails
#print axioms MM.MultiLine.several_empty_fails
#print axioms MM.MultiLine.multi_assign_fails
#print axioms MM.MultiLine.multi_merge_stale_fails
#print axioms MM.Weights.observation_weights
#print axioms MM.Weights.length_weight
#print axioms MM.Weights.turn_is_azimuth
#print axioms MM.Weights.transition_weights
#print axioms MM.Weights.better_route_likelier
#print axioms MM.Weights.initial_uniform
#print axioms MM.Weights.decoded_best
#print axioms MM.Weights.decoded_none
#print axioms MM.Weights.negative_factor_reverses
#print axioms MM.Weights.reward_nonpos
#print axioms MM.Weights.length_cost
#print axioms MM.Weights.better_step_partial
#print axioms MM.Weights.distance_cost
#print axioms MM.Weights.turns_cost
#print axioms MM.Weights.fail_cost
#print axioms MM.Weights.short_route_fails
#print axioms MM.Weights.short_route_cost
#print axioms MM.Weights.back_charged
#print axioms MM.CandEdge.divides_partial
#print axioms MM.CandEdge.projection
#print axioms MM.CandEdge.independent_of_times_partial
#print axioms MM.CandEdge.loop_fails
#print axioms MM.CandEdge.times_fails
#print axioms MM.CandEdge.rounding
#print axioms MM.NextSearch.additions_partial
#print axioms MM.NextSearch.process_complete
#print axioms MM.NextSearch.nodes_complete
#print axioms MM.NextSearch.next_equal
#print axioms MM.NextSearch.farther_fails
#print axioms MM.Program.work_once
#print axioms MM.Program.status_partial
#print axioms MM.Program.does_work
#print axioms MM.Program.help_shown
#print axioms MM.Program.wrong_options_fails
#print axioms MM.Program.server_fails
#print axioms MM.Program.help_fails
#print axioms MM.Options.memory_resolved
#print axioms MM.Options.limits_good
#print axioms MM.Options.turns_good
#print axioms MM.Options.names_good
#print axioms MM.Options.duplicates_good
#print axioms MM.Options.files_different
#print axioms MM.Options.type_partial
#print axioms MM.Options.times_good
#print axioms MM.Options.temporary_fails
#print axioms MM.Options.no_extension_fails
#print axioms MM.Options.compare_type_fails
#print axioms MM.Options.compare_times_fails
#print axioms MM.Lifetime.safe_partial
#print axioms MM.Lifetime.rows_partial
#print axioms MM.Lifetime.rows_sound
#print axioms MM.Lifetime.no_deadlock
#print axioms MM.Lifetime.ends
#print axioms MM.Lifetime.row_lost_fails
#print axioms MM.Lifetime.failure_unnoticed_fails
#print axioms MM.Lifetime.unwinding_fails
#print axioms MM.GHelper.built
#print axioms MM.GHelper.built_tags
#print axioms MM.GHelper.same_as_memory
#print axioms MM.GHelper.grows
#print axioms MM.GHelper.survives
#print axioms MM.GHelper.retry_fits
#print axioms MM.GHelper.convert_partial
#print axioms MM.GHelper.one_retry_fails
#print axioms MM.GHelper.convert_fails
#print axioms MM.SimplifyRetry.simplify_resumes_partial
#print axioms MM.SimplifyRetry.mapped_same_partial
#print axioms MM.SimplifyRetry.second_growth_fails
#print axioms MM.SimplifyRetry.road_lost_fails
#print axioms MM.NetDisk.prepared
#print axioms MM.NetDisk.prepared_again
#print axioms MM.NetDisk.others
#print axioms MM.NetDisk.exception_cleans
#print axioms MM.NetDisk.kinds_refused
#print axioms MM.NetDisk.interrupted_reading_partial
#print axioms MM.NetDisk.interrupted_archives_partial
#print axioms MM.NetDisk.version_refused_partial
#print axioms MM.NetDisk.mixed_fails
#print axioms MM.NetDisk.unfinished_fails
#print axioms MM.NetDisk.unbuilt_fails
#print axioms MM.NetDisk.version_fails
#print axioms MM.NetDisk.coordinates_fails
#print axioms MM.NetDisk.unwritable_fails
#print axioms MM.NetDisk.unreadable_fails
#print axioms MM.MatchRoute.match_follows_partial
#print axioms MM.MatchRoute.continuous_partial
#print axioms MM.MatchRoute.joint_removed
#print axioms MM.MatchRoute.standing
#print axioms MM.MatchRoute.match_tracks
#print axioms MM.MatchRoute.broken_bridged_fails
#print axioms MM.MatchRoute.corner_cut_fails
#print axioms MM.MatchRoute.standing_fails
#print axioms MM.IndexBuild.index_complete
#print axioms MM.IndexBuild.index_built
#print axioms MM.IndexBuild.find_id
#print axioms MM.IndexBuild.point_in_nodes
#print axioms MM.IndexBuild.point_in_edges_partial
#print axioms MM.IndexBuild.edges_found
#print axioms MM.IndexBuild.edges_nearest_partial
#print axioms MM.IndexBuild.both_ends
#print axioms MM.IndexBuild.free_space_fails
#print axioms MM.IndexBuild.point_in_edges_fails
#print axioms MM.IndexBuild.edges_nearest_fails
#print axioms MM.Report.tracks_reported
#print axioms MM.Report.tracks_console
#print axioms MM.Report.hmm_combinations
#print axioms MM.Report.match_counts
#print axioms MM.Report.matches_reported
#print axioms MM.Report.matches_console
#print axioms MM.Report.compares_reported
#print axioms MM.Report.compares_order
#print axioms MM.Report.compares_console
#print axioms MM.Report.weighted_range
#print axioms MM.Report.weighted_single_partial
#print axioms MM.Report.weighted_error_mean
#print axioms MM.Report.weighted_correct_partial
#print axioms MM.Report.file_written
#print axioms MM.Report.tracks_file
#print axioms MM.Report.console_no_rows
#print axioms MM.Report.misses_title_fails
#print axioms MM.Report.weighted_correct_fails
#print axioms MM.Report.weighted_single_fails
#print axioms MM.Report.console_fails
#print axioms MM.Report.file_lost_fails
#print axioms MM.Report.no_header_fails
#print axioms MM.Report.file_at
#print axioms MM.BufferBox.box_exact
#print axioms MM.BufferBox.box_covers
#print axioms MM.BufferBox.segment_box_covers
#print axioms MM.BufferBox.edges_within
#print axioms MM.BufferBox.circle_search
#print axioms MM.BufferBox.adopt_within
#print axioms MM.BufferBox.merge_within
#print axioms MM.BufferBox.compare_within
#print axioms MM.BufferBox.globe_covers_partial
#print axioms MM.BufferBox.globe_fails
#print axioms MM.BufferBox.spherical_fails
#print axioms MM.BufferBox.points_in
#print axioms MM.BufferBox.compass_at_distance
#print axioms MM.EdgeSwitch.switch_bounded_partial
#print axioms MM.EdgeSwitch.small_edges
#print axioms MM.EdgeSwitch.switch_direction
#print axioms MM.EdgeSwitch.zero_time_fails
#print axioms MM.EdgeSwitch.times_decide_fails
#print axioms MM.EdgeSwitch.unequal_times_fails
#print axioms MM.Reproject.point_iff
#print axioms MM.Reproject.line_points
#print axioms MM.Reproject.multi_lines
#print axioms MM.Reproject.tracks_placed
#print axioms MM.Reproject.lines_placed
#print axioms MM.Reproject.osm_partial
#print axioms MM.Reproject.osm_fails
#print axioms MM.Reproject.text_partial
#print axioms MM.Reproject.text_fails
#print axioms MM.Reproject.list_partial
#print axioms MM.Reproject.list_fails
#print axioms MM.Reproject.export_partial
#print axioms MM.Reproject.export_fails
#print axioms MM.Reproject.export_wrong_fails
#print axioms MM.Reproject.accept_partial
#print axioms MM.Reproject.same_type_fails
#print axioms MM.Reproject.create_refused_iff
#print axioms MM.Measures.directions_spec
#print axioms MM.Measures.directions_bounded
#print axioms MM.Measures.directions_turn
#print axioms MM.Measures.segments_partial
#print axioms MM.Measures.segments_fails
#print axioms MM.Measures.azimuth_ends
#print axioms MM.Measures.length_fails
#print axioms MM.CountAlloc.count_exact
#print axioms MM.CountAlloc.count_partial
#print axioms MM.CountAlloc.count_zero
#print axioms MM.CountAlloc.order_irrelevant
#print axioms MM.CountAlloc.failure_fails
#print axioms MM.CountAlloc.chain_fails
#print axioms MM.CountAlloc.resize_fails
#print axioms MM.CountAlloc.swap_fails
#print axioms MM.Profile.accept_iff
#print axioms MM.Profile.car_partial
#print axioms MM.Profile.manual_partial
#print axioms MM.Profile.refused_iff
#print axioms MM.Profile.key_fails
#print axioms MM.Profile.untagged_fails
#print axioms MM.Profile.car_reverse_fails
#print axioms MM.Profile.manual_reverse_fails
#print axioms MM.Profile.manual_default
#print axioms MM.Profile.import_refused
#print axioms MM.Ordering.eq_iff
#print axioms MM.Ordering.lt_iff
#print axioms MM.Ordering.order_partial
#print axioms MM.Ordering.hash_equal
#print axioms MM.Ordering.measurement_order
#print axioms MM.Ordering.sort_tracks
#print axioms MM.Ordering.create_partial
#print axioms MM.Ordering.nan_fails
#print axioms MM.Ordering.measurement_fails
#print axioms MM.Ordering.create_fails
#print axioms MM.QLearn.policy_walk
#print axioms MM.QLearn.whole_partial
#print axioms MM.QLearn.complete_partial
#print axioms MM.QLearn.stop_rule
#print axioms MM.QLearn.no_ub
#print axioms MM.QLearn.actions_offered
#print axioms MM.QLearn.settled_partial
#print axioms MM.QLearn.settled_stays
#print axioms MM.QLearn.few_episodes_fails
#print axioms MM.QLearn.rate_fails
#print axioms MM.Compare.adapt_points_partial
#print axioms MM.Compare.adapt_connected
#print axioms MM.Compare.split_path
#print axioms MM.Compare.split_points
#print axioms MM.Compare.prepare_connected
#print axioms MM.Compare.parts_lengths
#print axioms MM.Compare.adapt_start_fails
#print axioms MM.Compare.prepare_refines
#print axioms MM.Pipe.match_partial
#print axioms MM.Pipe.match_none
#print axioms MM.Pipe.match_bounded_partial
#print axioms MM.Pipe.chosen_route_partial
#print axioms MM.Pipe.weight_inputs_partial
#print axioms MM.Settings.tables_distinct
#print axioms MM.Settings.member_value
#print axioms MM.Settings.needed
#print axioms MM.Settings.match_setting
#print axioms MM.Settings.compare_setting
#print axioms MM.Settings.output_setting
#print axioms MM.Settings.csv_match_setting
#print axioms MM.Settings.csv_compare_setting
#print axioms MM.Settings.outer_agrees
#print axioms MM.Settings.shared_file_fails
#print axioms MM.Settings.messages_setting
#print axioms MM.Decide.values_give_plan
#print axioms MM.Decide.values_never_undefined
#print axioms MM.Decide.values_near_best_partial
#print axioms MM.Decide.values_best_partial
#print axioms MM.Decide.policies_best_partial
#print axioms MM.Decide.policies_stop_partial
#print axioms MM.Decide.policies_never_undefined
#print axioms MM.Pipe.decided_ends
#print axioms MM.Pipe.decided_none
#print axioms MM.Pipe.decided_partial
#print axioms MM.Pipe.decided_policies_partial
#print axioms MM.Pipe.decided_points
#print axioms MM.Pipe.decided_choice_partial
#print axioms MM.Pipe.decided_connected_fails
#print axioms MM.Pipe.travelled_ends
#print axioms MM.Pipe.travelled_partial
#print axioms MM.Pipe.travelled_policies_partial
#print axioms MM.Pipe.travelled_points
#print axioms MM.Pipe.insisted_ends
#print axioms MM.Pipe.insisted_partial
#print axioms MM.Pipe.insisted_policies_partial
#print axioms MM.Pipe.course_points
#print axioms MM.Prepare.prepared_edges
#print axioms MM.Prepare.prepared_nodes
#print axioms MM.Prepare.prepared_roads
#print axioms MM.Prepare.prepared_every
#print axioms MM.Prepare.prepared_drives
#print axioms MM.Prepare.prepared_distances_partial
#print axioms MM.Prepare.prepare_defined_iff
#print axioms MM.Prepare.permitted_by_tags
#print axioms MM.Prepare.prepared_laid
#print axioms MM.Prepare.prepared_answers
#print axioms MM.Prepare.matched_permitted_partial
#print axioms MM.Prepare.decided_permitted_partial
#print axioms MM.Prepare.overlap_fails
#print axioms MM.Prepare.one_way_lost_fails
#print axioms MM.Prepare.nothing_fails
#print axioms MM.Prepare.prepared_answers_within
#print axioms MM.Net.simplify_oneway
#print axioms MM.Net.simplify_again_partial
#print axioms MM.Net.simplify_again_fails
#print axioms MM.Net.simplify_again_ids_fails
#print axioms MM.Prepare.prepared_oneway
#print axioms MM.Prepare.prepared_twoway_partial
#print axioms MM.Storage.owned_partial
#print axioms MM.Storage.closed_partial
#print axioms MM.Storage.memory_partial
#print axioms MM.Storage.assign_fails
#print axioms MM.Storage.assign_leaves_fails
#print axioms MM.Storage.shrink_fails
#print axioms MM.Storage.same_file_fails
#print axioms MM.Storage.memory_assign_fails
#print axioms MM.AdjList.copy_from_partial
#print axioms MM.AdjList.copy_partial
#print axioms MM.AdjList.copy_reindexed
#print axioms MM.AdjList.growing_numbered
#print axioms MM.AdjList.assign_partial
#print axioms MM.AdjList.move_partial
#print axioms MM.AdjList.copy_fails
#print axioms MM.AdjList.copy_wrong_fails
#print axioms MM.AdjList.move_fails
#print axioms MM.AdjList.move_descriptors
#print axioms MM.Pipe.sought
#print axioms MM.Pipe.sought_combined
#print axioms MM.Pipe.sought_nearest
#print axioms MM.Pipe.nearest_partial
#print axioms MM.Pipe.sought_match_partial
#print axioms MM.Pipe.sought_nothing
#print axioms MM.Pipe.combined_misses_fails
#print axioms MM.Prepare.found_permitted_partial
#print axioms MM.Prepare.found_match_partial
#print axioms MM.Prepare.found_decided_partial
#print axioms MM.Prepare.found_nothing
#print axioms MM.Pipe.match_empty
#print axioms MM.RouteLife.values_partial
#print axioms MM.RouteLife.untouched_partial
#print axioms MM.RouteLife.part_dangles_fails
#print axioms MM.QEnv.offered_order
#print axioms MM.QEnv.run_defined_partial
#print axioms MM.QEnv.run_defined_fails
#print axioms MM.QEnv.learned_trip_partial
#print axioms MM.QEnv.learned_stop
#print axioms MM.QEnv.learned_entries
#print axioms MM.Pipe.learned_ends
#print axioms MM.Pipe.learned_partial
#print axioms MM.Pipe.learned_enough
#print axioms MM.Pipe.learned_sums
#print axioms MM.Pipe.learned_travelled_partial
#print axioms MM.Pipe.learned_insisted_partial
#print axioms MM.Pipe.learned_insisted_enough_partial
#print axioms MM.Pipe.prepared_drawn
#print axioms MM.Pipe.recorded_prefix
#print axioms MM.Pipe.recorded_parts_partial
#print axioms MM.Pipe.recorded_partial
#print axioms MM.Pipe.recorded_apart_partial
#print axioms MM.Prepare.recorded_permitted_partial
#print axioms MM.Prepare.recorded_best_partial
#print axioms MM.Pipe.methods_partial
#print axioms MM.Pipe.methods_apart_partial
#print axioms MM.Pipe.circle_gapless
#print axioms MM.Prepare.methods_permitted_partial
#print axioms MM.CompareRun.queued_exact
#print axioms MM.CompareRun.rows_partial
#print axioms MM.CompareRun.scores_range
#print axioms MM.CompareRun.same_partial
#print axioms MM.CompareRun.parts_irrelevant
#print axioms MM.CompareRun.cut_irrelevant
#print axioms MM.CompareRun.one_part
#print axioms MM.CompareRun.file_partial
#print axioms MM.CompareRun.refused_kinds
#print axioms MM.CompareRun.systems_fails
#print axioms MM.CompareRun.repeated_fails
#print axioms MM.TwoRuns.read_back
#print axioms MM.TwoRuns.only_input
#print axioms MM.TwoRuns.first_ends
#print axioms MM.TwoRuns.edges_of_second
#print axioms MM.TwoRuns.circle_of_second
#print axioms MM.TwoRuns.two_runs_partial
#print axioms MM.TwoRuns.two_runs_match_partial
#print axioms MM.TwoRuns.interrupted_partial
#print axioms MM.TwoRuns.again
#print axioms MM.TwoRuns.refused
#print axioms MM.TwoRuns.torn_fails
#print axioms MM.SegRef.make_exact
#print axioms MM.SegRef.make_defined
#print axioms MM.SegRef.assign_exact
#print axioms MM.SegRef.assign_own
#print axioms MM.SegRef.own_kept
#print axioms MM.SegRef.made_alone
#print axioms MM.SegRef.line_kept_partial
#print axioms MM.SegRef.defined_partial
#print axioms MM.SegRef.current_partial
#print axioms MM.SegRef.shifted_fails
#print axioms MM.SegRef.overwritten_fails
#print axioms MM.SegRef.dangling_fails
#print axioms MM.SegRef.nowhere_fails
#print axioms MM.SegRef.stale_fails
#print axioms MM.TagFlow.tags_exact
#print axioms MM.TagFlow.node_only
#print axioms MM.TagFlow.node_tags
#print axioms MM.TagFlow.road_has
#print axioms MM.TagFlow.road_tags_partial
#print axioms MM.TagFlow.road_only
#print axioms MM.TagFlow.compress_exact
#print axioms MM.TagFlow.prepared_partial
#print axioms MM.TagFlow.finished_refuses
#print axioms MM.TagFlow.spread_fails
#print axioms MM.TagFlow.version_fails
#print axioms MM.TagFlow.full_fails
#print axioms MM.OsmTags.vertex_tags_partial
#print axioms MM.OsmTags.edge_tags_partial
#print axioms MM.OsmTags.prepared_tags_partial
#print axioms MM.OsmTags.version_fails
#print axioms MM.Session.session_partial
#print axioms MM.Session.task_right
#print axioms MM.Session.all_written
#print axioms MM.Session.session_same_partial
#print axioms MM.Session.execute_same
#print axioms MM.Session.gpx_rows
#print axioms MM.Session.row_lost_fails
#print axioms MM.Exchange.read_written
#print axioms MM.Exchange.read_texts
#print axioms MM.Exchange.scored_partial
#print axioms MM.Exchange.sessions_agree_partial
#print axioms MM.GHelper.by_value_partial
#print axioms MM.GHelper.in_memory
#print axioms MM.GHelper.storage_suffices
#print axioms MM.GHelper.kept_at_once
#print axioms MM.GHelper.line_lost_fails
#print axioms MM.Route.return_line_partial
#print axioms MM.Route.zigzag_charged
#print axioms MM.Route.nothing_found
#print axioms MM.Route.no_meeting_fails
#print axioms MM.Route.eager_values_partial
#print axioms MM.Route.lazy_values_partial
#print axioms MM.Route.kinds_agree_partial
#print axioms MM.Route.eager_made
#print axioms MM.Route.blank_unconnected_fails
#print axioms MM.Route.not_made_fails
#print axioms MM.Route.eager_join_stale_fails
#print axioms MM.Route.eager_like_plain
#print axioms MM.Route.lazy_like_plain
#print axioms MM.SameSystem.same_system_partial
#print axioms MM.SameSystem.leads_named
#print axioms MM.SameSystem.leads_plain
#print axioms MM.SameSystem.without_options
#print axioms MM.SameSystem.other_kind
#print axioms MM.SameSystem.not_stored_fails
#print axioms MM.SameSystem.other_refused_fails
#print axioms MM.Keys.points_equal
#print axioms MM.Keys.lines_equal
#print axioms MM.Keys.others_equal
#print axioms MM.Keys.equal_hashes
#print axioms MM.Keys.comparisons_fair
#print axioms MM.Keys.itself_partial
#print axioms MM.Keys.containers_answer
#print axioms MM.Keys.not_a_number_fails
#print axioms MM.Keys.node_map_partial
#print axioms MM.Session.task_told_partial
#print axioms MM.Session.candidates_told_partial
