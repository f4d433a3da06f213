{
 "claims": [
  {
   "property": "C01",
   "status": "proved",
   "theorems": [
    "Edyn.DynTree.query_exact",
    "Edyn.DynTree.query_misses_nothing",
    "Edyn.DynTree.traverse_exact"
   ],
   "note": "all histories of create/move/destroy/clear, all query boxes, any insertion heuristic; scalars range over any linear order (no NaN)"
  },
  {
   "property": "C02",
   "status": "proved",
   "theorems": [
    "Edyn.DynTree.calls_defined",
    "Edyn.DynTree.proxy_stable"
   ],
   "note": "all histories; definedness covers the assertions, array bounds and loop termination"
  },
  {
   "property": "C03",
   "status": "proved",
   "theorems": [
    "Edyn.DynTree.tree_wellformed",
    "Edyn.DynTree.calls_defined"
   ],
   "note": "all histories; note AVL balance is not claimed: it is not an invariant of the code"
  },
  {
   "property": "C04",
   "status": "proved",
   "theorems": [
    "Edyn.StaticTree.build_exact",
    "Edyn.StaticTree.query_exact",
    "Edyn.StaticTree.query_single_exact",
    "Edyn.StaticTree.build_zero_undefined",
    "Edyn.StaticTree.query_empty_undefined"
   ],
   "note": "all arrays, any correct sort, any axis choice, any monotone centre function; max_obj_per_leaf = 0 and queries on an unbuilt tree are shown undefined"
  },
  {
   "property": "C05",
   "status": "proved",
   "theorems": [
    "Edyn.Graph.calls_defined",
    "Edyn.Graph.observers_exact",
    "Edyn.Graph.second_self_loop_asserts"
   ],
   "note": "all histories of insert/remove node and edge, remove_all_edges, set_connecting, clear; the second self-loop on a node is excluded by hypothesis and refuted separately"
  },
  {
   "property": "C06",
   "status": "proved",
   "theorems": [
    "Edyn.Graph.freeList_no_alias"
   ],
   "note": "all histories of insert/remove/clear/writes"
  },
  {
   "property": "C07",
   "status": "proved",
   "theorems": [
    "Edyn.Graph.connectedComponents_exact",
    "Edyn.Graph.clear_leaves_stale_nodes"
   ],
   "note": "all histories without clear (after clear the scan sees stale nodes: shown separately)"
  },
  {
   "property": "C08",
   "status": "proved",
   "theorems": [
    "Edyn.Graph.isSingle_exact"
   ],
   "note": "all histories without clear"
  },
  {
   "property": "C09",
   "status": "proved",
   "theorems": [
    "Edyn.Graph.traverse_exact",
    "Edyn.Graph.reach_exact"
   ],
   "note": "all histories, all pure predicates"
  },
  {
   "property": "C10",
   "status": "partial",
   "theorems": [
    "Edyn.Islands.bodies_live_in_one_island_partial",
    "Edyn.Islands.update_is_defined_partial",
    "Edyn.Islands.destruction_is_defined",
    "Edyn.Islands.kind_change_loses_body",
    "Edyn.Islands.destroying_stray_static_body_fails",
    "Edyn.Islands.clearing_new_constraint_breaks_update",
    "Edyn.Islands.early_kind_change_fails",
    "Edyn.Islands.static_pair_breaks_update",
    "Edyn.Islands.static_body_stays_listed"
   ],
   "note": "proved for all histories without changes of kind; with them it is false (witness: a static body made dynamic after its constraint went is in no island)"
  },
  {
   "property": "C100",
   "status": "partial",
   "theorems": [
    "Edyn.Mesh.Parallel.loads_partial",
    "Edyn.Mesh.Parallel.load_completes",
    "Edyn.Mesh.Parallel.external_loads",
    "Edyn.Mesh.Parallel.external_completes",
    "Edyn.Mesh.Parallel.broken_forever",
    "Edyn.Mesh.Parallel.wrong_page",
    "Edyn.Mesh.Parallel.LoadsFull_false"
   ],
   "note": "proved for external pages under every schedule and for embedded pages loaded one at a time. Refuted: with embedded pages all loads share one stream, so when two loads overlap a page can be given the mesh of another one, and once a read went beyond the end no page is ever loaded again"
  },
  {
   "property": "C101",
   "status": "partial",
   "theorems": [
    "Edyn.Collide.capsule_box_axis",
    "Edyn.Collide.capsule_box_distance_partial",
    "Edyn.Collide.capsule_box_near_partial",
    "Edyn.Collide.capsule_box_points_partial",
    "Edyn.Collide.box_capsule_points_partial",
    "Edyn.Collide.capsule_box_flat",
    "Edyn.Collide.capBoxPoints_spec",
    "Edyn.Collide.cap_box_closest",
    "Edyn.Collide.on_edge",
    "Edyn.Collide.inner_axis"
   ],
   "note": "direction, distance, threshold test and points. The distance is exact unless an edge of the box is almost, but not, parallel to the axis of the capsule, or too short. A capsule lying flat on a face has a point for each end over the face and, unless there are two, for each crossing with its border. Not proved: that one of these exists whenever the capsule is near, and that the pivot of a hemisphere against an edge is between the ends of the edge (it is on its line)"
  },
  {
   "property": "C11",
   "status": "partial",
   "theorems": [
    "Edyn.Islands.island_is_split_partial",
    "Edyn.Islands.bodies_live_in_one_island_partial",
    "Edyn.Islands.kind_change_does_not_split"
   ],
   "note": "proved for all histories without changes of kind: an island that lost something and still exists after the next update is connected; nothing lost or duplicated by C10; a change of kind does not flag the island (witness)"
  },
  {
   "property": "C12",
   "status": "partial",
   "theorems": [
    "Edyn.Islands.islands_sleep_as_a_whole_partial",
    "Edyn.Islands.sleeping_disabled_is_respected",
    "Edyn.Islands.sleeps_only_after_rest",
    "Edyn.Islands.wake_up_wakes_everything",
    "Edyn.Islands.removal_wakes_island",
    "Edyn.Islands.kind_change_breaks_sleep",
    "Edyn.Islands.newcomer_sleeps_at_once",
    "Edyn.Islands.sleepNow_ignores_sleeping_disabled"
   ],
   "note": "the mark is uniform in histories without changes of kind (witness otherwise); the rest rule is proved for all histories, the timer being per island; put_all_to_sleep, used by the extrapolation, ignores sleeping_disabled (witness)"
  },
  {
   "property": "C13",
   "status": "proved",
   "theorems": [
    "Edyn.Serial.round_trip",
    "Edyn.Serial.round_trip_archive",
    "Edyn.Serial.fixed_output_exact",
    "Edyn.Serial.serialization_sizeof_exact",
    "Edyn.Serial.write_defined"
   ],
   "note": "all types built from fundamentals, enums/entities, aggregates, vectors, vector<bool>, optionals, variants and (non-nested) maps; containers up to 65535 elements"
  },
  {
   "property": "C14",
   "status": "partial",
   "theorems": [
    "Edyn.Serial.reads_in_bounds",
    "Edyn.Serial.failure_sticky",
    "Edyn.Serial.truncation_detected",
    "Edyn.Serial.failed_read_keeps_target_partial",
    "Edyn.Serial.failed_read_alters_entity",
    "Edyn.Serial.failed_read_alters_optional",
    "Edyn.Serial.failed_read_alters_variant",
    "Edyn.Serial.failed_read_alters_map",
    "Edyn.Serial.failed_read_leaks_uninitialised"
   ],
   "note": "no out-of-bounds read, sticky failure and truncation detection proved for every buffer and type; that a failed read leaves its target unchanged is false in general (witnesses) and proved for plain types"
  },
  {
   "property": "C15",
   "status": "partial",
   "theorems": [
    "Edyn.Serial.long_vector_altered",
    "Edyn.Serial.long_vector_not_survive",
    "Edyn.Serial.long_map_desynchronises",
    "Edyn.Serial.source_unchanged_partial"
   ],
   "note": "false of the code beyond 65535 elements (witness theorems for every such vector); proved within the limit"
  },
  {
   "property": "C16",
   "status": "proved",
   "theorems": [
    "Edyn.EntityMap.run_defined_iff",
    "Edyn.EntityMap.lookups_match_spec",
    "Edyn.EntityMap.bijection",
    "Edyn.EntityMap.each_exact"
   ],
   "note": "all histories of all mutators; assertion failures/exceptions are modelled and characterised exactly"
  },
  {
   "property": "C17",
   "status": "partial",
   "theorems": [
    "Edyn.Repl.Mapping.identity_partial",
    "Edyn.Repl.Mapping.agree_partial",
    "Edyn.Repl.Mapping.never_fails_partial",
    "Edyn.Repl.Mapping.drained_partial",
    "Edyn.Repl.Mapping.drained_refuted",
    "Edyn.Repl.Mapping.race_leaves_orphan",
    "Edyn.Repl.Mapping.race_leaves_orphan_in_worker",
    "Edyn.Repl.Mapping.clear_leaves_mapping",
    "Edyn.Repl.Mapping.remake_fails"
   ],
   "note": "identity, agreement and absence of failures proved for every interleaving with any number of entities in which constraints are not remade; after draining the maps are inverse if no edge and one of its bodies are destroyed concurrently on the two sides; such a race leaves an entity behind (witnesses), as does clearing, and replacing a constraint can fail an assertion"
  },
  {
   "property": "C18",
   "status": "partial",
   "theorems": [
    "Edyn.Repl.RegOps.replay_partial",
    "Edyn.Repl.RegOps.replay_shape",
    "Edyn.Repl.RegOps.stored_refs_valid",
    "Edyn.Repl.RegOps.replay_refuted",
    "Edyn.Repl.RegOps.forward_reference_lost",
    "Edyn.Repl.RegOps.pair_with_itself",
    "Edyn.Repl.RegOps.wrong_element_dropped",
    "Edyn.Repl.RegOps.second_observation_breaks_references"
   ],
   "note": "entities, component types and plain data reproduced for every legal history; references too, if they name entities watched by then and no entity is observed twice; otherwise they become null, the other body or a stale entity (witnesses)"
  },
  {
   "property": "C19",
   "status": "proved",
   "theorems": [
    "Edyn.Parallel.Task.Blocking.wait_at_most_once",
    "Edyn.Parallel.Task.Blocking.wait_exactly_once",
    "Edyn.Parallel.Task.Blocking.wait_decrement_defined",
    "Edyn.Parallel.Task.Blocking.wait_terminates",
    "Edyn.Parallel.Task.Blocking.wait_progress",
    "Edyn.Parallel.Task.Async.async_at_most_once",
    "Edyn.Parallel.Task.Async.async_completion",
    "Edyn.Parallel.Task.Async.async_exactly_once",
    "Edyn.Parallel.Task.Async.async_step_defined",
    "Edyn.Parallel.Task.Async.async_terminates",
    "Edyn.Parallel.Task.Async.async_size_zero"
   ],
   "note": "all sizes below 2^31, worker counts and sequentially consistent interleavings; at size zero the asynchronous completion never runs (shown)"
  },
  {
   "property": "C20",
   "status": "proved",
   "theorems": [
    "Edyn.Parallel.MessageQueue.messages_exactly_once",
    "Edyn.Parallel.MessageQueue.sender_order",
    "Edyn.Parallel.MessageQueue.update_delivers_all",
    "Edyn.Parallel.MessageQueue.send_without_queue",
    "Edyn.Parallel.MessageQueue.second_handle_not_served"
   ],
   "note": "all interleavings of any number of senders and the receiver"
  },
  {
   "property": "C21",
   "status": "partial",
   "theorems": [
    "Edyn.Parallel.Worker.jobs_fifo",
    "Edyn.Parallel.Worker.stop_terminates_partial",
    "Edyn.Parallel.Worker.stop_before_run_blocks",
    "Edyn.Parallel.Worker.stop_drops_queued_jobs",
    "Edyn.Parallel.Worker.full_statement_false",
    "Edyn.Parallel.Worker.size_exact",
    "Edyn.Parallel.Worker.size_underflows",
    "Edyn.Parallel.Worker.async_least_busy",
    "Edyn.Parallel.Worker.async_all_underflowed"
   ],
   "note": "false of the code: a stop that overtakes the start of the thread is lost and jobs queued at stop are dropped (witnesses); proved: FIFO order, termination when the thread had started, placement"
  },
  {
   "property": "C22",
   "status": "proved",
   "theorems": [
    "Edyn.Net.ClockSync.delta_mean_of_consistent",
    "Edyn.Net.ClockSync.stray_response_ignored",
    "Edyn.Net.ClockSync.duplicate_response_ignored",
    "Edyn.Net.ClockSync.delta_changes_only_on_response",
    "Edyn.Net.ClockSync.delta_accuracy",
    "Edyn.Net.ClockSync.ideal_exchange_exact",
    "Edyn.Net.ClockSync.stale_samples_mixed"
   ],
   "note": "all message histories; samples of different rounds are mixed (shown)"
  },
  {
   "property": "C23",
   "status": "proved",
   "theorems": [
    "Edyn.Net.InputHistory.import_latest_exact",
    "Edyn.Net.InputHistory.import_each_exact",
    "Edyn.Net.InputHistory.replay_exact",
    "Edyn.Net.InputHistory.replay_value_exact",
    "Edyn.Net.InputHistory.eraseUntil_keeps",
    "Edyn.Net.InputHistory.recorded_ordered",
    "Edyn.Net.InputHistory.boundary_input_twice",
    "Edyn.Net.InputHistory.reordered_input_skipped"
   ],
   "note": "all time ordered histories and all step lengths; what happens to boundary entries and to unordered histories is shown by witness theorems"
  },
  {
   "property": "C24",
   "status": "proved",
   "theorems": [
    "Edyn.Net.ActionHistory.actions_at_most_once",
    "Edyn.Net.ActionHistory.actions_exactly_once",
    "Edyn.Net.ActionHistory.delivered_received",
    "Edyn.Net.ActionHistory.deliver_defined",
    "Edyn.Net.ActionHistory.client_keeps_recent",
    "Edyn.Net.ActionHistory.recent_packet_overlaps",
    "Edyn.Net.ActionHistory.jitter_repeats_action",
    "Edyn.Net.ActionHistory.late_tie_lost",
    "Edyn.Net.ActionHistory.nonpositive_lost",
    "Edyn.Net.ActionHistory.gap_loses_action"
   ],
   "note": "all histories of recording, trimming, packet loss, duplication and reordering with a constant clock delta; what happens when the hypotheses fail is shown by witness theorems"
  },
  {
   "property": "C25",
   "status": "partial",
   "theorems": [
    "Edyn.Net.Snapshot.snapshot_transfer_partial",
    "Edyn.Net.Snapshot.wire_round_trip",
    "Edyn.Net.Snapshot.insertAll_holds",
    "Edyn.Net.Snapshot.entity_256_aliases_first",
    "Edyn.Net.Snapshot.pool_of_256_reads_empty",
    "Edyn.Net.Snapshot.hostile_component_index_undefined",
    "Edyn.Net.Snapshot.hostile_entity_index_undefined"
   ],
   "note": "full transfer theorem for up to 256 entities, 255 per component and 65535 bytes per pool; beyond the limit the claim is false of the code (witness theorems)"
  },
  {
   "property": "C26",
   "status": "proved",
   "theorems": [
    "Edyn.Net.TimedQueue.timed_packets_exactly_once",
    "Edyn.Net.TimedQueue.timed_packets_not_early",
    "Edyn.Net.TimedQueue.timed_packets_not_late",
    "Edyn.Net.TimedQueue.timed_packets_in_order",
    "Edyn.Net.TimedQueue.timed_packet_processed",
    "Edyn.Net.TimedQueue.packetTimestamp_le"
   ],
   "note": "all arrival and processing histories"
  },
  {
   "property": "C27",
   "status": "partial",
   "theorems": [
    "Edyn.Net.DispatchActions.actions_executed_once_partial",
    "Edyn.Net.DispatchActions.two_entities_lose_action"
   ],
   "note": "proved when each client owns one entity with an action history; false in general (witness)"
  },
  {
   "property": "C28",
   "status": "proved",
   "theorems": [
    "Edyn.Net.ModifiedComps.modified_window_exact",
    "Edyn.Net.ModifiedComps.modified_once",
    "Edyn.Net.ModifiedComps.isEmpty_exact",
    "Edyn.Net.ModifiedComps.run_defined",
    "Edyn.Net.ModifiedComps.all_modified_asserts",
    "Edyn.Net.ModifiedComps.fast_updates_never_drop",
    "Edyn.Net.ModifiedComps.slow_update_drops_fresh"
   ],
   "note": "all histories of modifications and updates; corner cases shown by witness theorems"
  },
  {
   "property": "C29",
   "status": "partial",
   "theorems": [
    "Edyn.Net.AabbOfInterest.aoi_reports_exact_partial",
    "Edyn.Net.AabbOfInterest.collect_exact",
    "Edyn.Net.AabbOfInterest.aoi_difference_exact",
    "Edyn.Net.AabbOfInterest.async_report_wrong",
    "Edyn.Net.AabbOfInterest.destroyed_entry_keeps_asset"
   ],
   "note": "proved for synchronous updates; false when an entity is destroyed between the collection and the report (witness)"
  },
  {
   "property": "C30",
   "status": "proved",
   "theorems": [
    "Edyn.Collision.shouldCollide_iff",
    "Edyn.Collision.shouldCollide_symm",
    "Edyn.Collision.shouldCollide_false"
   ],
   "note": "all registries and all 64-bit masks"
  },
  {
   "property": "C31",
   "status": "proved",
   "theorems": [
    "Edyn.Collision.exclusions_exact",
    "Edyn.Collision.exclusion_lists_wellformed",
    "Edyn.Collision.clear_defined",
    "Edyn.Collision.self_exclusion_breaks_clear"
   ],
   "note": "all histories of exclude/remove/clear on distinct bodies; self-exclusion is refuted separately"
  },
  {
   "property": "C32",
   "status": "proved",
   "theorems": [
    "Edyn.ManifoldMap.lookup_exact",
    "Edyn.ManifoldMap.manifold_unique",
    "Edyn.ManifoldMap.makeIfAbsent_defined"
   ],
   "note": "all histories of manifold construction, destruction, swap and guarded creation"
  },
  {
   "property": "C33",
   "status": "partial",
   "theorems": [
    "Edyn.Contact.contact_lists",
    "Edyn.Contact.contact_calls_succeed",
    "Edyn.Contact.narrowphase_sequential",
    "Edyn.Contact.narrowphase_parallel",
    "Edyn.Contact.parallel_same_as_sequential",
    "Edyn.Contact.task_footprint",
    "Edyn.Contact.import_exact",
    "Edyn.Contact.nearest_point",
    "Edyn.Contact.persistent_contact",
    "Edyn.Contact.no_contact",
    "Edyn.Contact.points_not_lost",
    "Edyn.Contact.impulses_stay_partial",
    "Edyn.Contact.impulses_stay_refuted",
    "Edyn.Contact.impulse_carried_away",
    "Edyn.Contact.sleeping_untouched_partial",
    "Edyn.Contact.sleeping_untouched_refuted",
    "Edyn.Contact.import_impulses_refuted",
    "Edyn.Contact.kind_change_leaves_points"
   ],
   "note": "lists, bounds and what a step does to the points proved for all histories of manifolds, collision results in sequential and parallel mode, imports and clears; false: changing the kind of a body leaves its contact points behind without manifold, an impulse can be carried to a far away point, the parallel narrowphase processes sleeping manifolds, imported impulses are lost for new points (witnesses)"
  },
  {
   "property": "C34",
   "status": "proved",
   "theorems": [
    "Edyn.Stepping.steps_account_for_time",
    "Edyn.Stepping.at_most_max_steps",
    "Edyn.Stepping.update_leftover",
    "Edyn.Stepping.update_step_times",
    "Edyn.Stepping.simulation_keeps_up",
    "Edyn.Stepping.worker_agrees_with_sequential",
    "Edyn.Stepping.worker_leftover",
    "Edyn.Stepping.no_steps_while_paused",
    "Edyn.Stepping.worker_no_steps_while_paused"
   ],
   "note": "all histories of updates over any ordered field with floor; times are exact numbers, not doubles"
  },
  {
   "property": "C35",
   "status": "proved",
   "theorems": [
    "Edyn.Solver.impulses_within_limits_and_accounted",
    "Edyn.Solver.island_solver_impulses",
    "Edyn.Solver.iterate_succeeds",
    "Edyn.Solver.visit_satisfies_row"
   ],
   "note": "all row caches, orders of visits and numbers of iterations over any ordered field; exact arithmetic"
  },
  {
   "property": "C36",
   "status": "proved",
   "theorems": [
    "Edyn.Solver.friction_in_circle",
    "Edyn.Solver.rolling_in_circle",
    "Edyn.Solver.spin_in_limit",
    "Edyn.Solver.island_friction_limits",
    "Edyn.Solver.friction_at_most_coulomb"
   ],
   "note": "over any ordered field with square roots, instantiated at the reals"
  },
  {
   "property": "C37",
   "status": "proved",
   "theorems": [
    "Edyn.Solver.linear_momentum_conserved",
    "Edyn.Solver.angular_momentum_conserved",
    "Edyn.Solver.pointJac_moment",
    "Edyn.Solver.immovable_body_not_moved"
   ],
   "note": "all islands and orders of visits; angular momentum for rows without net moment, see C57 for which constraints those are"
  },
  {
   "property": "C38",
   "status": "partial",
   "theorems": [
    "Edyn.Solver.Pack.impulses_return_to_their_constraint",
    "Edyn.Solver.Pack.friction_refers_to_its_contact",
    "Edyn.Solver.Pack.prepare_succeeds",
    "Edyn.Solver.Slots.one_round_trip",
    "Edyn.Solver.Slots.soft_round_trip",
    "Edyn.Solver.Slots.cone_round_trip",
    "Edyn.Solver.Slots.hinge_round_trip",
    "Edyn.Solver.Slots.generic_round_trip",
    "Edyn.Solver.Slots.cv_round_trip",
    "Edyn.Solver.Slots.contact_round_trip",
    "Edyn.Solver.Slots.contact_extras_round_trip",
    "Edyn.Solver.Slots.point_round_trip_partial",
    "Edyn.Solver.Slots.point_reads_past_the_end",
    "Edyn.Solver.Slots.rows_fit",
    "Edyn.Solver.Slots.generic_overflows",
    "Edyn.Solver.Slots.too_many_types"
   ],
   "note": "packing and giving back proved for all islands, types, row counts and flags within the fixed capacity (16 rows and 8 constraints of an entity); beyond the capacity assertions fail, and a point constraint with friction between bodies at relative rest reads past the end (witnesses)"
  },
  {
   "property": "C39",
   "status": "partial",
   "theorems": [
    "Edyn.Solver.Machine.tasks_agree_with_sequential_partial",
    "Edyn.Solver.Machine.any_schedule_agrees_partial",
    "Edyn.Solver.Machine.any_order_integration",
    "Edyn.Solver.Machine.pending_tasks_can_run",
    "Edyn.Solver.Machine.zero_iterations_differ",
    "Edyn.Solver.Machine.many_iterations_differ"
   ],
   "note": "proved for 1 to 255 velocity iterations and at most 255 position iterations, for every convergence pattern and every schedule of the islands' tasks; with 0 or more than 255 the two drivers differ (witnesses)"
  },
  {
   "property": "C40",
   "status": "partial",
   "theorems": [
    "Edyn.Material.lookup_order_dependent",
    "Edyn.Material.lookup_normalised_partial"
   ],
   "note": "the full statement is refuted by a concrete history (comparator is not a strict weak order); proved when all pairs are written smaller id first"
  },
  {
   "property": "C41",
   "status": "partial",
   "theorems": [
    "Edyn.Core.UPair.eq_iff_same_elements",
    "Edyn.Core.UPair.eq_equivalence",
    "Edyn.Core.UPair.lt_not_strictWeakOrder",
    "Edyn.Core.UPair.lt_total_on_normal_partial",
    "Edyn.Core.UPair.lt_lex_on_normal_partial"
   ],
   "note": "equality part proved in full; the ordering part is false of the code (witness) and proved on normalised pairs"
  },
  {
   "property": "C42",
   "status": "proved",
   "theorems": [
    "Edyn.Core.FlatNested.sizes_exact",
    "Edyn.Core.FlatNested.elems_exact",
    "Edyn.Core.FlatNested.starts_sorted"
   ],
   "note": "all histories of push_array/push_back"
  },
  {
   "property": "C43",
   "status": "proved",
   "theorems": [
    "Edyn.Mesh.Cache.lru_order",
    "Edyn.Mesh.Cache.fresher_asymm",
    "Edyn.Mesh.Cache.evicts_least_recent",
    "Edyn.Mesh.Cache.making_room_ends",
    "Edyn.Mesh.Cache.requested_once",
    "Edyn.Mesh.Cache.missing_page_is_requested",
    "Edyn.Mesh.Cache.budget",
    "Edyn.Mesh.Cache.budget_one_at_a_time",
    "Edyn.Mesh.Cache.budget_refuted"
   ],
   "note": "for every interleaving of any number of threads; with k loads in flight the budget can be exceeded by k-1 pages (bound proved, and a witness that it is exceeded with two loads)"
  },
  {
   "property": "C44",
   "status": "proved",
   "theorems": [
    "Edyn.Mesh.Topo.init_succeeds",
    "Edyn.Mesh.Topo.face_edges",
    "Edyn.Mesh.Topo.face_edges_length",
    "Edyn.Mesh.Topo.edges_unique",
    "Edyn.Mesh.Topo.edge_faces",
    "Edyn.Mesh.Topo.manifold_edge_faces",
    "Edyn.Mesh.Topo.neighbour",
    "Edyn.Mesh.Topo.vertex_edges",
    "Edyn.Mesh.Topo.edge_faces_refuted",
    "Edyn.Mesh.Topo.neighbours_mutual_refuted"
   ],
   "note": "for all index lists; when more than two faces share an edge some of them are forgotten (witness, outside the claim)"
  },
  {
   "property": "C45",
   "status": "partial",
   "theorems": [
    "Edyn.Net.ClientDestroy.client_destroy_partial",
    "Edyn.Net.ClientDestroy.client_destroy_wrong_pair",
    "Edyn.Net.ClientDestroy.importing_ignored",
    "Edyn.Net.ClientDestroy.destroy_remote_exact",
    "Edyn.Net.ClientDestroy.destroy_asset_exact",
    "Edyn.Net.ClientDestroy.destroy_asset_missing_entry"
   ],
   "note": "false of the code when a local id equals another pair's remote id (witness); proved otherwise"
  },
  {
   "property": "C46",
   "status": "partial",
   "theorems": [
    "Edyn.Net.ExtrapolationWorker.requests_kept",
    "Edyn.Net.ExtrapolationWorker.next_message_wakes_partial",
    "Edyn.Net.ExtrapolationWorker.lost_wakeup",
    "Edyn.Net.ExtrapolationWorker.pending_forgotten",
    "Edyn.Net.ExtrapolationWorker.stop_lost",
    "Edyn.Net.ExtrapolationWorker.full_statement_false"
   ],
   "note": "order and dropping proved for all interleavings; that no request waits for ever is false (lost wake-up, forgotten pending request); the next message always wakes the worker"
  },
  {
   "property": "C47",
   "status": "partial",
   "theorems": [
    "Edyn.Contact.swap_mirrors",
    "Edyn.Contact.swap_swap",
    "Edyn.Contact.result_swap_swap",
    "Edyn.Contact.result_swap",
    "Edyn.Contact.mirrored_same_contact",
    "Edyn.Contact.merged_normal_agrees",
    "Edyn.Contact.swap_manifold_mirrors",
    "Edyn.Contact.swap_manifold_twice",
    "Edyn.Contact.swap_keeps_normal_partial",
    "Edyn.Contact.swapped_normal_reversed",
    "Edyn.Contact.swap_keeps_normal_refuted",
    "Edyn.Contact.import_mirrors_partial",
    "Edyn.Contact.import_loses_normal",
    "Edyn.Contact.import_mirrors_refuted",
    "Edyn.Contact.planeSpace_neg",
    "Edyn.Contact.swap_keeps_friction_partial",
    "Edyn.Contact.swap_keeps_friction_refuted"
   ],
   "note": "collision results fully proved; swapping a manifold is an involution and mirrors its points, but leaves the local normal, so that the position solver sees the opposite distance, and the friction impulses, one of which then points the wrong way (both proved for all contacts); importing a contact with swapped bodies attaches unattached normals"
  },
  {
   "property": "C48",
   "status": "proved",
   "theorems": [
    "Edyn.Math.rotate_dot",
    "Edyn.Math.rotate_length",
    "Edyn.Math.rotate_mul",
    "Edyn.Math.rotate_conjugate",
    "Edyn.Math.rotate_cross",
    "Edyn.Math.lengthSqr_mul",
    "Edyn.Math.sandwich_eq",
    "Edyn.Math.M3.ofQuat_rotate",
    "Edyn.Math.M3.ofQuat_mul",
    "Edyn.Math.M3.ofQuat_orthogonal",
    "Edyn.Math.M3.ofQuat_det",
    "Edyn.Math.M3.mul_mulVec",
    "Edyn.Math.world_object_round_trip",
    "Edyn.Math.world_object_round_trip_matrix",
    "Edyn.Math.spaces_agree",
    "Edyn.Math.M3.inverseSymmetric_spec",
    "Edyn.Math.inverse_spec",
    "Edyn.Math.toQuat_ofQuat",
    "Edyn.Math.planeSpace_orthonormal",
    "Edyn.Math.shortestArc_rotates",
    "Edyn.Math.integrate_unit",
    "Edyn.Math.integrate_always_unit",
    "Edyn.Math.integrate_turns",
    "Edyn.Math.slerp_rate",
    "Edyn.Math.integrate_rest",
    "Edyn.Math.slerp_spec",
    "Edyn.Math.axisAngle_spec",
    "Edyn.Math.axisAngle_z",
    "Edyn.Math.rotXYZ_eq",
    "Edyn.Math.angleBetween_not_shortest"
   ],
   "note": "all quaternions and vectors over any field (square roots and angles over the reals); exact arithmetic, no rounding; angle_between is not the angle along the shortest path its header promises (witness)"
  },
  {
   "property": "C49",
   "status": "partial",
   "theorems": [
    "Edyn.ChildList.list_mirrors_history_partial",
    "Edyn.ChildList.calls_defined",
    "Edyn.ChildList.readding_child_fails"
   ],
   "note": "the list mirrors every defined history; adding a removed child again is undefined behaviour (witness)"
  },
  {
   "property": "C50",
   "status": "partial",
   "theorems": [
    "Edyn.Net.Packets.asset_sync_response_id",
    "Edyn.Net.Packets.time_response_id",
    "Edyn.Net.Packets.query_response_id_partial",
    "Edyn.Net.Packets.query_entity_id_lost",
    "Edyn.Net.Packets.query_response_id_false",
    "Edyn.Net.Packets.packet_round_trip"
   ],
   "note": "proved for asset sync and time requests; refuted for entity queries, whose id is not serialized"
  },
  {
   "property": "C51",
   "status": "proved",
   "theorems": [
    "Edyn.Serial.paged_file_round_trip",
    "Edyn.Serial.offsets_exact",
    "Edyn.Serial.offsets_defined",
    "Edyn.Serial.submeshPath_injective",
    "Edyn.Serial.submeshPath_ne",
    "Edyn.Serial.long_member_misplaces_submeshes"
   ],
   "note": "all meshes within the container limit, all load orders; beyond the limit the offsets are wrong (shown)"
  },
  {
   "property": "C54",
   "status": "partial",
   "theorems": [
    "Edyn.Islands.islands_are_components_partial",
    "Edyn.Islands.flag_lost_in_merge",
    "Edyn.Islands.flag_lost_for_good",
    "Edyn.Islands.unrelated_bodies_share_island",
    "Edyn.Islands.kind_change_does_not_split"
   ],
   "note": "false of the code: an island waiting to be split that is merged in the same update loses its flag (witness); proved otherwise"
  },
  {
   "property": "C55",
   "status": "partial",
   "theorems": [
    "Edyn.Stepping.pause_not_simulated_partial",
    "Edyn.Stepping.worker_pause_not_simulated",
    "Edyn.Stepping.pause_is_simulated"
   ],
   "note": "proved for the simulation worker; false for the sequential stepper, whose first update after resuming simulates the pause (witness)"
  },
  {
   "property": "C56",
   "status": "partial",
   "theorems": [
    "Edyn.Contact.Mat.table_entry_partial",
    "Edyn.Contact.Mat.table_entry_overridden",
    "Edyn.Contact.Mat.table_entry_refuted",
    "Edyn.Contact.Mat.material_of_last_place",
    "Edyn.Contact.Mat.material_symmetric",
    "Edyn.Contact.Mat.mixing_bounds"
   ],
   "note": "updates of a contact with a mesh with per-vertex values override the entry of the table (witness); proved otherwise"
  },
  {
   "property": "C57",
   "status": "partial",
   "theorems": [
    "Edyn.Solver.builtin_constraints_push_oppositely",
    "Edyn.Solver.builtin_constraints_no_moment_partial",
    "Edyn.Solver.cvjoint_adds_angular_momentum",
    "Edyn.Solver.generic_adds_angular_momentum"
   ],
   "note": "linear part proved for all built-in constraints; the angular part is false of bent constant velocity joints and of generic constraints with separated pivots (witnesses), proved otherwise"
  },
  {
   "property": "C58",
   "status": "proved",
   "theorems": [
    "Edyn.Solver.visit_satisfies_row",
    "Edyn.Solver.kinetic_energy_never_increases",
    "Edyn.Solver.bounce",
    "Edyn.Solver.prepareRow_inelastic",
    "Edyn.Solver.collision_energy",
    "Edyn.Solver.gap_not_crossed",
    "Edyn.Solver.restitution_above_one"
   ],
   "note": "all islands and orders of visits to rows; a restitution above one does add energy (witness)"
  },
  {
   "property": "C59",
   "status": "partial",
   "theorems": [
    "Edyn.Solver.Position.correction_keeps_orientations_unit",
    "Edyn.Solver.Position.immovable_body_not_corrected",
    "Edyn.Solver.Position.corrected_bodies_in_sync",
    "Edyn.Solver.Position.centre_of_mass_kept",
    "Edyn.Solver.Position.correction_removes_a_fifth",
    "Edyn.Solver.Position.contact_distance_right_partial",
    "Edyn.Solver.Position.stale_origin_used"
   ],
   "note": "all histories of corrections; the contact distance is computed from a stale origin when the centre of mass is off the origin (witness), proved otherwise"
  },
  {
   "property": "C60",
   "status": "partial",
   "theorems": [
    "Edyn.Contact.insertion_in_range",
    "Edyn.Contact.four_points_best",
    "Edyn.Contact.two_points_best",
    "Edyn.Contact.three_points_middle_partial",
    "Edyn.Contact.three_points_end_replaced",
    "Edyn.Contact.three_points_order_matters",
    "Edyn.Contact.third_point_branch_dead"
   ],
   "note": "over any ordered field; with three collinear points the result depends on their order (witness)"
  },
  {
   "property": "C61",
   "status": "partial",
   "theorems": [
    "Edyn.Mesh.Cache.thickness_partial",
    "Edyn.Mesh.Cache.thickness_refuted"
   ],
   "note": "false: set_thickness does not store the value, pages loaded later get the old one (witness); proved for pages that stay in memory"
  },
  {
   "property": "C62",
   "status": "partial",
   "theorems": [
    "Edyn.Mesh.Cache.use_safe_partial",
    "Edyn.Mesh.Cache.use_safe_refuted"
   ],
   "note": "false: another thread can evict the page between the test and the use (witness schedule); proved when no other step falls in between"
  },
  {
   "property": "C63",
   "status": "partial",
   "theorems": [
    "Edyn.Mesh.Cache.events_track_pages_partial",
    "Edyn.Mesh.Cache.events_refuted",
    "Edyn.Mesh.Cache.report_partial",
    "Edyn.Mesh.Cache.report_only_users",
    "Edyn.Mesh.Cache.report_refuted"
   ],
   "note": "false: clear_cache is silent, and only one of the entities sharing a mesh is told (witnesses); proved otherwise"
  },
  {
   "property": "C64",
   "status": "partial",
   "theorems": [
    "Edyn.Mesh.Interp.bary_weights",
    "Edyn.Mesh.Interp.bary_sum",
    "Edyn.Mesh.Interp.face_value",
    "Edyn.Mesh.Interp.face_value_between",
    "Edyn.Mesh.Interp.edge_value_is",
    "Edyn.Mesh.Interp.edge_value_partial",
    "Edyn.Mesh.Interp.edge_value_refuted",
    "Edyn.Mesh.Interp.edge_influence"
   ],
   "note": "faces proved over any field; along an edge the fraction is that of squared lengths, so that the value at the middle is at one quarter (witness, and the exact value proved for all fractions)"
  },
  {
   "property": "C65",
   "status": "proved",
   "theorems": [
    "Edyn.Mesh.Convex.succeeds",
    "Edyn.Mesh.Convex.neighbour_normal",
    "Edyn.Mesh.Convex.boundary_convex",
    "Edyn.Mesh.Convex.edge_convex",
    "Edyn.Mesh.Interp.convex_same",
    "Edyn.Mesh.Interp.convex_below",
    "Edyn.Mesh.Interp.convex_iff_below",
    "Edyn.Mesh.Interp.convex_implies_below"
   ],
   "note": "exactly up to the tolerance of the code, over ordered fields, for edges with one or two faces which are oriented consistently"
  },
  {
   "property": "C66",
   "status": "partial",
   "theorems": [
    "Edyn.Mesh.Split.page_succeeds",
    "Edyn.Mesh.Split.page_triangle",
    "Edyn.Mesh.Split.page_size",
    "Edyn.Mesh.Split.page_vertices",
    "Edyn.Mesh.Split.page_convex",
    "Edyn.Mesh.Split.page_query",
    "Edyn.Mesh.Split.paged_visit",
    "Edyn.Mesh.Split.boundary_refuted"
   ],
   "note": "all but the boundary flags, which are those of the page (witness); degenerate triangles are excluded for convexity; queries are about fully loaded meshes"
  },
  {
   "property": "C67",
   "status": "partial",
   "theorems": [
    "Edyn.Geom.box_aabb_spec",
    "Edyn.Geom.sphere_aabb_spec",
    "Edyn.Geom.capsule_aabb_spec",
    "Edyn.Geom.cylinder_aabb_partial",
    "Edyn.Geom.cylinder_aabb_slack",
    "Edyn.Geom.cylinder_full_refuted",
    "Edyn.Geom.cloud_aabb_spec",
    "Edyn.Geom.rotated_cloud_encloses",
    "Edyn.Geom.compound_aabb_encloses",
    "Edyn.Geom.aabb_to_world_encloses",
    "Edyn.Geom.aabb_to_world_touches",
    "Edyn.Geom.aabb_to_object_encloses",
    "Edyn.Geom.aabb_to_object_touches",
    "Edyn.Geom.plane_aabb_partial",
    "Edyn.Geom.plane_full_refuted",
    "Edyn.Geom.mesh_aabb_partial",
    "Edyn.Geom.moved_mesh_left_out"
   ],
   "note": "boxes, spheres, capsules, polyhedra and transformed boxes: containment and tightness; cylinders nearly parallel to a coordinate plane stick out (bounded, witness), planes are cut at 99999 and meshes must not be moved (witnesses)"
  },
  {
   "property": "C68",
   "status": "partial",
   "theorems": [
    "Edyn.Geom.closest_segment_spec",
    "Edyn.Geom.closest_line_spec",
    "Edyn.Geom.closest_degenerate",
    "Edyn.Geom.closest_line_line_spec",
    "Edyn.Geom.closest_segments_partial",
    "Edyn.Geom.closest_segments_refuted",
    "Edyn.Geom.second_pair_partial",
    "Edyn.Geom.second_pair_wrong_sign",
    "Edyn.Geom.closest_disc_spec",
    "Edyn.Geom.closest_box_outside_spec",
    "Edyn.Geom.closest_box_inside_partial",
    "Edyn.Geom.closest_box_inside_none",
    "Edyn.Geom.box_inside_distance_wrong",
    "Edyn.Geom.degenerate_count_unwritten"
   ],
   "note": "points, lines, discs and outer points of boxes proved; segments unless nearly but not exactly parallel (witness); the second pair of parallel segments can be wrong and the distance for points inside of a box is wrong (witnesses); the number of pairs is not written for degenerate segments; arithmetic is exact"
  },
  {
   "property": "C69",
   "status": "partial",
   "theorems": [
    "Edyn.Geom.box_support_spec",
    "Edyn.Geom.cylinder_support_partial",
    "Edyn.Geom.cylinder_support_slack",
    "Edyn.Geom.cylinder_support_refuted",
    "Edyn.Geom.capsule_support_partial",
    "Edyn.Geom.capsule_refuted",
    "Edyn.Geom.circle_support_partial",
    "Edyn.Geom.circle_support_refuted",
    "Edyn.Geom.cloud_support_spec",
    "Edyn.Geom.Poly.climb_terminates",
    "Edyn.Geom.Poly.polyhedron_projection_spec",
    "Edyn.Geom.Poly.rotated_projection_spec",
    "Edyn.Geom.Poly.neighbours_of",
    "Edyn.Geom.Poly.unused_vertex_stops"
   ],
   "note": "boxes, point clouds and convex polyhedra proved in every direction; cylinders and discs unless the direction is nearly parallel to the axis or short (witness, error bounded), capsules for unit directions (witness); a first vertex without faces stops the hill climbing (witness); convexity of a polyhedron is the hypothesis that every vertex sees the others within the cone of its edges"
  },
  {
   "property": "C70",
   "status": "partial",
   "theorems": [
    "Edyn.Geom.sphere_ray_partial",
    "Edyn.Geom.sphere_ray_refuted",
    "Edyn.Geom.sphere_ray_center",
    "Edyn.Geom.plane_ray_partial",
    "Edyn.Geom.plane_ray_refuted",
    "Edyn.Geom.plane_ray_behind",
    "Edyn.Geom.box_ray_partial",
    "Edyn.Geom.box_ray_refuted",
    "Edyn.Geom.box_ray_inside",
    "Edyn.Geom.box_ray_behind",
    "Edyn.Geom.box_ray_degenerate",
    "Edyn.Geom.poly_ray_partial",
    "Edyn.Geom.poly_enters",
    "Edyn.Geom.poly_ray_refuted",
    "Edyn.Geom.cube_perpendicular_missed",
    "Edyn.Geom.poly_ray_parallel_hit",
    "Edyn.Geom.cyl_ray_partial",
    "Edyn.Geom.cyl_ray_refuted",
    "Edyn.Geom.cyl_ray_behind",
    "Edyn.Geom.cyl_side_normal_wrong",
    "Edyn.Geom.cyl_axis_normal_undefined",
    "Edyn.Geom.cyl_perpendicular_undefined",
    "Edyn.Geom.cyl_rim_missed",
    "Edyn.Geom.cap_ray_partial",
    "Edyn.Geom.cap_ray_refuted",
    "Edyn.Geom.cap_parallel_normal_undefined",
    "Edyn.Geom.cap_hemisphere_normal_wrong",
    "Edyn.Geom.cap_junction_missed",
    "Edyn.Geom.segment_triangle_partial",
    "Edyn.Geom.segment_triangle_refuted",
    "Edyn.Geom.mesh_ray_partial",
    "Edyn.Geom.mesh_ray_refuted",
    "Edyn.Geom.paged_ray_partial",
    "Edyn.Geom.loaded_all",
    "Edyn.Geom.compound_ray_partial"
   ],
   "note": "for each shape the result is proved correct outside of the positions which the code gets wrong, and each of those has a witness: fractions above 1 and below 0, wrong or undefined normals of cylinders and capsules, polyhedra entered at right angles, placed meshes; exact real arithmetic"
  },
  {
   "property": "C71",
   "status": "partial",
   "theorems": [
    "Edyn.Collide.Good.facts",
    "Edyn.Collide.swap_right",
    "Edyn.Collide.sphere_sphere_partial",
    "Edyn.Collide.sphere_sphere_always",
    "Edyn.Collide.sphere_sphere_refuted",
    "Edyn.Collide.sphere_plane_partial",
    "Edyn.Collide.sphere_plane_refuted",
    "Edyn.Collide.sphere_plane_threshold",
    "Edyn.Collide.sphere_box_partial",
    "Edyn.Collide.sphere_box_attachment",
    "Edyn.Collide.sphere_box_inside_partial",
    "Edyn.Collide.sphere_box_refuted",
    "Edyn.Collide.sphere_box_skin",
    "Edyn.Collide.capsule_sphere_partial",
    "Edyn.Collide.capsule_sphere_refuted",
    "Edyn.Collide.capsule_plane_partial",
    "Edyn.Collide.capsule_plane_feature",
    "Edyn.Collide.capsule_plane_refuted",
    "Edyn.Collide.capsule_capsule_partial",
    "Edyn.Collide.capsule_capsule_refuted",
    "Edyn.Collide.capsule_capsule_collinear",
    "Edyn.Collide.cylinder_sphere_partial",
    "Edyn.Collide.cylinder_sphere_feature",
    "Edyn.Collide.cylinder_sphere_refuted",
    "Edyn.Collide.maybe_add_all",
    "Edyn.Collide.GoodWithin.facts",
    "Edyn.Collide.box_plane_spec",
    "Edyn.Collide.cylinder_plane_partial",
    "Edyn.Collide.support_polygon_spec",
    "Edyn.Collide.polyhedron_plane_partial",
    "Edyn.Collide.polyhedron_sphere_partial",
    "Edyn.Collide.polyhedron_sphere_refuted"
   ],
   "note": "spheres, planes, boxes, capsules and cylinders in the pairs listed; pivots and distances right away from the degenerate placements stated; the wrong cases are witnesses"
  },
  {
   "property": "C72",
   "status": "partial",
   "theorems": [
    "Edyn.Box.intersect_iff",
    "Edyn.Geom.segment_aabb_partial",
    "Edyn.Geom.segment_aabb_refuted",
    "Edyn.Geom.line_circle_partial",
    "Edyn.Geom.line_circle_refuted",
    "Edyn.Geom.circle_circle_partial",
    "Edyn.Geom.circle_circle_refuted",
    "Edyn.Geom.segments2_partial",
    "Edyn.Geom.segments2_refuted",
    "Edyn.Geom.line_aabb_partial",
    "Edyn.Geom.line_aabb_refuted",
    "Edyn.Geom.segment_triangle_partial",
    "Edyn.Geom.segment_triangle_refuted",
    "Edyn.Geom.point_in_triangle",
    "Edyn.Geom.point_in_prism",
    "Edyn.Geom.point_in_prism_few"
   ],
   "note": "two boxes, points and triangles or polygons proved; a segment and a box never rejects a common point and is exact without tolerance; the other tests are exact outside of the listed special positions, each with a witness that the code is wrong there; arithmetic is exact"
  },
  {
   "property": "C73",
   "status": "partial",
   "theorems": [
    "Edyn.Geom.castAll_nearest",
    "Edyn.Geom.castAll_order",
    "Edyn.Geom.world_visited",
    "Edyn.Geom.rayTest_monotone",
    "Edyn.Geom.world_ray_partial",
    "Edyn.Geom.sphere_fair",
    "Edyn.Geom.world_ray_refuted",
    "Edyn.Geom.world_ray_hidden"
   ],
   "note": "for all reachable trees, ignore lists and visiting orders: the nearest of the fractions reported for the shapes, and the first point of a body if the shapes are cast correctly; a fraction above 1 is reported as a hit, and a shape behind the start hides the others (witnesses)"
  },
  {
   "property": "C74",
   "status": "partial",
   "theorems": [
    "Edyn.Geom.Poly.edges_exact",
    "Edyn.Geom.Poly.edges_succeed",
    "Edyn.Geom.Poly.closed_edges",
    "Edyn.Geom.Poly.edges_in_range",
    "Edyn.Geom.Poly.face_normal_spec",
    "Edyn.Geom.Poly.face_normal_unit",
    "Edyn.Geom.Poly.relevant_faces_spec",
    "Edyn.Geom.Poly.relevant_edges_spec",
    "Edyn.Geom.Poly.validate_spec",
    "Edyn.Geom.Poly.validate_hull",
    "Edyn.Geom.Poly.mesh_support_spec",
    "Edyn.Geom.Poly.open_mesh_accepted",
    "Edyn.Geom.Poly.second_update_breaks_support"
   ],
   "note": "edges, normals, relevant directions and validation proved; deriving the properties twice gives neighbours which fail the assertion of the support function (witness); exact real arithmetic"
  },
  {
   "property": "C75",
   "status": "partial",
   "theorems": [
    "Edyn.Geom.box_feature_corners",
    "Edyn.Geom.box_face_spec",
    "Edyn.Geom.box_face_placed",
    "Edyn.Geom.box_edge_tables",
    "Edyn.Geom.box_edge_faces",
    "Edyn.Geom.box_support_feature_partial",
    "Edyn.Geom.box_support_feature_at",
    "Edyn.Geom.box_feature_thin",
    "Edyn.Geom.box_feature_three",
    "Edyn.Geom.box_closest_feature_spec",
    "Edyn.Geom.cylinder_feature_spec",
    "Edyn.Geom.cylinder_feature_at",
    "Edyn.Geom.tri_feature_partial",
    "Edyn.Geom.tri_feature_refuted",
    "Edyn.Geom.tri_feature_far",
    "Edyn.Geom.tri_clip_spec"
   ],
   "note": "all directions and tolerances: the features of cylinders are right; the features of boxes lie within the tolerance of the furthest corner and contain it, but a box flatter than the tolerance leaves out corners and the lowest of three close corners is dropped; the projection of a triangle can be up to the tolerance too small and its features can reach down twice the tolerance"
  },
  {
   "property": "C76",
   "status": "partial",
   "theorems": [
    "Edyn.Mass.mesh_volume_spec",
    "Edyn.Mass.mesh_centroid_spec",
    "Edyn.Mass.shift_to_centroid",
    "Edyn.Mass.box_mesh_mass",
    "Edyn.Mass.solid_volume",
    "Edyn.Mass.solid_fills",
    "Edyn.Mass.compound_volume_partial"
   ],
   "note": "simple shapes and closed meshes of any size proved as Lebesgue integrals; compounds if their parts overlap in null sets only, overlapping parts are counted twice; exact real arithmetic"
  },
  {
   "property": "C77",
   "status": "partial",
   "theorems": [
    "Edyn.Geom.furthest2_spec",
    "Edyn.Geom.split_spec",
    "Edyn.Geom.convex_hull_partial",
    "Edyn.Geom.convex_hull_small",
    "Edyn.Geom.hull_refuted",
    "Edyn.Geom.closest_polygon_partial",
    "Edyn.Geom.closest_polygon_refuted"
   ],
   "note": "the recursion always ends, hull points are different points of the border, no triangle beyond a side has more than half the tolerance as area; the tolerance is no distance (witness); the closest point of a polygon is right when returned, points beyond acute corners are taken to be inside (witness)"
  },
  {
   "property": "C78",
   "status": "partial",
   "theorems": [
    "Edyn.Mass.poly_inertia_partial",
    "Edyn.Mass.poly_inertia_refuted",
    "Edyn.Mass.solid_inertia_partial",
    "Edyn.Mass.capsule_inertia_partial",
    "Edyn.Mass.capsule_inertia_wrong",
    "Edyn.Mass.inertia_refuted",
    "Edyn.Mass.placed_mass",
    "Edyn.Mass.solid_right",
    "Edyn.Mass.compound_inertia_partial"
   ],
   "note": "boxes, spheres and cylinders proved; the matrix of a polyhedron has its products of inertia with the wrong sign (proved for all meshes, witness); that of a capsule is never right (proved for all sizes and axes); compounds are right if their parts are, do not overlap and have their centre of mass at their origin"
  },
  {
   "property": "C79",
   "status": "partial",
   "theorems": [
    "Edyn.Net.Auth.server_authority_partial",
    "Edyn.Net.Auth.snapshot_adds_nothing",
    "Edyn.Net.Auth.names_known",
    "Edyn.Net.Auth.create_takes_over",
    "Edyn.Net.Auth.authority_refuted",
    "Edyn.Net.Auth.late_packet_applied",
    "Edyn.Net.Auth.own_update_applied",
    "Edyn.Net.Auth.constraint_at_static_rejected",
    "Edyn.Net.Auth.snapshot_of_plain_entity_crashes",
    "Edyn.Net.Auth.name_twice_crashes",
    "Edyn.Net.Auth.create_again_crashes"
   ],
   "note": "proved for all runs with hostile clients, except for two exceptions which are both shown to occur: a packet which creates entities overwrites any entity the client has a name for, including its owner; permission is checked on arrival but the packet applied after the delay. Packets which crash the server are witnessed"
  },
  {
   "property": "C80",
   "status": "partial",
   "theorems": [
    "Edyn.Body.body_consistent_partial",
    "Edyn.Body.body_suited",
    "Edyn.Body.current_after_step",
    "Edyn.Body.impulse_momentum",
    "Edyn.Body.torque_momentum",
    "Edyn.Body.body_refuted",
    "Edyn.Body.rolling_goes_stale",
    "Edyn.Body.mesh_moves",
    "Edyn.Body.world_inertia_behind",
    "Edyn.Body.never_dynamic",
    "Edyn.Body.kinematic_without_velocity",
    "Edyn.Body.dynamic_valid",
    "Edyn.Body.static_invalid",
    "Edyn.Body.box_at_com",
    "Edyn.Body.origin_behind"
   ],
   "note": "consistency proved for all sequences; suitability for the kind proved if the kind is not changed, and refuted otherwise; derived components are right after every step, but behind in between (witnesses)"
  },
  {
   "property": "C81",
   "status": "proved",
   "theorems": [
    "Edyn.Body.com_keeps_motion",
    "Edyn.Body.com_twice",
    "Edyn.Body.com_can_be_set",
    "Edyn.Body.origin_round_trip",
    "Edyn.Body.static_without_com",
    "Edyn.Body.present_origin_wrong",
    "Edyn.Body.com_inertia"
   ],
   "note": "exact real arithmetic; bodies with velocities (a static body cannot be given a centre of mass, witness); the inertia is only shifted when the body is made (witness)"
  },
  {
   "property": "C82",
   "status": "partial",
   "theorems": [
    "Edyn.Body.clear_removes_partial",
    "Edyn.Body.make_again_partial",
    "Edyn.Body.clear_refuted",
    "Edyn.Body.origin_left",
    "Edyn.Body.kinematic_position",
    "Edyn.Body.kinematic_orientation_partial",
    "Edyn.Body.kinematic_orientation_same",
    "Edyn.Body.kinematic_orientation_refuted"
   ],
   "note": "the stored origin is left behind (witness), everything else is removed; rotations are exact for angular speeds from 0.001 and unless the new orientation is the negative of the old one, where the code divides by zero (witness)"
  },
  {
   "property": "C83",
   "status": "partial",
   "theorems": [
    "Edyn.Present.no_jump_partial",
    "Edyn.Present.no_jump_refuted",
    "Edyn.Present.offset_shrinks",
    "Edyn.Present.offset_vanishes",
    "Edyn.Present.worker_partial",
    "Edyn.Present.worker_refuted",
    "Edyn.Present.rest_refuted",
    "Edyn.Present.disabled_drifts",
    "Edyn.Present.decay_not_as_documented",
    "Edyn.Present.paused_shows_state"
   ],
   "note": "a correction of an awake body is hidden up to the cut-off of small offsets, offsets shrink and vanish within a number of frames given by the rate, offsets of the worker add up if no update has two corrections; refuted: sleeping bodies jump when corrected, bodies which fall asleep stay shown at the old offset, disabled bodies drift away, two corrections in one worker update count the first one twice, the decay rate is not what is documented"
  },
  {
   "property": "C84",
   "status": "partial",
   "theorems": [
    "Edyn.Present.shows_the_path",
    "Edyn.Present.onPath_unique",
    "Edyn.Present.shown_within",
    "Edyn.Present.shown_between",
    "Edyn.Present.shown_orientation",
    "Edyn.Present.delay_bounded",
    "Edyn.Present.target_bounds",
    "Edyn.Present.delay_steady",
    "Edyn.Present.delay_approaches",
    "Edyn.Present.time_forward_partial",
    "Edyn.Present.time_forward_refuted",
    "Edyn.Present.within_refuted",
    "Edyn.Present.not_far_ahead"
   ],
   "note": "sequential stepper: the shown position is exactly the point of the path one step ago; asynchronous: the delay is bounded and approaches its aim; refuted: the shown time can go backwards when the delay grows fast, and bodies can be shown several steps back along their current velocity"
  },
  {
   "property": "C85",
   "status": "partial",
   "theorems": [
    "Edyn.Query.rays_answered_partial",
    "Edyn.Query.raycast_nearest",
    "Edyn.Query.rays_refuted",
    "Edyn.Query.rays_translated",
    "Edyn.Query.boxes_answered",
    "Edyn.Query.boxes_translated",
    "Edyn.Query.plain_spec",
    "Edyn.Query.interest_spec"
   ],
   "note": "AABB queries proved; rays proved if the broadphase finds any candidate: otherwise the delegate is never called (refuted). Identifiers are not wrapped around"
  },
  {
   "property": "C86",
   "status": "partial",
   "theorems": [
    "Edyn.Restitution.only_velocities_and_impulses",
    "Edyn.Restitution.impulses_admissible",
    "Edyn.Restitution.restitution_momentum",
    "Edyn.Restitution.slow_contacts_do_not_bounce",
    "Edyn.Restitution.resolved_or_exhausted",
    "Edyn.Restitution.isolated_bounce",
    "Edyn.Restitution.isolated_bounce_energy",
    "Edyn.Restitution.group_reports_impulses",
    "Edyn.Restitution.restitution_defined_partial",
    "Edyn.Restitution.sensor_undefined",
    "Edyn.Restitution.reported_refuted",
    "Edyn.Restitution.stale_impulse",
    "Edyn.Restitution.energy_refuted",
    "Edyn.Restitution.arm_spec"
   ],
   "note": "proved for all worlds except: reading the material of a contact with a sensor is undefined (witness), reported impulses are those of the last group solved and not the sum (witness), energy may grow with several contacts (witness)"
  },
  {
   "property": "C87",
   "status": "partial",
   "theorems": [
    "Edyn.Collide.box_box_axis",
    "Edyn.Collide.box_box_depth_partial",
    "Edyn.Collide.box_box_overlap_partial",
    "Edyn.Collide.near_parallel_reported",
    "Edyn.Collide.box_box_points",
    "Edyn.Collide.box_box_contact_partial",
    "Edyn.Collide.box_box_contact_refuted"
   ],
   "note": "the axis and the exact signed distance along it for all boxes; overlap and depth if edges are parallel or clearly not so, refuted for nearly parallel long boxes; the points reported for boxes at least four tolerances thick; boxes in clear position (General) which meet get at least one point; refuted in general for an edge exactly along the diagonal of a face"
  },
  {
   "property": "C88",
   "status": "partial",
   "theorems": [
    "Edyn.Collide.mesh_facets",
    "Edyn.Collide.sphere_axis_nearest",
    "Edyn.Collide.sphere_triangle_partial",
    "Edyn.Collide.sphere_triangle_far",
    "Edyn.Collide.sphere_triangle_sound",
    "Edyn.Collide.sphere_mesh_points",
    "Edyn.Collide.sphere_mesh_touch_partial",
    "Edyn.Collide.sphere_mesh_far_partial",
    "Edyn.Collide.sphere_mesh_missed",
    "Edyn.Collide.sphere_mesh_ghost"
   ],
   "note": "what holds for every point, for all meshes and spheres; a sphere in front of a triangle or beyond its edge is treated exactly if the closest feature is clear of the tolerance and the adjacent faces bend away; refuted in general: a sphere just outside of a boundary edge overlaps and gets no point, and one far below a lone triangle gets one"
  },
  {
   "property": "C89",
   "status": "partial",
   "theorems": [
    "Edyn.Broad.operations_defined_partial",
    "Edyn.Broad.parallel_same",
    "Edyn.Broad.update_frame",
    "Edyn.Broad.manifold_survives_iff",
    "Edyn.Broad.new_manifold_meets",
    "Edyn.Broad.one_manifold_per_pair",
    "Edyn.Broad.pairs_found_partial",
    "Edyn.Broad.seen_kept",
    "Edyn.Broad.still_found_partial",
    "Edyn.Broad.pairs_exact_partial",
    "Edyn.Broad.update_steady",
    "Edyn.Broad.apart_unpaired",
    "Edyn.Broad.bodies_queried_partial",
    "Edyn.Broad.moved_static_missed",
    "Edyn.Broad.broadFull_false",
    "Edyn.Broad.shape_set_twice_fails",
    "Edyn.Broad.shape_removed_fails"
   ],
   "note": "proved for all histories in which an AABB is not added twice between updates nor removed from a body with a manifold (both fail, witnesses); pairs are found unless the second body is static, asleep or disabled and its AABB was changed after the broadphase saw it (refuted for a static body that is moved). Scalars are an ordered group, rounding not modelled; the tree of islands is not included"
  },
  {
   "property": "C90",
   "status": "partial",
   "theorems": [
    "Edyn.Collide.compound_shape_points",
    "Edyn.Collide.compound_shape_partial",
    "Edyn.Collide.compound_plane_right",
    "Edyn.Collide.compound_mesh_points",
    "Edyn.Collide.compound_compound_partial",
    "Edyn.Collide.compound_of_spheres_partial",
    "Edyn.Collide.near_compound_missed",
    "Edyn.Collide.compoundShapeFull_false",
    "Edyn.Collide.compoundCompoundFull_false"
   ],
   "note": "every point is a point of the child it names, for whatever functions collide the children; compounds which touch another shape get a point if the function for the children does; with planes and meshes the result is exactly as good as that for the children; refuted with simple shapes and compounds: shapes within the threshold whose boxes do not overlap get no point. Paged meshes are not included"
  },
  {
   "property": "C91",
   "status": "partial",
   "theorems": [
    "Edyn.Poly.polyhedra_current",
    "Edyn.Poly.step_current",
    "Edyn.Poly.keeps_current",
    "Edyn.Poly.init_current",
    "Edyn.Poly.init_defined",
    "Edyn.Poly.keeps_boxed",
    "Edyn.Poly.moved_boxed",
    "Edyn.Poly.turned_boxed_partial",
    "Edyn.Poly.destroy_releases",
    "Edyn.Poly.boxed_encloses",
    "Edyn.Poly.no_leak_partial",
    "Edyn.Poly.turned_box_stale",
    "Edyn.Poly.turnedBoxedFull_false",
    "Edyn.Poly.turned_before_init_fails",
    "Edyn.Poly.replaced_before_init_fails",
    "Edyn.Poly.stepped_before_init_fails",
    "Edyn.Poly.turned_static_stale",
    "Edyn.Poly.new_shape_old_box",
    "Edyn.Poly.replaced_compound_leaks",
    "Edyn.Poly.noLeakFull_false"
   ],
   "note": "asynchronous mode: the rotated copies are right after every history for every body whose shape has been taken up; sequential modes: after every step for the bodies that move; boxes after every step and every move. Refuted: the box of a polyhedron the user turns is that of its old orientation, a static one turned in the sequential modes collides in its old orientation, a static body keeps the box of its old shape, a shape changed or used before it is taken up is an error, lists of a replaced compound are not released"
  },
  {
   "property": "C92",
   "status": "partial",
   "theorems": [
    "Edyn.Obj.tri_mesh_loaded_partial",
    "Edyn.Obj.meshes_loaded_partial",
    "Edyn.Obj.polyhedra_loaded_partial",
    "Edyn.Obj.compound_loaded_partial",
    "Edyn.Obj.meshesLoadedFull_false",
    "Edyn.Obj.triMeshLoadedFull_false",
    "Edyn.Obj.shared_vertices_fail",
    "Edyn.Obj.tab_vertex_lost",
    "Edyn.Obj.name_with_space",
    "Edyn.Obj.nameless_merged",
    "Edyn.Obj.negative_corner",
    "Edyn.Obj.missing_vertex",
    "Edyn.Obj.two_corners_shift",
    "Edyn.Obj.colors_misaligned",
    "Edyn.Obj.short_vertex_undefined",
    "Edyn.Obj.bad_number_undefined",
    "Edyn.Obj.second_file",
    "Edyn.Obj.empty_file_fails"
   ],
   "note": "proved for all files whose commands stand at the start of the line before a space and, for lists of meshes, whose objects have vertices and use their own only; false otherwise (witnesses): tabs and indented lines lose vertices, objects sharing vertices fail an assertion, relative corners become indices out of range. The value of a word as a number is a parameter; arithmetic is exact"
  },
  {
   "property": "C93",
   "status": "partial",
   "theorems": [
    "Edyn.Extra.starts_from_last_sent_partial",
    "Edyn.Extra.others_keep",
    "Edyn.Extra.result_exact",
    "Edyn.Extra.extrapolate_total",
    "Edyn.Extra.destroy_total",
    "Edyn.Extra.reportedFull_false",
    "Edyn.Extra.reset_not_reported",
    "Edyn.Extra.startsFull_false",
    "Edyn.Extra.leftover_stored_as_remote",
    "Edyn.Extra.aborted_values_lost",
    "Edyn.Extra.empty_result_fails",
    "Edyn.Extra.register_again_fails",
    "Edyn.Extra.register_again_forgets",
    "Edyn.Extra.new_input_not_reported"
   ],
   "note": "initial state proved for all histories in which the entities of each snapshot are known and take part, and component types are registered before entities exist; result proved to hold exactly the components replaced through the registry. Refuted beyond that (witnesses): what the solver moves is reported only if the snapshot holds it; bodies that were hit but take no part next time, kinematic bodies and aborted snapshots start from stale values; an empty result fails an assertion; registering types later loses all entities. Child entities in components, islands and contact manifolds are not included"
  },
  {
   "property": "C94",
   "status": "partial",
   "theorems": [
    "Edyn.Collide.polyhedron_polyhedron_partial",
    "Edyn.Collide.solid_of_mesh",
    "Edyn.Collide.polyAxis_spec",
    "Edyn.Collide.polyPairs_spec",
    "Edyn.Collide.polyEdgeCand_spec",
    "Edyn.Collide.minkowski_faces",
    "Edyn.Collide.faces_minkowski",
    "Edyn.Collide.aligned_undefined",
    "Edyn.Collide.PolyPolyFull_false",
    "Edyn.Collide.tetra_defined"
   ],
   "note": "direction, distance, opposite points and existence of a point for features that clearly meet proved for all convex polyhedra whenever some pair of edges makes a face of the Minkowski difference; otherwise the call reads uninitialised variables (two cubes of the same orientation). Not proved: a point whenever the shapes are within the threshold, since features are taken up to a tolerance"
  },
  {
   "property": "C95",
   "status": "partial",
   "theorems": [
    "Edyn.Collide.polyhedron_capsule_partial",
    "Edyn.Collide.polyhedron_capsule_distance_partial",
    "Edyn.Collide.closest_feature",
    "Edyn.Collide.closest_exists",
    "Edyn.Collide.closed_of_mesh",
    "Edyn.Collide.tetra_closed",
    "Edyn.Collide.tetra_full",
    "Edyn.Collide.capAxis_spec",
    "Edyn.Collide.capEdgeCand_spec",
    "Edyn.Collide.capPoints_spec"
   ],
   "note": "the call is always defined; the distance is the gap along the normal and the largest of all compared directions; with the axis outside, the normal and distance are those of the closest points and no points are reported exactly beyond the threshold; every point is good. Not proved: a point whenever the shapes are within the threshold (proved if the capsule is tilted, the feature is a vertex or the axis clearly meets it), and capsules whose axis enters the polyhedron"
  },
  {
   "property": "C96",
   "status": "partial",
   "theorems": [
    "Edyn.Contact.Fric.set_friction_partial",
    "Edyn.Contact.Fric.reach_current",
    "Edyn.Contact.Fric.setFriction_defined",
    "Edyn.Contact.Fric.updated_exact",
    "Edyn.Contact.Fric.current_friction",
    "Edyn.Contact.Fric.sensor_undefined",
    "Edyn.Contact.Fric.factor_lost",
    "Edyn.Contact.Fric.late_entry",
    "Edyn.Contact.Fric.SetFrictionFull_false"
   ],
   "note": "proved for all histories in which no entry of the table is made for a pair in contact, and up to the per-vertex factor of a mesh, which is missing between the call and the next update of the point. Refuted: the call for a body without material, the factor, entries made while in contact"
  },
  {
   "property": "C97",
   "status": "partial",
   "theorems": [
    "Edyn.Cfg.settings_partial",
    "Edyn.Cfg.refresh_exact",
    "Edyn.Cfg.extrapolation_settings",
    "Edyn.Cfg.async_contacts",
    "Edyn.Cfg.sequential_paused",
    "Edyn.Cfg.sequential_contacts",
    "Edyn.Cfg.gravity_stale",
    "Edyn.Cfg.role_stale",
    "Edyn.Cfg.both_roles_fail",
    "Edyn.Cfg.SettingsFull_false"
   ],
   "note": "proved for all histories, except the default gravity and the role of a server, which are changed without telling the threads, and, for the extrapolation thread, whether the simulation is paused. Refuted: the default gravity, a client that becomes a server, and sequential execution, where creating contacts accesses an empty optional in every step"
  },
  {
   "property": "C98",
   "status": "partial",
   "theorems": [
    "Edyn.Net.ActionData.actions_arrive_partial",
    "Edyn.Net.ActionData.actions_exact",
    "Edyn.Net.ActionData.history_round_trip",
    "Edyn.Net.ActionData.others_not_recorded",
    "Edyn.Net.ActionData.import_defined",
    "Edyn.Net.ActionData.truncated_ignored",
    "Edyn.Net.ActionData.bad_index_undefined",
    "Edyn.Net.ActionData.large_list_lost",
    "Edyn.Net.ActionData.ActionsArriveFull_false"
   ],
   "note": "proved for all types, lists and updates when a list has at most 255 actions and 65535 bytes and the history at most 255 entries; what arrives of longer lists is characterised exactly. Refuted: the 256th pending action is removed from the client's own list, a list of more than 65535 bytes is lost as a whole, and a received entry with the index of no action type is undefined behaviour on the server"
  },
  {
   "property": "C99",
   "status": "partial",
   "theorems": [
    "Edyn.Ragdoll.assembled_partial",
    "Edyn.Ragdoll.gaps_exact",
    "Edyn.Ragdoll.frames_meet",
    "Edyn.Ragdoll.limits_allow_zero",
    "Edyn.Ragdoll.total_mass",
    "Edyn.Ragdoll.joined_excluded",
    "Edyn.Ragdoll.joined_through_excluded",
    "Edyn.Ragdoll.connected",
    "Edyn.Ragdoll.sides_mirror",
    "Edyn.Ragdoll.parts_complete",
    "Edyn.Ragdoll.shapes_valid_partial",
    "Edyn.Ragdoll.short_neck",
    "Edyn.Ragdoll.right_hand_apart",
    "Edyn.Ragdoll.AssembledFull_false"
   ],
   "note": "proved for all definitions with a unit orientation: frames, limits, masses, exclusions, connectedness and the anchors of all joints but five, whose gaps are given exactly. Refuted: the right hand starts as far from its wrist as the hand is thicker than the forearm (one centimetre by default), neck, head and upper arms are a few millimetres or less apart, and the neck's capsule has a negative length below 1.2 metres"
  }
 ]
}