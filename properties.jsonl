{"id": "C01", "title": "Broadphase tree queries report exactly the overlapping proxies", "statement": "After any sequence of create/move/destroy/clear calls on a dynamic_tree, query(aabb, func) calls func exactly once for every live proxy whose stored (inflated) AABB intersects aabb, and for no other id.", "quantifier": "all finite histories of create, move, destroy, clear; all AABBs; all outcomes of the insertion-cost heuristic and of rebalancing", "why_tests_cant": "the tree shape depends on the whole history and on floating-point cost comparisons; a test visits a handful of shapes", "anchors": ["include/edyn/collision/dynamic_tree.hpp: dynamic_tree", "src/edyn/collision/dynamic_tree.cpp: create, move, destroy, insert, remove, balance, refit", "include/edyn/collision/query_tree.hpp: traverse_tree, query_tree"]}
{"id": "C02", "title": "Broadphase proxies are stable and always enclose the body", "statement": "The id returned by create stays valid (same user entity, a leaf) until destroy is called on it, whatever is done to other proxies; create never returns a live id; and after create or move with a box, the stored AABB of the proxy contains that box (move returns false exactly when the stored AABB already contained it).", "quantifier": "all histories and all boxes", "why_tests_cant": "id stability must survive every rotation, re-insertion and node recycling", "anchors": ["src/edyn/collision/dynamic_tree.cpp: allocate, free, create, move", "include/edyn/comp/aabb.hpp: inset, contains"]}
{"id": "C03", "title": "The broadphase tree is always a well-formed, leak-free binary tree", "statement": "After any history with n live proxies the tree reachable from the root is a full binary tree with exactly n leaves and n-1 internal nodes, every other slot of the node array is on the free list exactly once, each internal AABB encloses its children's, each stored height equals the true height, and parent/child links are mutually inverse.", "quantifier": "all histories", "why_tests_cant": "structural corruption appears only after particular interleavings of removals and rotations", "anchors": ["src/edyn/collision/dynamic_tree.cpp: insert, remove, refit, balance, allocate, free"]}
{"id": "C04", "title": "Static tree assigns each item to exactly one leaf and queries miss nothing", "statement": "static_tree::build over any non-empty array of AABBs with max_obj_per_leaf >= 1 terminates, reports every input index in exactly one leaf (each leaf getting between 1 and max_obj_per_leaf indices), every node AABB encloses everything below it, and a query visits every leaf holding an item that intersects the query box.", "quantifier": "all arrays of AABBs, all sizes, all partition outcomes, all query boxes", "why_tests_cant": "recursion depth and split positions depend on the data; coincident centres are the rare case", "anchors": ["include/edyn/collision/static_tree.hpp: build, recursive_build, query", "include/edyn/collision/static_tree.hpp: aabb_set_partition"]}
{"id": "C05", "title": "Entity graph behaves as an undirected multigraph", "statement": "For any sequence of insert_node, insert_edge, remove_edge, remove_node, remove_all_edges that respects the documented preconditions, the graph's observable content (which nodes, which edges with which endpoints, has_adjacency, visit_edges, visit_neighbors) equals that of the mathematical multigraph obtained by the same operations, and no internal assertion fires.", "quantifier": "all operation histories, any number of parallel edges", "why_tests_cant": "the adjacency/edge linked lists are spliced in many configurations", "anchors": ["src/edyn/core/entity_graph.cpp: insert_edge, remove_edge, remove_all_edges, insert_adjacency, remove_adjacency_edge, remove_adjacency", "include/edyn/core/entity_graph.hpp: visit_neighbors, visit_edges"]}
{"id": "C06", "title": "Node and edge indices are never aliased", "statement": "An index returned by insert_node/insert_edge (free_list::insert) is different from every index currently in use, and stays usable until it is removed; count equals the number of live elements.", "quantifier": "all histories of insert/remove/clear", "why_tests_cant": "aliasing needs a specific free/allocate interleaving across chunk growth", "anchors": ["include/edyn/core/free_list.hpp: insert, remove, clear, count"]}
{"id": "C07", "title": "connected_components returns the true components", "statement": "connected_components partitions exactly the connecting (procedural) nodes into the classes of the relation 'joined by a path all of whose nodes are connecting', each connecting node in exactly one component; non-connecting nodes appear in every component they touch; every edge appears in the components of its endpoints.", "quantifier": "all multigraphs reachable by the graph API", "why_tests_cant": "graph shapes are unbounded; order of traversal depends on list order", "anchors": ["src/edyn/core/entity_graph.cpp: connected_components"]}
{"id": "C08", "title": "is_single_connected_component decides connectivity", "statement": "is_single_connected_component returns true exactly when the graph has a single component as reported by connected_components.", "quantifier": "all multigraphs reachable by the graph API", "why_tests_cant": "must agree on every graph", "anchors": ["src/edyn/core/entity_graph.cpp: is_single_connected_component"]}
{"id": "C09", "title": "Graph traversals visit exactly the reachable part, each node once", "statement": "reach/traverse starting at a node visit precisely the nodes reachable by paths whose interior nodes are connecting (and accepted by the predicate), each node at most once, and terminate.", "quantifier": "all graphs, all start nodes, all predicates", "why_tests_cant": "cycles and parallel edges make re-visits depend on order", "anchors": ["include/edyn/core/entity_graph.hpp: reach, traverse"]}
{"id": "C10", "title": "Every procedural body lives in exactly one island", "statement": "After every island_manager update, each procedural node is a member of exactly one island, the island's member list and the node's island reference agree, each edge belongs to the island of its procedural endpoint, and two procedural bodies connected by an edge are in the same island.", "quantifier": "all histories of node/edge construction, destruction and procedural-tag changes", "why_tests_cant": "merging and splitting sequences are unbounded", "anchors": ["src/edyn/simulation/island_manager.cpp: init_new_nodes_and_edges, insert_to_island, merge_islands, split_islands, on_destroy_graph_node, on_destroy_graph_edge"]}
{"id": "C11", "title": "Islands are split when they come apart", "statement": "After split_islands has processed an island flagged for splitting, its remaining procedural members form a single connected component, and no member is lost or duplicated.", "quantifier": "all histories", "why_tests_cant": "depends on which edge was cut in which graph", "anchors": ["src/edyn/simulation/island_manager.cpp: split_islands"]}
{"id": "C12", "title": "An island falls asleep as a whole, only after resting long enough", "statement": "put_to_sleep marks the island, all procedural member nodes and member edges as sleeping; wake_up removes the mark from all; an island with a sleeping-disabled body never sleeps; and an island is put to sleep only if on every update over at least island_time_to_sleep seconds all its members were below the velocity thresholds.", "quantifier": "all histories of updates with arbitrary velocities", "why_tests_cant": "timer logic over unbounded update histories", "anchors": ["src/edyn/simulation/island_manager.cpp: put_to_sleep, wake_up, could_go_to_sleep, put_islands_to_sleep"]}
{"id": "C13", "title": "Serialization round trip", "statement": "Writing a value with memory_output_archive and reading the bytes with memory_input_archive yields the same value and consumes exactly the written bytes, for integers, bools, enums, vectors, strings, arrays, optionals, variants, pairs, maps and nested combinations (containers up to the length limit).", "quantifier": "all values of all supported (nested) types", "why_tests_cant": "unbounded nesting and lengths", "anchors": ["include/edyn/serialization/memory_archive.hpp", "include/edyn/serialization/std_s11n.hpp", "include/edyn/serialization/s11n_util.hpp"]}
{"id": "C14", "title": "Deserialization of untrusted bytes never reads out of bounds and failure is sticky", "statement": "For every byte string, reading any type from memory_input_archive only reads inside the buffer, and once a read fails every later read fails and leaves its target unchanged.", "quantifier": "all byte strings, all types, all read sequences", "why_tests_cant": "network input is adversarial", "anchors": ["include/edyn/serialization/memory_archive.hpp: memory_input_archive"]}
{"id": "C15", "title": "Containers longer than 65535 are not silently altered by serialization", "statement": "Serializing a vector or string never loses elements and never changes the source object.", "quantifier": "all lengths", "why_tests_cant": "limit-length inputs are rarely tested", "anchors": ["include/edyn/serialization/std_s11n.hpp: serialize(vector), serialize(string)"]}
{"id": "C16", "title": "entity_map is always a bijection", "statement": "After any sequence of insert/erase/erase_local/erase_if/swap/clear respecting the preconditions, at(r)=l exactly when at_local(l)=r; so lookups in both directions are mutually inverse and each entity is in at most one pair.", "quantifier": "all histories", "why_tests_cant": "must hold for every history", "anchors": ["include/edyn/replication/entity_map.hpp"]}
{"id": "C17", "title": "Main-thread and worker agree on entity identity", "statement": "When the main thread creates and destroys entities and exchanges registry operations with the simulation worker over FIFO queues, under every interleaving, any two mapped entities on both sides refer to the same logical entity, and when all queues are drained the two maps are inverse to one another.", "quantifier": "all interleavings of creations, destructions and message deliveries on both sides", "why_tests_cant": "unbounded schedules", "anchors": ["src/edyn/simulation/stepper_async.cpp", "src/edyn/simulation/simulation_worker.cpp", "include/edyn/replication/registry_operation.hpp"]}
{"id": "C18", "title": "Replaying a registry operation stream reproduces the source registry", "statement": "Executing the operations recorded by a registry_operation_builder, in order, on a destination registry with an entity map makes each mapped entity carry exactly the components (with mapped entity references) that the source recorded.", "quantifier": "all operation sequences and component values", "why_tests_cant": "order dependence over unbounded streams", "anchors": ["include/edyn/replication/registry_operation.hpp", "include/edyn/replication/registry_operation_builder.hpp", "src/edyn/replication/map_child_entity.cpp"]}
{"id": "C19", "title": "Parallel tasks process each index exactly once", "statement": "enqueue_task_wait/enqueue_task over size n calls the task on ranges which together cover each index in [0,n) exactly once, under every interleaving and any number of workers; the completion runs exactly once, after all ranges (n>0), and the waiting call returns only after all ranges are done.", "quantifier": "all sizes, chunk sizes, numbers of workers and all interleavings", "why_tests_cant": "schedules cannot be enumerated by tests", "anchors": ["src/edyn/context/task.cpp"]}
{"id": "C20", "title": "Message queues deliver every message exactly once in order", "statement": "Messages pushed by any number of senders to a message_queue are handed to the receiver exactly once; messages from one sender arrive in the order sent.", "quantifier": "all interleavings of push and update", "why_tests_cant": "concurrent schedules", "anchors": ["include/edyn/parallel/message_dispatcher.hpp", "include/edyn/parallel/message_queue.hpp"]}
{"id": "C21", "title": "A worker that is started and stopped terminates after finishing its queue", "statement": "After worker::stop, the worker thread eventually exits and every job pushed before stop has been run exactly once.", "quantifier": "all interleavings of start, push, stop and the worker loop", "why_tests_cant": "race conditions", "anchors": ["include/edyn/parallel/worker.hpp", "src/edyn/parallel/job_queue.cpp"]}
{"id": "C22", "title": "Clock synchronization converges only on consistent samples", "statement": "The time delta estimate changes only after responses matching the outstanding request id; it is the mean of at most N stored samples, each of which satisfied the round-trip consistency check; stray or duplicated responses have no effect.", "quantifier": "all message histories, including lost, duplicated and forged responses", "why_tests_cant": "network histories are unbounded", "anchors": ["src/edyn/networking/util/clock_sync.cpp", "include/edyn/networking/util/clock_sync.hpp"]}
{"id": "C23", "title": "Input history replays each recorded input", "statement": "Replaying an input history over consecutive time steps applies every recorded input whose timestamp lies in the replayed interval, in time order, and the latest input not after a given time is the one restored by import_latest.", "quantifier": "all histories and all step boundaries", "why_tests_cant": "boundary timestamps and unbounded histories", "anchors": ["include/edyn/networking/util/input_state_history.hpp"]}
{"id": "C24", "title": "Action history merging neither loses nor repeats actions", "statement": "Merging overlapping action histories received over an unreliable channel adds each action exactly once and keeps them in timestamp order.", "quantifier": "all sequences of overlapping, repeated or lost packets", "why_tests_cant": "unbounded loss patterns", "anchors": ["include/edyn/networking/comp/action_history.hpp"]}
{"id": "C25", "title": "Registry snapshots restore exactly the exported component values", "statement": "Exporting components of a set of entities into a registry snapshot, serializing, and importing on the other side assigns to each mapped entity exactly the exported values.", "quantifier": "all entity sets (any size), all component values", "why_tests_cant": "index widths overflow only for large sets", "anchors": ["include/edyn/networking/util/pool_snapshot_data.hpp", "include/edyn/networking/util/pool_snapshot.hpp", "include/edyn/networking/packet/registry_snapshot.hpp"]}
{"id": "C26", "title": "Timed packets are processed in timestamp order, after the playout delay, exactly once", "statement": "Whatever the arrival order, the server processes each queued packet of a client exactly once, in non-decreasing timestamp order (arrival order among equals), and never before its timestamp plus playout delay.", "quantifier": "all arrival orders, times and playout delays", "why_tests_cant": "reordering patterns are unbounded", "anchors": ["src/edyn/networking/sys/server_side.cpp: insert_packet_to_queue, server_process_timed_packets"]}
{"id": "C27", "title": "Every action of every owned entity is executed exactly once on the server", "statement": "Each action in the history of an entity owned by a client is executed exactly once, once its timestamp is due.", "quantifier": "all clients, owned entities and timestamp patterns", "why_tests_cant": "requires several entities with interleaved timestamps", "anchors": ["src/edyn/networking/sys/server_side.cpp: dispatch_actions"]}
{"id": "C28", "title": "Recently modified components keep being sent for the whole window", "statement": "A component marked as modified is included in the exported set until 400 ms after its last modification and then dropped; other components' entries are unaffected.", "quantifier": "all histories of bumps and elapsed times", "why_tests_cant": "decay uses swap-with-last removal; order dependent", "anchors": ["include/edyn/networking/comp/exporter_modified_components.hpp"]}
{"id": "C29", "title": "Area-of-interest changes are reported exactly", "statement": "Each update of a client's AABB of interest reports precisely the entities that entered and those that left since the previous update, so that the accumulated reports equal the current set.", "quantifier": "all histories of AABB contents", "why_tests_cant": "unbounded histories", "anchors": ["src/edyn/networking/sys/update_aabbs_of_interest.cpp"]}
{"id": "C30", "title": "Collision filtering is symmetric", "statement": "should_collide_default(a,b) equals should_collide_default(b,a), is false for a body with itself, for bodies excluding each other and whenever either body's mask rejects the other's group.", "quantifier": "all bodies, all filters (all 64-bit masks), all exclusion lists", "why_tests_cant": "2^256 mask combinations", "anchors": ["src/edyn/collision/should_collide.cpp", "include/edyn/comp/collision_filter.hpp"]}
{"id": "C31", "title": "Collision exclusions form a symmetric relation", "statement": "After any sequence of exclude_collision / clear_collision_exclusion calls, a excludes b exactly when b excludes a, with no duplicates, and only the requested pairs are excluded.", "quantifier": "all histories within the capacity of 16", "why_tests_cant": "swap-removal order and clearing interactions", "anchors": ["src/edyn/util/exclude_collision.cpp", "include/edyn/comp/collision_exclusion.hpp"]}
{"id": "C32", "title": "At most one contact manifold per pair of bodies", "statement": "contact_manifold_map finds the manifold of a pair in either order, and at any time at most one manifold exists per unordered pair.", "quantifier": "all histories of manifold creation and destruction", "why_tests_cant": "creation from parallel pair generation", "anchors": ["src/edyn/collision/contact_manifold_map.cpp", "src/edyn/collision/broadphase.cpp: collide_tree, finish_collide"]}
{"id": "C33", "title": "Contact point lists stay consistent and bounded", "statement": "For any manifold and any sequence of collision results, the linked list of contact points has exactly num_points entries, all distinct and belonging to the manifold, and never more than max_contacts.", "quantifier": "all sequences of collision results and removals", "why_tests_cant": "point replacement/merging combinations over unbounded frames", "anchors": ["src/edyn/util/collision_util.cpp: create_contact_point, destroy_contact_point, process_collision", "src/edyn/math/geom.cpp: insertion_point_index"]}
{"id": "C34", "title": "Fixed time stepping accounts for all elapsed time", "statement": "Over any sequence of update(time) calls with non-decreasing times while not paused, the number of fixed steps equals floor(total elapsed/fixed_dt) as long as the per-update cap is not hit, the leftover is in [0, fixed_dt), and no update performs more than max_steps_per_update steps.", "quantifier": "all sequences of update times", "why_tests_cant": "accumulation over unbounded histories", "anchors": ["src/edyn/simulation/stepper_sequential.cpp: update, set_paused"]}
{"id": "C35", "title": "Constraint impulses respect their limits at all times", "statement": "After any number of solver iterations in any order, each constraint row's accumulated impulse lies in [lower_limit, upper_limit] and the sum of applied delta impulses equals the accumulated impulse.", "quantifier": "all rows, all velocities, all iteration counts (exact arithmetic)", "why_tests_cant": "unbounded iteration sequences", "anchors": ["src/edyn/constraints/constraint_row.cpp: solve, warm_start, apply_row_impulse, prepare_row"]}
{"id": "C36", "title": "Friction never exceeds the Coulomb limit", "statement": "After any solve_friction, the tangential impulse magnitude is at most friction coefficient times the normal impulse; spin friction likewise.", "quantifier": "all velocities and impulses (exact arithmetic)", "why_tests_cant": "must hold for every state", "anchors": ["src/edyn/constraints/constraint_row_friction.cpp"]}
{"id": "C37", "title": "Constraint impulses conserve momentum", "statement": "Applying an impulse through a row whose linear Jacobians are opposite conserves total linear momentum; if the angular Jacobians are those of a point constraint it conserves angular momentum; an immovable (zero inverse mass) body is never moved.", "quantifier": "all bodies, all Jacobians, all impulses (exact arithmetic)", "why_tests_cant": "algebraic identity over all reals", "anchors": ["src/edyn/constraints/constraint_row.cpp: apply_row_impulse"]}
{"id": "C38", "title": "Solved impulses are returned to the constraint that produced them", "statement": "After solving an island, each constraint receives exactly the impulses of its own rows, in the order it created them, for every mix of constraint types and friction flags.", "quantifier": "all sets of constraints, all row counts and flags", "why_tests_cant": "index bookkeeping over unbounded collections", "anchors": ["src/edyn/dynamics/island_solver.cpp: insert_rows, pack_rows, update_impulse, assign_applied_impulses", "include/edyn/dynamics/row_cache.hpp"]}
{"id": "C39", "title": "Single- and multi-threaded island solvers do the same work", "statement": "For the same settings the multi-threaded island solver performs the same sequence of phases and the same numbers of velocity and position iterations as the sequential one, and signals completion exactly once.", "quantifier": "all iteration settings and convergence patterns", "why_tests_cant": "edge values of the settings", "anchors": ["src/edyn/dynamics/island_solver.cpp: island_solver_update, run_island_solver_seq"]}
{"id": "C40", "title": "Material mixing lookups are order independent", "statement": "Inserting a mixing entry for materials (a,b) makes lookups for (a,b) and (b,a) find it, and never a different entry.", "quantifier": "all insertion sequences and ids", "why_tests_cant": "depends on the comparator being a strict weak order", "anchors": ["include/edyn/dynamics/material_mixing.hpp", "include/edyn/core/unordered_pair.hpp"]}
{"id": "C41", "title": "unordered_pair equality and hashing ignore order", "statement": "Two unordered pairs compare equal iff they contain the same two elements, equality is an equivalence, and the ordering is a strict weak order compatible with equality.", "quantifier": "all element values", "why_tests_cant": "universally quantified algebraic law", "anchors": ["include/edyn/core/unordered_pair.hpp"]}
{"id": "C42", "title": "flat_nested_array stores nested arrays faithfully", "statement": "After any sequence of push_array/push_back/push/reset calls, size and element access equal those of the corresponding vector of vectors.", "quantifier": "all sequences", "why_tests_cant": "offset arithmetic over unbounded sequences", "anchors": ["include/edyn/core/flat_nested_array.hpp"]}
{"id": "C43", "title": "Paged mesh cache keeps a valid LRU order and its memory budget", "statement": "The LRU list is always a permutation of all submesh indices with the most recently visited first, unloading always evicts the least recently visited loaded submesh, and loading one page at a time never exceeds the vertex budget.", "quantifier": "all visit/load/unload histories", "why_tests_cant": "unbounded access patterns", "anchors": ["src/edyn/shapes/paged_triangle_mesh.cpp"]}
{"id": "C44", "title": "Triangle mesh topology is consistent", "statement": "In an initialized triangle_mesh every face's three edges join its consecutive vertices, each unordered vertex pair has exactly one edge, each edge lists the faces that use it (manifold meshes), and an edge is a boundary edge exactly when one face uses it.", "quantifier": "all index lists", "why_tests_cant": "unbounded meshes", "anchors": ["src/edyn/shapes/triangle_mesh.cpp: init_edge_indices"]}
{"id": "C45", "title": "Client destroys exactly the mapping of the destroyed entity", "statement": "When a networked entity is destroyed on the client, the client's entity map loses exactly the pair containing that entity.", "quantifier": "all maps and entities", "why_tests_cant": "needs overlapping local/remote id spaces", "anchors": ["src/edyn/networking/sys/client_side.cpp: on_destroy_networked_entity"]}
{"id": "C46", "title": "Extrapolation requests are eventually processed, oldest dropped first", "statement": "Requests sent to the extrapolation worker are processed in order; if more than the maximum are pending the oldest are dropped; no pending request waits forever.", "quantifier": "all interleavings of request arrival and worker wake-ups", "why_tests_cant": "schedules", "anchors": ["src/edyn/networking/extrapolation/extrapolation_worker.cpp"]}
{"id": "C47", "title": "Swapping manifold bodies twice is the identity", "statement": "Flipping a collision point or contact manifold (exchange of bodies A and B) twice gives back the original, and one flip exchanges pivots and negates the normal.", "quantifier": "all points", "why_tests_cant": "algebraic identity over all values", "anchors": ["include/edyn/collision/collision_result.hpp", "src/edyn/networking/util/import_contact_manifolds.cpp", "src/edyn/util/constraint_util.cpp: swap_manifold"]}
{"id": "C48", "title": "Rotations preserve lengths and compose", "statement": "Rotating a vector by a unit quaternion preserves length and dot products, rotation by a product is composition, conjugate inverts, and to_matrix agrees with rotate.", "quantifier": "all unit quaternions and vectors (exact arithmetic)", "why_tests_cant": "algebraic identities over all reals", "anchors": ["include/edyn/math/quaternion.hpp", "include/edyn/math/matrix3x3.hpp"]}
{"id": "C49", "title": "Compound child lists mirror the set of added children", "statement": "After any sequence of add/remove child the linked list of a parent contains exactly the added, not removed, entities once each.", "quantifier": "all histories", "why_tests_cant": "pointer splicing cases", "anchors": ["src/edyn/replication/register_external.cpp", "include/edyn/comp/child_list.hpp"]}
{"id": "C50", "title": "Responses answer the request that was sent", "statement": "The identifier in a query response received by the requester equals the id of the request it answers.", "quantifier": "all packets", "why_tests_cant": "serialization of every field for every value", "anchors": ["include/edyn/networking/packet/query_entity.hpp"]}
{"id": "C51", "title": "Paged triangle mesh files load back exactly", "statement": "After a paged triangle mesh is written to a file with embedded submeshes and the file is opened again, the thickness, the spatial tree and the per-submesh counts are the same, and loading any submesh, in any order, yields exactly the submesh that was written.", "quantifier": "all paged meshes whose containers have at most 65535 elements, all load orders", "why_tests_cant": "the recorded byte offsets must agree with the bytes produced by every submesh of every size", "anchors": ["src/edyn/serialization/paged_triangle_mesh_s11n.cpp", "include/edyn/serialization/triangle_mesh_s11n.hpp", "include/edyn/serialization/std_s11n.hpp serialization_sizeof"]}
{"id": "C54", "title": "Islands are the connected components", "statement": "After every update two procedural bodies are in the same island if and only if they are connected through constraints and contacts between procedural bodies.", "quantifier": "all histories of creation and destruction of bodies, constraints and contacts", "why_tests_cant": "merges and splits can coincide in one update in unboundedly many ways", "anchors": ["src/edyn/simulation/island_manager.cpp: init_new_nodes_and_edges, merge_islands, split_islands, update"]}
{"id": "C55", "title": "Time spent paused is not simulated", "statement": "Pausing and resuming the simulation does not advance it: the first update after resuming performs steps only for the time since the resumption, in sequential and in asynchronous execution alike.", "quantifier": "all pause lengths and histories of updates", "why_tests_cant": "the number of steps depends on every pause length and on the residual time at the pause", "anchors": ["src/edyn/simulation/stepper_sequential.cpp: update, set_paused", "src/edyn/simulation/simulation_worker.cpp: set_paused, update", "src/edyn/edyn.cpp: set_paused"]}
{"id": "C56", "title": "A contact has the material of its two bodies", "statement": "The material of a contact point is the one set for the pair of material ids if there is one, as long as the contact exists; otherwise it is the mix of the two materials, with the per-vertex values of a mesh at the current place of the contact, and does not depend on the order of the two bodies.", "quantifier": "all materials, tables, meshes and histories of updates of a contact", "why_tests_cant": "the precedence must hold after any number of updates of a contact, for all materials", "anchors": ["src/edyn/util/collision_util.cpp: assign_material_properties, merge_point, try_assign_per_vertex_friction, try_assign_per_vertex_restitution", "include/edyn/dynamics/material_mixing.hpp"]}
{"id": "C57", "title": "Built-in constraints push their two bodies oppositely", "statement": "Every impulse a built-in constraint or contact applies to one of its bodies is matched by the opposite linear impulse on the other, and the pair has no net moment when the pivots coincide.", "quantifier": "all constraint types, parameters, poses and velocities", "why_tests_cant": "a wrong sign or arm in one row of one constraint shows only for some poses", "anchors": ["src/edyn/constraints/*.cpp: prepare", "include/edyn/constraints/constraint.hpp: constraints_tuple_t"]}
{"id": "C58", "title": "Solving velocity constraints adds no kinetic energy", "statement": "Every visit to a constraint row leaves it satisfied or at one of its impulse limits, and with no restitution and no position error the solver never increases the kinetic energy of the island; one visited contact with restitution e leaves with e times its approach speed.", "quantifier": "all islands, masses, inertias, velocities, numbers of iterations", "why_tests_cant": "energy gain depends on every combination of masses, arms and clamped impulses", "anchors": ["src/edyn/constraints/constraint_row.cpp", "include/edyn/util/constraint_util.hpp", "src/edyn/dynamics/island_solver.cpp: solve"]}
{"id": "C59", "title": "Position correction moves what it should and nothing else", "statement": "Correcting positions keeps orientations of unit length, never moves a body that is not dynamic, keeps origin and world-space inertia in agreement with position and orientation, keeps the common centre of mass of a pair, removes a fifth of the error to first order, and measures contact distances at the present poses.", "quantifier": "all sequences of corrections, all bodies, all errors", "why_tests_cant": "poses, inertias and centre of mass offsets range over continuous domains and corrections accumulate over histories", "anchors": ["include/edyn/dynamics/position_solver.hpp", "src/edyn/constraints/contact_constraint.cpp: solve_position", "src/edyn/dynamics/island_solver.cpp: solve_position_constraints"]}
{"id": "C60", "title": "The best contact points are kept", "statement": "When a manifold already has the maximum number of contact points and a further one appears, the point that is given up is chosen so that the remaining points span the largest area, and a point is never stored at a position outside the manifold; a point similar to an existing one takes its place.", "quantifier": "all sets of up to four contact points and all new points", "why_tests_cant": "the choice is over a continuum of positions; only an argument over all of them shows that the selected replacement is optimal", "anchors": ["src/edyn/math/geom.cpp: insertion_point_index", "include/edyn/math/geom.hpp: insertion_point_index", "src/edyn/util/collision_util.cpp: process_collision"]}
{"id": "C61", "title": "The thickness of a paged mesh applies to all its pages", "statement": "After set_thickness on a paged mesh every page has that thickness, including pages that are loaded later.", "quantifier": "all histories of loads, evictions and thickness changes", "why_tests_cant": "depends on when pages are loaded relative to the call, over unbounded histories", "anchors": ["src/edyn/shapes/paged_triangle_mesh.cpp: set_thickness, assign_mesh"]}
{"id": "C62", "title": "A page handed to a collision test stays valid", "statement": "Whatever other threads load or evict, a thread that found a page of a paged mesh in memory and then tests against it never dereferences a page that has been unloaded.", "quantifier": "all interleavings of visits, loads and evictions", "why_tests_cant": "data race that needs a particular schedule", "anchors": ["include/edyn/shapes/paged_triangle_mesh.hpp: visit_submeshes", "include/edyn/collision/collide.hpp"]}
{"id": "C63", "title": "Every page load and unload is reported", "statement": "A listener on on_paged_mesh_page_loaded is told of every load and unload of a page, for every entity that uses the mesh, so that it can tell which pages are in memory.", "quantifier": "all histories of loads, evictions and clears, all sets of entities", "why_tests_cant": "unbounded histories", "anchors": ["src/edyn/util/paged_mesh_load_reporting.cpp", "src/edyn/shapes/paged_triangle_mesh.cpp"]}
{"id": "C64", "title": "Per-vertex values of a mesh are interpolated linearly", "statement": "The friction, restitution and thickness that a triangle mesh reports at a point of a face or edge are the linear interpolation of the values at its vertices.", "quantifier": "all triangles, edges, points and values", "why_tests_cant": "continuous domain", "anchors": ["src/edyn/shapes/triangle_mesh.cpp: get_face_friction, get_edge_friction", "src/edyn/util/triangle_util.cpp", "src/edyn/util/collision_util.cpp"]}
{"id": "C65", "title": "Edges of a mesh are convex exactly if the neighbouring face bends away", "statement": "An inner edge of a triangle mesh is reported as convex exactly if the third vertex of the neighbouring face lies below the plane of the face, and the answer is the same seen from both faces; boundary edges are convex.", "quantifier": "all pairs of faces sharing an edge", "why_tests_cant": "continuous domain", "anchors": ["src/edyn/shapes/triangle_mesh.cpp: calculate_adjacent_normals"]}
{"id": "C66", "title": "A paged mesh is the mesh it was made from", "statement": "create_paged_triangle_mesh puts every triangle into exactly one page of bounded size, where it has the same vertex positions, per-vertex values, normals and edge flags as in the mesh, and visiting the triangles that meet a box gives the same triangles as for the whole mesh, each once.", "quantifier": "all meshes, page sizes, sorting algorithms and query boxes", "why_tests_cant": "unbounded meshes", "anchors": ["include/edyn/shapes/create_paged_triangle_mesh.hpp", "include/edyn/shapes/paged_triangle_mesh.hpp: visit_triangles"]}
{"id": "C67", "title": "The bounding box of a shape encloses the shape, and no more", "statement": "For every shape, position and unit orientation, the axis-aligned bounding box computed for it contains every point of the shape placed there, so no collision or query can be missed by the broadphase; for boxes, spheres, capsules, cylinders and polyhedra each of its six faces touches the shape.", "quantifier": "all sizes, positions, unit orientations and points of the shape; all point clouds; all compounds of any number of shapes; all boxes transformed between spaces", "why_tests_cant": "The orientation and the point range over a continuum; tests try a few orientations and cannot show that no point of the shape sticks out.", "anchors": ["src/edyn/util/aabb_util.cpp: plane_aabb, box_aabb, sphere_aabb, cylinder_aabb, capsule_aabb, aabb_to_world_space, aabb_to_object_space, point_cloud_aabb, shape_aabb", "src/edyn/shapes/compound_shape.cpp: finish", "src/edyn/util/shape_util.cpp: support_point_box, cylinder_support_point"]}
{"id": "C68", "title": "Closest-point queries return the closest point", "statement": "The points returned by the closest-point functions for segments, lines, pairs of lines, pairs of segments, discs and boxes lie on the given primitives, no other points of the primitives are closer, and the returned distance is the distance of the returned points.", "quantifier": "all primitives (including parallel and degenerate ones) and all query points", "why_tests_cant": "Optimality compares the answer with every other point of the primitive for every configuration, including the degenerate ones a test would have to guess.", "anchors": ["src/edyn/math/geom.cpp: closest_point_segment, distance_sqr_line, closest_point_line, closest_point_line_line, closest_point_segment_segment, closest_point_disc, closest_point_box_outside, closest_point_box_inside"]}
{"id": "C69", "title": "Support points are extremal", "statement": "The support point of a shape in a direction belongs to the shape and no point of the shape lies further along that direction; the support projection is the projection of that point.", "quantifier": "all boxes, cylinders, capsules, discs, point clouds and convex polyhedra, all placements and all directions, also those which are not unit vectors", "why_tests_cant": "Extremality ranges over every point of the shape and every direction; the hill climbing used for polyhedra additionally has to terminate and to find the global maximum on every convex mesh.", "anchors": ["src/edyn/util/shape_util.cpp: support_point_box, cylinder_support_point, cylinder_support_projection, capsule_support_projection, point_cloud_support_point, point_cloud_support_projection, polyhedron_support_projection", "src/edyn/math/geom.cpp: support_point_circle", "src/edyn/shapes/box_shape.cpp: support_point, support_projection"]}
{"id": "C70", "title": "A raycast reports the first point where the ray enters a shape", "statement": "Casting a segment against a shape reports a hit exactly when the segment meets the shape; the reported fraction is between 0 and 1 and is the smallest one whose point belongs to the shape, and the reported normal is the outward unit normal there.", "quantifier": "all shapes, placements and segments, including segments which start inside, are parallel to a face or axis, or end before the shape", "why_tests_cant": "Being first excludes every earlier point of the segment for every placement; special positions (parallel, inside, too short) form sets a sampling test never hits.", "anchors": ["src/edyn/collision/raycast.cpp: shape_raycast", "src/edyn/math/geom.cpp: intersect_ray_sphere, intersect_ray_cylinder, intersect_segment_triangle, intersect_segment_aabb"]}
{"id": "C71", "title": "Contact points between simple shapes are consistent", "statement": "For spheres, planes, boxes and capsules the generated contact point has a unit normal pointing from the second body towards the first, pivots which lie on the surfaces of the two shapes, and a distance equal to the separation of the pivots along the normal; a contact is reported exactly when the shapes are closer than the threshold.", "quantifier": "all shape sizes, placements with unit orientations and thresholds", "why_tests_cant": "It must hold for every relative placement, including coincident centres, deep penetration and parallel axes.", "anchors": ["src/edyn/collision/collide/collide_sphere_sphere.cpp", "src/edyn/collision/collide/collide_sphere_plane.cpp", "src/edyn/collision/collide/collide_sphere_box.cpp", "src/edyn/collision/collide/collide_box_plane.cpp", "src/edyn/collision/collide/collide_capsule_sphere.cpp", "src/edyn/collision/collide/collide_capsule_plane.cpp", "src/edyn/collision/collide/collide_capsule_capsule.cpp", "include/edyn/collision/collide.hpp: swap_collide"]}
{"id": "C72", "title": "Intersection tests of primitives are exact", "statement": "The tests for two boxes, a segment and a box, a line and a circle, two circles and two segments report an intersection exactly when the primitives have a common point, and the parameters they return locate the common points.", "quantifier": "all primitives, including tangent, touching, parallel, concentric and degenerate ones", "why_tests_cant": "Exactness is an equivalence over a continuum of configurations whose boundary cases have measure zero.", "anchors": ["src/edyn/math/geom.cpp: intersect_aabb, intersect_segment_aabb, intersect_line_circle, intersect_circle_circle, intersect_segments", "include/edyn/comp/aabb.hpp: intersect"]}
{"id": "C73", "title": "A raycast into the world returns the nearest hit", "statement": "The result of a raycast is the hit with the smallest fraction among all bodies that are not in the ignore list, and no entity if none of them is hit; the order in which bodies are visited does not matter.", "quantifier": "all worlds, rays, ignore lists and visiting orders", "why_tests_cant": "It quantifies over all sets of bodies and all traversal orders of the trees.", "anchors": ["src/edyn/collision/raycast.cpp: raycast", "src/edyn/collision/broadphase.cpp: raycast", "src/edyn/collision/dynamic_tree.cpp: raycast"]}
{"id": "C74", "title": "Convex meshes get the topology and the normals of their faces", "statement": "From the faces of a convex mesh the library derives one edge for each pair of vertices joined by a side of a face, with exactly the faces that have this side; it refuses meshes where three faces share a side. The normal of a convex face is its outward unit normal. The directions kept for collision tests represent all face normals and edge directions within the stated tolerance. A mesh accepted by the validation lies behind all of its faces up to the tolerance. Deriving these properties again gives the same result.", "quantifier": "all lists of faces with any number of vertices, all vertex positions, also degenerate and open meshes", "why_tests_cant": "The correspondence between sides and edges ranges over all meshes; straight corners, open borders and repeated initialisation are combinations a handful of test meshes does not reach.", "anchors": ["src/edyn/shapes/convex_mesh.cpp: calculate_normals, calculate_edges, calculate_neighbors, calculate_relevant_faces, calculate_relevant_edges, validate"]}
{"id": "C75", "title": "Support features of boxes, cylinders and triangles are the parts furthest along a direction", "statement": "The feature (vertex, edge or face) a box, a cylinder or a triangle reports for a direction consists of the points whose projection on the direction is within the tolerance of the largest projection of the shape, and the projection reported with it is the largest one. The tables of vertices, edges, faces, tangents and adjacent faces of a box agree with each other, and the feature of a box closest to a point of a face is the one the point lies on. The axis clipped to a feature of a triangle does not point beyond the faces on the other side of its convex edges.", "quantifier": "all box, cylinder and triangle sizes and placements, all directions, all positive tolerances", "why_tests_cant": "Which feature is chosen depends on comparisons of real projections; ties, thin shapes and tolerances form a continuum of cases.", "anchors": ["src/edyn/shapes/box_shape.cpp: support_feature, get_closest_feature, get_edge, get_face", "src/edyn/shapes/cylinder_shape.cpp: support_feature", "src/edyn/math/triangle.cpp: get_triangle_support_feature, clip_triangle_separating_axis"]}
{"id": "C76", "title": "Volumes and centres of mass are those of the solids", "statement": "The volume reported for a box, sphere, cylinder, capsule, closed polyhedron or compound is the volume of the set of points it fills. The centroid reported for a closed mesh is the mean of the points it encloses, and after a convex mesh has been shifted to its centroid that mean is the origin, with the volume unchanged.", "quantifier": "all positive sizes, axes, all closed meshes with any number of vertices, faces and sides per face, all compounds with any number of placed parts", "why_tests_cant": "the sums over triangles equal integrals only by a cancellation over all faces; tests compare single solids with known values", "anchors": ["src/edyn/math/shape_volume.cpp: shape_volume, mesh_volume", "src/edyn/util/shape_util.cpp: mesh_centroid, make_box_mesh", "src/edyn/shapes/convex_mesh.cpp: shift_to_centroid"]}
{"id": "C77", "title": "The outline of a face is the convex hull of its points", "statement": "For any set of points in the plane, computing the convex hull ends; it gives each of its points once, every one of them is on the border of the set, in counter-clockwise order, and no point of the set lies outside of a side of the hull by more than the tolerance given. Asking for the point of a convex polygon closest to a given point gives exactly that point if the given point is outside, and says so if it is inside.", "quantifier": "all finite lists of points of any size, all tolerances, all convex polygons and points", "why_tests_cant": "the recursion inserts points into the list it walks, its end depends on the arrangement of all the points; tests try single arrangements of a few points", "anchors": ["src/edyn/util/shape_util.cpp: split_hull_edge, calculate_convex_hull, is_triangle_ccw, closest_point_convex_polygon"]}
{"id": "C78", "title": "Moments of inertia are those of the solids", "statement": "The matrix reported as the moment of inertia of a shape of a given mass is the integral of |p|\u00b2\u00b71 - p\u00b7p\u1d40 over the set of points it fills, with the mass spread evenly: for boxes, spheres, cylinders, capsules, polyhedra and compounds. Moving a shape by an offset and turning it changes the matrix accordingly.", "quantifier": "all masses, positive sizes, axes, closed meshes of any size, compounds with any number of placed parts, all unit orientations and offsets", "why_tests_cant": "a wrong sign or factor shows only in rotations about axes a test does not try; the claim is an equation of integrals for all sizes and meshes", "anchors": ["src/edyn/dynamics/moment_of_inertia.cpp: moment_of_inertia, moment_of_inertia_solid_box, moment_of_inertia_solid_sphere, moment_of_inertia_solid_cylinder, moment_of_inertia_solid_capsule, moment_of_inertia_polyhedron, shift_moment_of_inertia"]}
{"id": "C79", "title": "A client can change only what it owns", "statement": "On the server, a packet received from a client changes a component of an existing entity only if that client owns the entity (inputs and actions), or if the entity is connected to an entity of this client and to none of another client (everything else); it destroys an entity only if the client owns it, or if it is a constraint attached to a body which the client owns. Such updates by the rightful client are applied.", "quantifier": "all registries, entity graphs, clients and sequences of packets (also hostile ones), in every order of arrival, delay and processing, interleaved with arbitrary changes by the simulation", "why_tests_cant": "a test sends the packets a well-behaved client sends; the property is about every sequence of packets, delays and changes of ownership in between", "anchors": ["src/edyn/networking/sys/server_side.cpp: server_receive_packet, server_process_timed_packets, process_packet", "include/edyn/networking/util/server_snapshot_importer.hpp: import, transform_to_local, is_only_reachable_client, merge_action_history", "src/edyn/networking/util/process_update_entity_map_packet.cpp"]}
{"id": "C80", "title": "A rigid body stays consistent whatever is done to it", "statement": "After any sequence of calls which create a rigid body and then change its mass, inertia, centre of mass, origin, shape or kind, apply impulses, move it as a kinematic body or step the simulation, the body is of exactly one kind, its inverse mass and inverse inertia are the inverses of its mass and inertia, it has at most the one shape its index names, and what is derived from other components (inertia in world space, origin, bounding box, rolling mark) agrees with them. An impulse changes its momentum by the impulse, its angular momentum by the moment of the impulse, and nothing else.", "quantifier": "all definitions of bodies, all sequences of operations of any length with any arguments, all shapes", "why_tests_cant": "a test makes one body and calls a few functions; the property is about every order of calls, including changes of kind in between", "anchors": ["src/edyn/util/rigidbody.cpp: make_rigidbody, rigidbody_apply_impulse, set_rigidbody_mass, set_rigidbody_inertia, rigidbody_set_shape, rigidbody_set_kind", "src/edyn/sys/update_inertias.cpp", "src/edyn/sys/update_origins.cpp", "src/edyn/sys/update_aabbs.cpp"]}
{"id": "C81", "title": "Moving the centre of mass does not disturb the body", "statement": "Setting the centre of mass of a body leaves its origin where it is and the velocity of every point of the body as it is; setting it several times has the effect of the last setting alone. Setting the origin of a body and reading it gives the value which was set.", "quantifier": "all bodies, positions, orientations, velocities, centres of mass and sequences of settings", "why_tests_cant": "a test compares a few points for a few offsets; the property is about every point and every sequence", "anchors": ["src/edyn/util/rigidbody.cpp: apply_center_of_mass, set_center_of_mass, get_rigidbody_origin, set_rigidbody_origin", "include/edyn/math/transform.hpp"]}
{"id": "C82", "title": "Removing a body undoes its creation, kinematic moves have the right velocity", "statement": "clear_rigidbody removes every component which make_rigidbody and later calls assigned, so that another body can be made on the entity as on a new one. A kinematic body which is moved or turned has the velocity and angular velocity which take it from the old to the new position and orientation in the given time.", "quantifier": "all definitions of bodies, all sequences of operations before the removal; all positions, unit orientations and times", "why_tests_cant": "a test removes one body and looks for the components it knows of; the property is about all components after every history, and about all pairs of orientations", "anchors": ["src/edyn/util/rigidbody.cpp: clear_rigidbody, make_rigidbody, set_kinematic_position, set_kinematic_orientation", "src/edyn/math/quaternion.cpp: integrate"]}
{"id": "C83", "title": "Corrections of a networked client do not show as jumps", "statement": "When a state from the server or an extrapolation replaces the state of a body, the presentation position and orientation do not jump: an offset hides the difference. The offset only ever shrinks, disappears after finitely many updates, and then the body is shown where it is. With the asynchronous execution mode the offsets the main thread receives add up to exactly the jumps made in the worker.", "quantifier": "all bodies, states, offsets, corrections, decay rates, frame times and sequences of updates of the worker and of the main thread", "why_tests_cant": "a test looks at one correction of one body; the property is about the sum over every sequence of corrections, steps and messages and about how every offset decays", "anchors": ["src/edyn/sys/update_presentation.cpp: update_discontinuities, update_presentation, snap_presentation", "include/edyn/networking/util/accumulate_discontinuities.hpp", "include/edyn/networking/comp/discontinuity.hpp: merge_component", "src/edyn/simulation/simulation_worker.cpp: update", "src/edyn/simulation/stepper_async.cpp"]}
{"id": "C84", "title": "Presentation interpolates the simulated motion", "statement": "The presentation position after an update lies between the positions of the last two simulation steps and is the point of the simulated path a fixed time ago, so that motion is shown evenly whatever the times of the updates are. The presentation delay of the asynchronous mode stays bounded, approaches what it aims at, and never makes the shown time run backwards.", "quantifier": "all motions, step lengths, sequences of update times, and sequences of message delays", "why_tests_cant": "a test presents a few frames of one motion; the property ranges over all sequences of update times and message delays", "anchors": ["src/edyn/sys/update_presentation.cpp: update_presentation", "src/edyn/simulation/stepper_sequential.cpp: update", "src/edyn/simulation/stepper_async.cpp: calculate_presentation_delay, set_paused"]}
{"id": "C85", "title": "Asynchronous queries are answered exactly once with the answer of a direct query", "statement": "The delegate given to raycast_async, query_aabb_async or query_aabb_of_interest_async is called exactly once, with the identifier that was returned, with the result which the same query would have had if it had been made directly in the simulation when the request is processed, and with entities of the application's registry. Answers of different requests are never mixed up.", "quantifier": "all sequences of queries, updates of the worker and processing of messages by the main thread, all worlds, lists of ignored entities and entity maps, all orders in which results are walked", "why_tests_cant": "a test waits for one answer; the property is about every interleaving of requests, worker updates and message processing, and about requests that are never answered", "anchors": ["src/edyn/collision/raycast_service.cpp: run_broadphase, finish_broadphase, run_narrowphase, finish_narrowphase", "src/edyn/simulation/stepper_async.cpp: raycast, query_aabb, query_aabb_of_interest, on_raycast_response, on_query_aabb_response", "src/edyn/simulation/simulation_worker.cpp: on_raycast_request, on_query_aabb_request, on_query_aabb_of_interest_request, consume_raycast_results"]}
{"id": "C86", "title": "Restitution makes bodies bounce and nothing else", "statement": "Solving restitution changes nothing but the velocities of dynamic bodies and the impulses reported by contact points. Contacts only push, friction stays within its limit, momentum is exchanged between the bodies, contacts which approach slower than the threshold do not bounce, and the solver ends with all contacts resolved or its iterations used up. Two bodies which touch in one point without friction separate with the coefficient of restitution times the speed of approach and gain no energy. The impulses reported are those which changed the velocities.", "quantifier": "all worlds of bodies, manifolds and contacts, all entity graphs and orders of traversal, all coefficients, all numbers of iterations", "why_tests_cant": "a test drops one body on one floor; the property ranges over every arrangement of touching bodies and every order in which the graph is walked", "anchors": ["src/edyn/dynamics/restitution_solver.cpp: solve_restitution, solve_restitution_iteration, get_manifold_min_relvel", "include/edyn/collision/contact_point.hpp: contact_point_impulse"]}
{"id": "C87", "title": "Contacts between boxes: separating axis, depth and contact points", "statement": "For two boxes in any placement collide finds a unit normal from B towards A and the exact signed distance between the boxes along it. The distance is positive exactly when the boxes are apart, and otherwise it is the depth: A can be moved out along the normal by that much, and no shorter move in any direction separates the boxes. At most four points are reported, none if the distance is above the threshold, all with that normal and distance and with pivots on the touching features, and boxes which penetrate get at least one.", "quantifier": "all half extents, positions and orientations of the two boxes, all thresholds", "why_tests_cant": "a test places a few pairs of boxes; the fifteen axes, the near-parallel edges and the pairs of features which touch can only be covered for all placements by a proof of the separating axis theorem", "anchors": ["src/edyn/collision/collide/collide_box_box.cpp: collide", "src/edyn/shapes/box_shape.cpp: support_feature, get_face, get_face_basis, get_edge", "src/edyn/math/geom.cpp: intersect_line_aabb, closest_point_segment_segment"]}
{"id": "C88", "title": "Contacts between spheres and triangle meshes", "statement": "A sphere in front of a triangle mesh which overlaps it gets at least one contact point, and a sphere farther from the mesh than the threshold gets none. There are at most four points; every point belongs to one triangle, its normal is a unit vector, the pivot on the sphere is its deepest point against the normal, the pivot on the mesh is on the vertex, edge or face that is reported, and where the closest feature is clear of the tolerance the pivots are the closest points and the distance is exact.", "quantifier": "all meshes without degenerate triangles, all radii, positions and orientations of the sphere, all thresholds", "why_tests_cant": "a test drops a few balls on a few meshes; which feature of which triangle is closest, how the axis is clipped against the adjacent faces and which triangles the tree returns can only be covered for all meshes and positions by proof", "anchors": ["src/edyn/collision/collide/collide_sphere_mesh.cpp: collide_sphere_triangle, collide", "src/edyn/math/triangle.cpp: get_triangle_support_feature, clip_triangle_separating_axis", "src/edyn/shapes/triangle_mesh.cpp: calculate_face_normals, calculate_adjacent_normals", "include/edyn/shapes/triangle_mesh.hpp: triangle_mesh::visit_triangles"]}
{"id": "C89", "title": "Every pair of bodies that could touch is examined, and only those", "statement": "After every step of the broadphase, in every history of adding, removing and moving bodies, changing their kind, putting them to sleep, disabling them and dropping contact manifolds: an awake dynamic body has a contact manifold with every other enabled body that the collision filter allows and whose AABB is within the contact breaking threshold of its own; a manifold appears only between two such bodies; a manifold of awake bodies disappears exactly when the AABBs are farther apart than the separation threshold, which is larger, so that a manifold does not flicker; no pair has two manifolds; searching in parallel has the same effect as searching sequentially; no step runs into a missing component or a stale tree node; and AABB queries report the bodies of the requested kind whose AABB meets the box.", "quantifier": "all finite histories of these operations, all AABBs, all collision filters, all orders in which the entities are visited, sequential and parallel", "why_tests_cant": "a pair is missed only if bookkeeping in two trees, the list of new entities and the tags of the bodies disagree after some particular history; tests try a few", "anchors": ["src/edyn/collision/broadphase.cpp: broadphase::update, init_new_aabb_entities, move_aabbs, destroy_separated_manifolds, collide_tree, collide_tree_async, finish_collide, set_procedural", "include/edyn/collision/broadphase.hpp: m_aabb_offset, m_separation_threshold", "src/edyn/util/rigidbody.cpp: rigidbody_set_shape, rigidbody_apply_kind"]}
{"id": "C90", "title": "The contacts of a compound are the contacts of its parts", "statement": "A compound shape collides like the union of its child shapes: when it is tested against another simple shape, another compound, a plane or a triangle mesh, it has at most four contact points; every one of them is, in the world, a contact point of one of its children, with the pivot expressed in the space of the compound and the feature naming the child; and if the test of a child against the other shape reports contact points whenever the two are within the collision threshold, so does the test of the compound.", "quantifier": "all compounds with any number of children of any supported shape, positions and orientations, all shapes they are tested against, all positions and orientations of the bodies, both orders of the shapes", "why_tests_cant": "the result depends on two nested changes of space, on a query of a tree of boxes and on which points survive in the four slots; tests try a few compounds in contact", "anchors": ["include/edyn/collision/collide.hpp: collide(compound_shape, T), swap_collide", "src/edyn/collision/collide/collide_compound_compound.cpp: collide", "src/edyn/collision/collide/collide_compound_mesh.cpp: collide", "src/edyn/collision/collide/collide_compound_plane.cpp: collide", "src/edyn/shapes/compound_shape.cpp: compound_shape::finish", "include/edyn/shapes/compound_shape.hpp: compound_shape::visit"]}
{"id": "C91", "title": "A polyhedron collides, and is bounded, in the orientation its body has", "statement": "The rotated vertices, edges and normals which collision detection reads for a polyhedron, alone or as a child of a compound, are those of its mesh turned by the current orientation of the body (and of the child), and its bounding box is that of the polyhedron where it is now: after every step for every body that moves, and after every change the user makes to the shape, position or orientation of a body once the simulation has taken it up. The memory which holds them is never used before it exists or after it is released, belongs to one body only and goes with that body.", "quantifier": "all sequences of creating, destroying, turning and moving bodies, changing their shape, kind and sleep state, updates and steps; any meshes, any number of polyhedra in a compound; sequential and asynchronous modes", "why_tests_cant": "the rotated copies are caches reached through raw pointers and linked lists of entities, filled by one part of the code and refreshed by three others; whether they are stale or dangling depends on the order of operations between two updates", "anchors": ["src/edyn/sys/update_rotated_meshes.cpp: update_rotated_mesh, update_rotated_meshes", "src/edyn/util/polyhedron_shape_initializer.cpp: polyhedron_shape_initializer::init_new_shapes, on_destroy_rotated_mesh_list", "src/edyn/shapes/convex_mesh.cpp: make_rotated_mesh", "src/edyn/sys/update_aabbs.cpp: updated_aabb, update_aabb, update_aabbs", "src/edyn/simulation/simulation_worker.cpp: simulation_worker::on_update_entities", "src/edyn/util/rigidbody.cpp: make_rigidbody, rigidbody_set_shape", "include/edyn/comp/rotated_mesh_list.hpp: rotated_mesh_list"]}
{"id": "C92", "title": "An OBJ file loads as the geometry it describes", "statement": "Loading an OBJ file yields exactly the geometry the file describes: every vertex, scaled, rotated and moved in this order, in the order of the file; vertex colours; for triangle meshes, a fan of triangles for every face; for lists of meshes, one mesh per object with its name, vertices and polygons; for convex polyhedra and compounds, one polyhedron per object, whose vertices placed at its centre are those of the file. Comments, blank lines, unknown commands, white space between words, texture coordinates and normals in faces do not change the result.", "quantifier": "all texts, all numbers of objects, vertices and faces, all polygons, all positions, orientations and scales, whatever way numbers are parsed", "why_tests_cant": "tests load a few files written by one exporter; the claim is about every text of the format, any layout of its lines and any number of objects", "anchors": ["src/edyn/util/shape_io.cpp: load_meshes_from_obj, load_tri_mesh_from_obj, load_convex_polyhedrons_from_obj, load_compound_shape_from_obj, read_face, read_face_indices, read_vector3", "include/edyn/util/shape_io.hpp"]}
{"id": "C93", "title": "An extrapolation starts from the server's state and reports what it changed", "statement": "Each extrapolation of a client starts, for every component (other than inputs) of every entity that takes part in it, from the last value that the server sent: with the creation of the entity, or with a snapshot, the present one included, no matter what previous extrapolations did to it. Its result holds, once each, the final extrapolated value of every networked component that changed, of the entities known to the client, except for inputs and actions of entities the client owns; it holds nothing else. Requests that name unknown entities are dropped without effect; no other request, and no creation or destruction of entities in between, fails.", "quantifier": "all histories of creations, destructions and extrapolation requests, all snapshots, all inputs, and all writes of the simulation and of user code during every extrapolation", "why_tests_cant": "the state an extrapolation starts from depends on everything previous extrapolations wrote and on which entities took part in them; tests run a few extrapolations of a few bodies", "anchors": ["src/edyn/networking/extrapolation/extrapolation_worker.cpp: begin_extrapolation, finish_extrapolation, on_extrapolation_operation_create, on_extrapolation_operation_destroy, on_set_extrapolator_context_settings", "include/edyn/networking/extrapolation/extrapolation_modified_comp.hpp", "include/edyn/networking/util/pool_snapshot_data.hpp: replace_into_registry", "include/edyn/networking/util/input_state_history.hpp: import_component"]}
{"id": "C94", "title": "Two convex polyhedra: one separating direction, and points on opposite features", "statement": "Colliding two convex polyhedra is defined for all of them and yields at most four points with one unit normal and one distance: the shapes are exactly that far apart along the normal, and no further apart along the normal of any face of either shape or along any direction orthogonal to two edges that could touch. If the shapes are further apart than the threshold there are no points. Every point joins opposite places of the two shapes within the feature tolerance of where they end along the normal: a vertex and the outline of the other shape's feature, or two crossing sides. There is a point whenever the features meet as seen along the normal.", "quantifier": "all pairs of closed convex polyhedra with the origin inside, of any number of vertices and faces, all positions, orientations and thresholds", "why_tests_cant": "the direction is the best of all faces and of all pairs of edges that form a face of the Minkowski difference, and features come from a hull of an arbitrary number of vertices; tests place a few boxes", "anchors": ["src/edyn/collision/collide/collide_polyhedron_polyhedron.cpp: collide, max_support_direction", "src/edyn/math/geom.cpp: edges_generate_minkowski_face, intersect_segments, point_in_polygonal_prism", "include/edyn/util/shape_util.hpp: polyhedron_support_projection, point_cloud_support_polygon", "src/edyn/shapes/convex_mesh.cpp: update_calculated_properties"]}
{"id": "C95", "title": "A polyhedron and a capsule: the direction of the closest points, and points along the capsule", "statement": "Colliding a convex polyhedron with a capsule is defined for all of them and yields at most four points with one unit normal and one distance. The shapes are exactly that far apart along the normal. As long as the axis of the capsule is outside of the polyhedron, the normal points from the point of the axis that is closest to the polyhedron to the point of the polyhedron that is closest to the axis, the distance is the one between the shapes, and there are points exactly when it is at most the threshold. Every point joins an end or a point of the axis, moved to the surface, with a point of a feature of the polyhedron which is opposite to it along the normal, and its feature tells the side of the capsule from its two hemispheres.", "quantifier": "all closed convex polyhedra with the origin inside, of any number of vertices and faces, all capsules, positions, orientations and thresholds", "why_tests_cant": "the direction is the best one of all faces and all edges, each compared with the axis of the capsule; that one of these is the direction of the closest points is a fact about all polyhedra and all placements, tests place a few capsules on boxes", "anchors": ["src/edyn/collision/collide/collide_polyhedron_capsule.cpp: collide", "src/edyn/math/geom.cpp: closest_point_segment_segment, closest_point_line, intersect_segments, point_in_polygonal_prism", "include/edyn/util/shape_util.hpp: polyhedron_support_projection, point_cloud_support_polygon, capsule_support_projection"]}
{"id": "C96", "title": "Changing the friction of a body changes its contacts", "statement": "After set_rigidbody_friction the material of the body has the new friction and every contact point of the body is up to date: its friction is the mix of the materials of both bodies, unless there is an entry for the pair in the material mixing table, which stays in force. Materials of other bodies, contacts of other bodies and everything else about the contacts stay as they are. At all times, whatever the order of new contacts, updates, removals and changes of friction, a contact point has the material that a new point at the same place would get. The call is defined for every body with a material.", "quantifier": "all histories of new and removed manifolds and constraints, new, updated and removed points, changes of friction and entries in the mixing table, all materials, shapes and per-vertex values", "why_tests_cant": "the material is assigned when a point is made, partly reassigned when it is updated and partly overwritten by this call, and the three agree or not depending on the whole history of the point", "anchors": ["src/edyn/util/rigidbody.cpp: set_rigidbody_friction", "src/edyn/util/collision_util.cpp: create_contact_point, merge_point, assign_material_properties, try_assign_per_vertex_friction", "src/edyn/util/insert_material_mixing.cpp: insert_material_mixing", "include/edyn/dynamics/material_mixing.hpp: material_mix_table"]}
{"id": "C97", "title": "A change of a setting reaches the threads that simulate", "statement": "In asynchronous execution every change of a setting (fixed time step, steps per update, numbers of iterations, callbacks, collision filter, time source, pause, default gravity, role in the network, settings of a client or sent by the server, transient components of contacts, external components, material mixing) reaches the simulation thread: once it has taken the messages on their way, its settings are those of the main registry, and the simulation is paused there exactly if it was paused last. The init callback is called once for each one set that is not the present one, and for no other change. The extrapolation thread of a client follows likewise. In sequential execution the stepper is paused exactly if the settings say so. In every mode of execution the settings that contact creation needs exist.", "quantifier": "all histories of calls of all these functions, network packets, and moments at which the threads take messages, in all modes of execution", "why_tests_cant": "each function notifies the threads on its own, or not, the copies are replaced as a whole by some messages and in part by others, and what a thread ends with depends on the interleaving of all of them", "anchors": ["src/edyn/edyn.cpp: attach, set_fixed_dt, set_max_steps_per_update, set_paused, set_time_source", "src/edyn/config/solver_iteration_config.cpp", "src/edyn/context/step_callback.cpp", "src/edyn/util/settings_util.cpp: refresh_settings", "src/edyn/util/gravity_util.cpp: set_gravity", "include/edyn/util/transient_util.hpp: set_contact_point_transient", "src/edyn/networking/networking.cpp: edit_client_settings", "src/edyn/networking/extrapolation/extrapolation_callback.cpp", "src/edyn/simulation/simulation_worker.cpp: on_set_settings, on_set_paused", "src/edyn/networking/extrapolation/extrapolation_worker.cpp: on_set_settings", "src/edyn/collision/narrowphase.cpp: finish_detect_collision"]}
{"id": "C98", "title": "Actions reach the server with their content", "statement": "Every action pending in the action lists of an entity of a client at its updates is, after the history of the entity was sent, received and imported, in the server's action list of the same type, with the same content and in the same order, after the ones already there; recording and sending leave the client's own lists as they are. Nothing is recorded for entities owned by others. Bytes received as an action never cause undefined behaviour, and an action whose bytes end too early has no effect.", "quantifier": "all numbers and types of actions, all contents of the lists at any number of updates, all received bytes", "why_tests_cant": "the limits of one byte for the number of actions and of two bytes for their size are only met by unusual lists, and malformed entries never come from the library's own client", "anchors": ["include/edyn/comp/action_list.hpp: serialize", "include/edyn/networking/comp/action_history.hpp: serialize", "include/edyn/networking/util/client_snapshot_exporter.hpp: append_actions, append_current_actions", "include/edyn/networking/util/server_snapshot_importer.hpp: import_action, import_action_single", "include/edyn/util/tuple_util.hpp: visit_tuple"]}
{"id": "C99", "title": "A new rag doll is assembled", "statement": "A rag doll made from a definition starts put together: both anchors and both frames of each of its joints coincide in world space wherever it is placed and however it is turned, the angles are within the limits of the joints, every body hangs on the hip through exactly one chain of joints, joined bodies are excluded from colliding with each other, the two sides mirror one another, the masses add up to the requested weight and all shapes have positive extents. (Proved for all joints but five; false of the right wrist, the neck, the head and the upper arms, and the capsule of the neck has a negative length below 1.2 metres.)", "quantifier": "every position, unit orientation, size and mass of the parts of a rag doll (anchors and frames), every height, weight and kind of shape (masses and shapes), every joint and every body", "why_tests_cant": "the sizes, heights and orientations are continuous parameters; a rag doll that starts slightly apart is pulled together by the solver in the first steps, so a test of the later behaviour hides the error", "anchors": ["src/edyn/util/ragdoll.cpp: make_ragdoll, make_ragdoll_def_from_simple", "include/edyn/util/ragdoll.hpp: ragdoll_def, ragdoll_simple_def, ragdoll_entities", "src/edyn/constraints/hinge_constraint.cpp: hinge_constraint::set_axes"]}
{"id": "C100", "title": "Pages loaded by several threads are the right ones", "statement": "When pages of a paged triangle mesh are loaded from a file by the worker threads, every page is given the mesh that the file has for it and no load fails, whatever the order of the loads and however the threads are scheduled. (Proved for pages in files of their own under every schedule, and for embedded pages loaded one at a time; false of embedded pages loaded at the same time.)", "quantifier": "all contents of files and ways to read a mesh, all lists of pages, all schedules of any number of threads", "why_tests_cant": "the failure needs a particular schedule of two loads; files, pages and schedules are unbounded", "anchors": ["src/edyn/serialization/paged_triangle_mesh_s11n.cpp: paged_triangle_mesh_file_input_archive::load, load_mesh_context::load", "include/edyn/serialization/file_archive.hpp: seek_position, read_bytes", "src/edyn/shapes/paged_triangle_mesh.cpp: load_node_if_needed"]}
{"id": "C101", "title": "A capsule and a box: the distance and the points", "statement": "Colliding a capsule with a box settles on one direction and one distance. The direction is a unit vector that points from the box towards the capsule, and the shapes are exactly that far apart along it; they are not further apart along any face normal of the box that points towards the capsule. No contact is dropped because of the threshold unless the shapes are further apart than the threshold. As long as the axis of the capsule is outside of the box, the distance is the true distance between the shapes, so the threshold test is passed exactly when they are within the threshold. There are at most four points, all with this direction and distance. Each of them joins a lowest point of the axis of the capsule, moved to the surface, with the point of the box face opposite to it, or with a point on the line of a box edge that is highest along the direction, or else a highest corner of the box with the point at that distance above it; features may be off their supporting planes by the tolerance.", "quantifier": "all capsules and boxes of positive size, all positions, orientations and thresholds", "why_tests_cant": "the direction is the best of three faces and twelve edges, each compared with the axis of the capsule; that one of these always is the direction of the closest points is a fact about all placements", "anchors": ["src/edyn/collision/collide/collide_capsule_box.cpp: collide", "src/edyn/math/geom.cpp: closest_point_segment_segment", "src/edyn/util/shape_util.cpp: capsule_support_projection", "src/edyn/shapes/box_shape.cpp: get_edge, support_projection"]}
