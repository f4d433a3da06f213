# Formal model of xissburg/edyn in Lean 4

Everything lives in `/verif/lean/Verif`. Each area has a model file (definitions, each citing
the file and lines in `/repo` it models), a lemma section, and a property file whose theorems are
the claims listed in `MANIFEST.json`. The source tree `/repo` was only read, never run.

## Trusted base

* Lean 4.33.0's kernel.
* The axioms `propext`, `Classical.choice`, `Quot.sound` (at most; see the per-theorem table at the
  end). No axiom is added, there is no `sorry`, `admit`, `native_decide` or `bv_decide`.
* The reading of the C++ source: the model is a hand translation. Each definition cites the lines
  it models and states its simplifications.
* C++ runtime facts assumed, unless a property is about them: `std::vector`, `std::map` with a
  valid comparator, `std::mutex`, `std::atomic`, EnTT pools behave as documented; allocation
  succeeds. Floating point is not modelled: scalars are an arbitrary linear order (trees), an
  arbitrary ordered field (solver), or exact integers/rationals (time).

## How undefined behaviour is modelled

Functions guarded by `EDYN_ASSERT` or by an unchecked precondition return `Option`/an error
outcome in the model when the guard fails. Theorems either show that the error outcome is never
reached or state the precondition.

## Plan per property

| id | what is modelled | how it is proved |
|----|------------------|------------------|
| C01 | `dynamic_tree` node array with free list, create/move/destroy/clear, stack-based query | invariant "the array represents a binary tree" by induction over histories; query result = filter of leaves |
| C02 | same | same invariant; leaf map refinement to `id -> (entity, box)` |
| C03 | same | same invariant, counting |
| C04 | `static_tree` build with the partition function | strong induction on item count |
| C05 | `entity_graph` with its three free lists | refinement to an abstract multigraph |
| C06 | `free_list` | invariant: the free chain lists each free slot once |
| C07 | `connected_components` work-list loop | loop invariant; equality with reachability classes |
| C08 | `is_single_connected_component` | loop invariant |
| C09 | `reach`, `traverse` | loop invariant; reachability |
| C10 | `island_manager` on an abstract graph | invariant over update histories; violated cases as witnesses |
| C11 | `split_islands` | as C10 |
| C12 | sleep timer logic | invariant over update histories |
| C13 | byte-level archive for a universe of types | structural induction on the type |
| C14 | memory input archive | induction over types; no read past the end |
| C15 | vector/string length cap | violated: witness; partial theorem up to the cap |
| C16 | `entity_map` | invariant by induction over operations |
| C17 | two-party mapping protocol with FIFO channels | inductive invariant over all interleavings |
| C18 | registry operations and builder | refinement by induction over the stream |
| C19 | `task.cpp` chunk counter protocol | inductive invariant over all interleavings |
| C20 | message queue | invariant over interleavings |
| C21 | worker loop | transition system; violated start/stop race as witness |
| C22 | `clock_sync` state machine | invariant over message histories |
| C23 | `input_state_history` | list lemmas; boundary double-application as witness |
| C24 | `action_history` merge | list lemmas |
| C25 | pool snapshots with 8-bit indices | round trip below 256 entities; witness at 256 |
| C26 | timed packet queue | sortedness invariant and order of output |
| C27 | `dispatch_actions` | violated with two entities: witness; partial for one entity |
| C28 | `exporter_modified_components` | invariant over bump/decay histories |
| C29 | `update_aabbs_of_interest` | set algebra over histories |
| C30 | `should_collide_default` with 64-bit masks | direct |
| C31 | `exclude_collision` | invariant over histories |
| C32 | `contact_manifold_map` | invariant over histories |
| C33 | contact point lists, `process_collision`, `detect_collision`, sequential and parallel `narrowphase`, `clear_contact_manifold`, `replace_manifold` | invariant over histories; simulation of both drivers by a pure plan; four sub-claims refuted |
| C34 | stepper accumulator over exact rationals | induction over update sequences |
| C35 | constraint row solve over an ordered field | induction over iterations |
| C36 | friction row solve | ordered-field inequality |
| C37 | `apply_row_impulse` | ring identities |
| C38 | row packing and unpacking | induction over constraint lists |
| C39 | island solver state machine | simulation between the two drivers; witness for 0 iterations |
| C40 | material mixing table keyed by `unordered_pair` | witness that the comparator is not a strict weak order; partial |
| C41 | `unordered_pair` | direct; witness for the order |
| C42 | `flat_nested_array` | refinement to list of lists |
| C43 | `load_node_if_needed`, `mark_recent_visit`, `unload_least_recently_visited_node`, `assign_mesh` | invariant over all interleavings of their critical sections; order of the list against the visit history |
| C44 | `init_edge_indices` | loop invariant |
| C45 | `on_destroy_networked_entity` | violated: witness |
| C46 | extrapolation worker loop | transition system; violated: witness |
| C47 | `collision_result::swap`, `swap_manifold`, `flip_contact_point(_geom)`, local normals and warm starting | involution and mirroring for all points; local normal and second friction impulse refuted for all contacts |
| C48 | quaternion and matrix functions | ring identities |
| C49 | child list add/remove | refinement to a list |
| C50 | `query_entity` packet serialization | violated: witness |
| C51 | writer/reader of paged mesh files over the serialization model | sizes recorded = bytes written, by induction over submeshes; then the round-trip theorem at each offset |
| C54 | as C10 | invariant: members of an island that is not flagged are connected; refuted by a merge that loses the flag; `_partial` when no flagged island is merged |
| C55 | steppers of C34 with pause and resume | invariant on the last update time for the worker; refuted for the sequential stepper; `_partial` when an update falls inside the pause right before resuming |
| C56 | `assign_material_properties`, `merge_point`, material mixing | all histories of updates; table precedence refuted for per-vertex meshes |
| C57 | Jacobian rows of all built-in constraints | ring identities for force and moment balance; refuted for two constraints |
| C58 | row visits, restitution | inner-product identities over an ordered field |
| C59 | `position_solver::solve`, `apply_solution`, `contact_constraint::solve_position` | invariants over sequences of corrections; refuted for stale origins |
| C60 | `insertion_point_index` | optimality of the choice over any ordered field; three collinear points refuted |
| C61 | `set_thickness`, `assign_mesh` in the cache model | refuted; `_partial` for pages that stay in memory |
| C62 | `visit_submeshes` with eviction by another thread | refuted by a schedule; `_partial` without interference |
| C63 | load messages and `on_paged_triangle_mesh_load_page` | parity of messages; refuted for `clear_cache` and shared meshes |
| C64 | `get_face_friction` etc., barycentric coordinates | exact arithmetic over any field; interpolation along edges refuted (squared fraction) |
| C65 | `calculate_adjacent_normals` | sign of the test equals the geometric position of the opposite vertex, any ordered field |
| C66 | `create_paged_triangle_mesh`, `submesh_builder`, `visit_triangles` | composition of C04, C44 and a page model; boundary flags of pages refuted |
| C67 | `box_aabb`, `sphere_aabb`, `cylinder_aabb`, `capsule_aabb`, `plane_aabb`, `point_cloud_aabb`, `aabb_to_world_space`, `shape_aabb` | shapes as sets of real points; enclosure by support functions of the three axes, tightness by exhibiting points; planes, moved meshes and slightly tilted cylinders refuted |
| C68 | the `closest_point_*` functions over exact reals | optimality against every other point by convexity (Cauchy-Schwarz, clamping); wrong distance inside boxes refuted |
| C69 | support points and projections, hill climbing on convex meshes | extremality by Cauchy-Schwarz and convexity; hill climbing by a well-founded measure and local-to-global maximality |
| C70 | `shape_raycast` for sphere, box, plane, cylinder, capsule, polyhedron, mesh, paged mesh, compound | equivalence with first membership; the cases the code gets wrong as witnesses |
| C71 | `collide` for sphere, plane, box, capsule and cylinder pairs, `maybe_add_point` and the contacts of boxes, cylinders and polyhedra with planes, polyhedra with spheres | exact real geometry; wrong pivots and distances as witnesses |
| C72 | intersection tests of `geom.cpp` | equivalences over exact reals; wrong cases as witnesses |
| C73 | `raycast` over the bodies found in the two trees | fold invariant, permutation invariance |
| C74 | `convex_mesh` derived data: edges, normals, neighbours, relevant directions, validation | fold invariant over the visited sides (list of faces per edge = sides in order); convex polygon geometry for the normal; repeated derivation as witness |
| C75 | `support_feature` of boxes, cylinders and triangles, feature tables of boxes, `clip_triangle_separating_axis` | case analysis over the selected face and the projections of its corners; Cauchy-Schwarz for discs; cases where the tolerance is exceeded as witnesses |
| C77 | `split_hull_edge`, `calculate_convex_hull`, `is_triangle_ccw`, `closest_point_convex_polygon` on lists of points; indices and the depth of the recursion are explicit, so a bad index or a recursion which does not end would be `none` | the number of points outside of an edge decreases in both recursive calls; by induction the chain between the two ends consists of final edges; the tolerance is compared with an area, not a distance (refuted by a small square); closest point: the step to the result is normal to the side or in the cone of the corner |
| C76 | `shape_volume` of every solid, `mesh_volume`, `mesh_centroid`, `shift_to_centroid`, `make_box_mesh`; a mesh is the three index arrays of the code, a bad index is `none` | the specification is the Lebesgue integral over the set; solids of revolution by slicing; for meshes, "bounds a set" says that the signed tetrahedra from some apex cover it once, and closedness (every directed side occurs as often as its reverse) lets the apex be the origin, because the sum over a closed mesh does not depend on it |
| C78 | `moment_of_inertia` of every solid, the parallel axis shift, compounds | the same integrals with quadratic integrands; affine change of variables for placed parts; the sign error of polyhedra and the factor of capsules are proved for all inputs |
| C79 | the packets which change the server's registry: creation, destruction, entity map, snapshots with their ownership checks and delayed application; the graph walk | invariant over all runs: everything in the queues was permitted when it arrived; frame lemmas for each packet; the exceptions are witnessed |
| C80 | all components of one body and the functions of `rigidbody.cpp`, the updates at the end of a step | invariant over all sequences of operations; momentum by the inverse matrices; the exceptions are witnessed |
| C81 | `apply_center_of_mass`, origin getters and setters | algebra of rotations: point velocities and origin are unchanged, two settings compose |
| C82 | `make_rigidbody`, `clear_rigidbody`, kinematic setters | frame lemmas for each stage of creation; the angular velocity is put into `integrate`; witnesses for the left-over origin and the negative orientation |
| C83 | `update_discontinuities`, `accumulate_discontinuities`, corrections in the worker and `merge_component` (`Present/Model.lean`) | offsets as poses; sum of state and offset before and after a correction; half-angle of the offset under `slerp`; induction over frames; the worker by induction over updates against the sum of jumps `hidden` |
| C84 | `update_presentation`, `calculate_presentation_delay`, with the stepper model of C34 | interpolation interval of the sequential stepper is the leftover minus one step; path as a relation `OnPath`; delay as a convex combination |
| C85 | `raycast_service`, requests and responses of `stepper_async` and `simulation_worker` (`Query/Model.lean`) | a machine for any kind of query (ask, worker update, receive) proved once: calls of delegates are a permutation of those expected; the ray service and AABB queries are instances |
| C86 | `restitution_solver.cpp` in full over an arbitrary graph and order of traversal (`Restitution/Model.lean`) | invariants of the loop over groups (`solveRestitution_induct`) from a specification of one group (`solveGroup_spec`: velocities change by the sum of the reported impulses); the bounce of an isolated contact computed exactly |
| C87 | `collide_box_box.cpp` in full (`Collide/BoxAxis.lean`, `Collide/BoxBox.lean`) | the separating axis theorem for zonotopes (`Collide/Sat.lean`, from Hahn–Banach for the sum of the six half edges) gives overlap and depth; faces of a placed box in their own frame (`FaceAt.Of`), levels of the corners of a flat face (`FaceAt.Flat`), and the lists of points by induction over the loops (`BoxPoints`); in clear position the support features are exact (`BoxExact`) and a segment that meets a rectangle is cut by its border (`BoxTouch`) |
| C88 | `collide_sphere_mesh.cpp` in full with `clip_triangle_separating_axis`, the arrays of `triangle_mesh::initialize` and the tree (`Collide/SphereTri.lean`, `Collide/MeshFacets.lean`) | the axis found is the direction from the closest point of the triangle (`sphere_axis_nearest`), from extremality of the closest point; the feature and the clipped axis when the closest feature is clear; the loop over the triangles in the box by induction; two witnesses computed exactly |
| C89 | `broadphase.cpp` except for the tree of islands, over the models of the trees and of the manifold map (`Broad/Model.lean`); visiting orders are parameters | invariant over all histories linking both trees, the residents, the list of new entities and the manifolds (`Broad/Inv.lean`); the sequential and the parallel search are both equal to one fold over the list of pairs found (`seek_eq`, `seekAsync_eq`), which gives `parallel_same` and the exact set of pairs (`pairs_exact_partial`) |
| C90 | `collide` of compounds with simple shapes, compounds, planes and meshes (`Collide/Compound.lean`); the overloads for the children are a parameter about which nothing is assumed | the loop over the children equals adding the concatenation of their points; the pivot map is a change of space (`place_place`); the tree query is exact (C04) and moved boxes enclose (C67), so a common point puts the child among the visited ones; good points of children (C71) stay good (`Same.good`) |
| C91 | `update_rotated_mesh(es)`, `make_rotated_mesh`, `polyhedron_shape_initializer`, `updated_aabb`, the part of `on_update_entities` for replaced positions and orientations, `rigidbody_set_shape` (`Poly/Model.lean`); pointers are numbers of cells, released cells and null are `none`; centres of mass are left out | invariant over all histories (`Core`: lists of cells are disjoint, grow upwards in entity number and own distinct cells; `Linked`: the list of a body is that of its shape); each operation keeps it; refreshing a list turns exactly its cells |
| C92 | `shape_io.cpp`, character by character: streams with their flags, `stoi` and conversion to 32 bits (`Obj/Model.lean`); the value of a word as a number is a parameter | the format is a relation between texts and items (`Obj/Spec.lean`); the readers refine it line by line; induction over the parts of a file |
| C93 | the state of the extrapolation worker between messages: entity map, components, modified lists per registration, remote state (`Extra/Model.lean`); the simulation is any list of writes, islands are any set of entities reached | `sent` is a fold over the messages, `Replaces` says what was patched (`Extra/Spec.lean`); an invariant ties map, tracking and remote state (`Inv`, `Matches`), a relation `Track` is composed over all writes of a request; failure is `none`, the array of modified types is shown never to overflow |
| C94 | `collide` of two polyhedra: faces, pairs of edges, support polygons, the three loops that add points (`Collide/PolyPoly.lean`), and the mesh made from vertices and faces (`Collide/PolyMesh.lean`) | `GapAlong`, `Compared`, `Outline`, `Opposite`, `Meets` say what a result is in terms of hulls and outlines only; the test for Minkowski faces is proved equivalent to the two arcs of normals crossing (`Faces2`), which makes the direction of two edges a supporting one (`Collide/PolySat.lean`, `PolyDir.lean`); points by the specifications of hull, prism and segments (`PolyContact.lean`, `PolyMain.lean`); every mesh of a convex polyhedron meets the hypotheses (`solid_of_mesh`); cubes and a tetrahedron as witnesses (`PolyPolyFindings.lean`) |
| C95 | `collide` of a polyhedron and a capsule: faces, edges against the axis, support polygon, ends of the axis inside of the polygon, crossings of its sides, the single vertex and the hemispheres (`Collide/PolyCapsule.lean`) | `CapCompared`, `CapOpposite`, `PolyCapGood` and `ClosestPair` say what a result is in terms of hulls and segments; direction by folding over faces and edges (`PolyCapDir.lean`), points by the specifications of hull, prism and segments (`PolyCapPoints.lean`), all in world space (`PolyCapMain.lean`); the distance is exact outside (`PolyCapExact.lean`): closest points exist by compactness, and the closest point of a polyhedron is on an edge or the step to it is against the normal of a face (`closest_feature`), so the direction is one of those compared; meshes of convex polyhedra meet the hypotheses (`closed_of_mesh`), a tetrahedron as the example |
| C96 | materials, shapes, mixing table, graph edges with their contact points; `set_rigidbody_friction`, new, updated and removed points, new entries (`Contact/Friction.lean`, on the model of C56's `Contact/Materials.lean`) | `Reach`: histories; `AllCurrent`: every point has the material a new one would have; invariant over all histories, frame (`SameButFriction`), definedness; counterexamples by evaluation |
| C97 | settings, `attach`, all functions that change settings, messages in order (C20), handlers of the simulation and the extrapolation worker (`Settings/Model.lean`) | state of a worker after all messages on their way (`World.settled`); invariant over all histories (`Follows`, `FollowsX`); calls of init callbacks against `initCalls`; counterexamples by evaluation |
| C98 | serialization of action lists and histories, recording of pending actions, import of received ones (`Net/ActionData.lean`), on the archives of C13 | round trip of lists and histories of any length (`history_round_trip`); induction over updates and types (`actions_exact`); prefix behaviour of readers for malformed bytes |
| C99 | definition and construction of rag dolls: places, shapes, exclusions, anchors, frames and limits of the joints (`Ragdoll/Model.lean`), real scalars | world anchors reduced to the coordinates of the rag doll by linearity and composition of rotations (`anchors_gap`), then by cases on the joints (`assembled_partial`, `gaps_exact`, `frames_meet`); shapes by linear arithmetic in the height (`shapes_valid_partial`, `short_neck`) |
| C100 | loading of pages by tasks on a shared or an own stream (`Mesh/ParallelLoad.lean`), interleaved between the calls to the stream, any way to read a mesh | invariants over schedules (`loads_partial`, `external_loads`), induction over the way a mesh is read (`load_completes`, `external_completes`), refuted by a schedule (`wrong_page`) |
| C101 | `collide` of a capsule and a box: the direction from three faces and twelve edges against the axis of the capsule (`Collide/CapsuleBox.lean`), the points by features (`Collide/CapBoxPoints.lean`) | `GapAlong`, `ClosestPair` and `Near` say what a distance is in terms of sets; direction by folding over the passes (`capsule_box_axis`), closest points exist by compactness (`cap_box_closest`), are on an edge or their step is along a face normal (`on_edge`, `inner_axis`), so the distance is exact (`capsule_box_distance_partial`); pivots by cases on the feature (`CapBoxPivots`, `capsule_box_points_partial`), with no point of a flat capsule forgotten (`capsule_box_flat`) |

## Findings

Places where the code does not do what the property asks for. Those marked (P) are proved about the model, as a witness or
for all inputs; the theorem names are in `MANIFEST.json` under the property. The others were noticed while reading and are
not stated as theorems.

Networking and replication
* C80 (P): changes of kind leave a rolling mark which is wrong for the shape, and let a dynamic body have a mesh; a body not
  made dynamic has no mass component and cannot become dynamic; a static body made kinematic has no velocity;
  `validate_rigidbody` rejects every static body.
* C80 (P): after `set_rigidbody_inertia` impulses use the old inertia until the next step; the box of a shape assigned to a
  body with a centre of mass is put at the centre of mass.
* C81: a static body with `center_of_mass` reads velocities it does not have; `present_position` of a new body ignores the
  centre of mass; only `make_rigidbody` shifts the inertia to the centre of mass.
* C82 (P): `clear_rigidbody` leaves `origin`, so the next body on the entity is placed by the old origin or cannot be made;
  `set_kinematic_orientation` divides by zero for the negative of the current orientation.
* C83 (P): a sleeping body that is corrected jumps, because it is woken up only after the offsets were accumulated
  (`no_jump_refuted`); a body which falls asleep keeps being shown at its offset (`rest_refuted`); the offset of a
  disabled body is added to what is shown in every update (`disabled_drifts`); if the worker processes two corrections
  in one update the offset of the first is sent, and merged, twice (`worker_refuted`); the decay rate is documented as a
  factor but is used as a rate per second (`decay_not_as_documented`).
* C84 (P): when messages of the worker are late, the delay may grow faster than time passes, so that the motion shown
  runs backwards (`time_forward_refuted`); there is no lower limit of the interpolation interval, so that bodies are shown
  where they would have been several steps ago with their current velocity (`within_refuted`).
* C85 (P): the delegate of an asynchronous ray which meets the box of no body is never called and its context is never freed
  (`rays_refuted`), because only candidates create results.
* C86 (P): a manifold with a sensor (no material) that approaches faster than the threshold is solved with the others of the
  body and reads `contact_point_material`, which it does not have (`sensor_undefined`)
* C86 (P): the restitution impulses of a contact are those of the last group it was solved in, and stay when nothing is
  solved; they do not "add up to the full impulses" as documented (`reported_refuted`, `stale_impulse`)
* C86 (P): a ball that falls into a groove gains energy with coefficient 1 and the default iterations (`energy_refuted`)
* C87 (P): the axis across two edges is skipped when the squared sine of their angle is at most `EDYN_EPSILON`; long bars 1 mm
  apart are then reported as penetrating (`near_parallel_reported`).
* C87 (P): a beam 10 cm deep in a plate, with an edge exactly along a diagonal of the face, gets no contact point
  (`box_box_contact_refuted`), because `intersect_line_aabb` misses lines through two of the corners.
* C88 (P): a sphere that rolls over the border of an open mesh loses its contact while the third vertex of the triangle is
  within the support feature tolerance of the closest edge: the face is taken for the feature and the centre is not above
  it (`flat_missed`, `sphere_mesh_missed`).
* C88 (P): a sphere 3.6 m below a lone large triangle gets a contact 0.8 m deep at one of its edges (`ramp_ghost`,
  `sphere_mesh_ghost`): the adjacent normal of a boundary edge is tilted in proportion to the length of the edge
  (`triangle_mesh.cpp` 115), far from the intended "near 180 degree angle" for long edges, and the axis is clipped to it
  although it separates nothing.
* C89 (P): a static body that is moved keeps its old place in the broadphase: `move_aabbs` visits awake dynamic and
  kinematic bodies only, so a dynamic body touching it at its new place gets no contact (`moved_static_missed`).
* C89 (P): `rigidbody_set_shape(nullopt)` and `rigidbody_set_shape(shape)` before the first update after the body was made
  put the entity twice into the list of new entities; the second `emplace<tree_resident>` fails (`shape_set_twice_fails`).
* C89 (P): `rigidbody_set_shape(nullopt)` on a body with a contact manifold removes the AABB and keeps the manifold; the
  next update reads the AABB that is not there (`shape_removed_fails`).
* C90 (P): a compound is tested only against children whose boxes overlap the box of the other shape as it is, whereas
  planes, meshes and paged meshes are looked up with a box grown by the breaking threshold: two unit spheres half a
  centimetre apart have a contact point (the threshold is one centimetre), but none if one of them is the child of a
  compound (`near_compound_missed`); the same for two compounds.
* C91 (P): when the worker takes up an orientation set by the user, it updates the bounding box before the rotated mesh
  that the box of a polyhedron is made from (`simulation_worker.cpp` 242-252): the box is that of the old orientation, and
  stays so for a static body (`turned_box_stale`).
* C91 (P): if position or orientation are replaced in the message that also creates the polyhedron, `updated_aabb` reads
  through a null pointer (`turned_before_init_fails`).
* C91 (P): `init_new_shapes` skips entities that are gone but not entities that no longer have the shape: setting another
  type of shape, or none, before the next update is an error (`replaced_before_init_fails`).
* C91 (P): in `update` the initializer runs before the callback `pre_step_callback`, in `step_simulation` after it: a polyhedron
  made in the callback is used through a null pointer in the same step (`stepped_before_init_fails`).
* C91 (P): in the sequential modes a static polyhedron that is turned collides in its old orientation for ever
  (`turned_static_stale`).
* C91 (P): `rigidbody_set_shape` makes a bounding box for a body without shape only: a static body whose shape is replaced
  keeps the box of its old shape (`new_shape_old_box`).
* C91 (P): replacing a compound with several polyhedra leaves the entities made for all but the first in the registry, also
  when the body is destroyed (`replaced_compound_leaks`).
* C92 (P): a command that is indented or followed by a tab is ignored (`shape_io.cpp` 80-86): its vertices are lost
  (`tab_vertex_lost`).
* C92 (P): objects that use vertices of earlier objects fail the assertion in line 37 (`shared_vertices_fail`).
* C92 (P): relative (negative) corners become huge indices (`negative_corner`), corners that do not exist are not noticed
  (`missing_vertex`), a face of two corners shifts all triangles after it (`two_corners_shift`).
* C92 (P): the colours of a file in which only some vertices have one cannot be told apart (`colors_misaligned`); a vertex
  with fewer than three numbers is used uninitialised (`short_vertex_undefined`).
* C92 (P): `load_tri_mesh_from_obj` appends to its arguments but does not offset the indices: a second file refers to the
  vertices of the first (`second_file`).
* C92 (P): names of objects start with a space (`name_with_space`), objects without a name are not separated
  (`nameless_merged`), a file without vertices fails an assertion (`empty_file_fails`).
* C94 (P): if no two edges make a face of the Minkowski difference, as for two boxes given as polyhedra with the same
  orientation, the projections of the edges are read without a value (`aligned_undefined`;
  `collide_polyhedron_polyhedron.cpp` 100 and 149).
* C95: no violation found.  Not proved: a point whenever the shapes are within the threshold (the features are taken up to a
  tolerance, so that a capsule lying almost flat may miss the feature; proved if it clearly meets it), and the exact
  distance for capsules whose axis enters the polyhedron.
* C96: `set_rigidbody_friction` asserts only that the entity is a rigid body, and then patches `material`: undefined for a body
  without one, a sensor (`sensor_undefined`).  The friction it writes to contact points leaves out the per-vertex friction of a
  mesh; the next update of the point brings it back (`factor_lost`).  `insert_material_mixing` changes no existing contact, and
  from then on `set_rigidbody_friction` leaves these contacts alone as well, so they keep the old mix for as long as they last
  (`late_entry`).  All three are excluded from `set_friction_partial`; `SetFrictionFull` is the full claim.
* C97: `narrowphase::finish_detect_collision` and `narrowphase::update_contact_manifolds` read
  `settings.async_settings->contact_points_transient`, but `attach` fills `async_settings` only for asynchronous execution: in both
  sequential modes every step accesses an empty optional, whatever the application does (`sequential_contacts`; the same holds for
  `set_contact_point_transient` and the import of contacts).  `set_gravity` does not notify the workers: their default gravity
  stays the old one until another setting changes (`gravity_stale`).  `init_network_server` and `deinit_network_server` do not
  either, and `deinit_network_client` leaves the settings of a client behind: after client and server in turn the worker still is
  the one of a client (`role_stale`).  `SettingsFull` is the full claim.
* C98 (P): writing an action list or history keeps the first 255 elements and resizes the object that is written, so of more
  than 255 actions pending at an update the rest is also removed from the client's own list (`actions_exact`,
  `ActionsArriveFull_false`).  The bytes of a list travel as a vector, which is cut at 65535 bytes; the server then fails to read
  the list and drops all of it (`large_list_lost`).  `import_action` uses the received index without checking it: with two or more
  action types, any other index calls through a pointer read beyond a table (`bad_index_undefined`;
  `server_snapshot_importer.hpp` 263).
* C99 (P): the hand is shifted by `-(hand_size.y - arm_lower_size.y) / 2` along `y` in the coordinates of the rag doll, and the
  anchor by the opposite amount in those of the hand. The right hand is turned by half a turn about `z`, so there the two add
  up: the right hand starts one centimetre from its wrist in the default rag doll (`right_hand_apart`). The anchors of the
  neck, the head and the upper arms are 0.0165 and 0.0135 of the neck and 0.001 of the upper torso apart (`gaps_exact`).
  Below 1.2 metres the capsule of the neck has a negative length (`short_neck`).
* C100 (P): the tasks that load embedded pages call `seek_position` and `read_bytes` on the one `std::ifstream` of the archive
  without a lock; `m_is_loading_submesh` only keeps two tasks from loading the same page. If two pages of a query are missing and
  their tasks run at the same time a page is given the mesh of another page (`wrong_page`; strictly it is a data race). If a read
  goes beyond the end the `failbit` is never cleared, so that no page is ever loaded again (`broken_forever`). External pages are
  not affected (`external_loads`).
* C101: no violation found.  Not proved: the distance when an edge of the box is almost, but not exactly, parallel to the axis of the
  capsule (`closest_point_segment_segment` then takes them for parallel); that a capsule lying flat on a face of the box has a point (each end over the face and each crossing has, but features are
  taken up to a tolerance); that the pivot of a hemisphere against an edge is between the ends of the edge: `closest_point_line`
  is used, so it is only on its line.
* C93 (P): changes are noticed through the `on_update` signal only, which the solver does not emit
  (`island_solver.cpp` 369): a body that the extrapolation moves is in the result only if its position is in the
  snapshot or something else patches it (`reportedFull_false`).
* C93 (P): a component that one extrapolation reported and the next one leaves alone is reset to the server's value in
  the worker without being reported; the client keeps the old result (`reset_not_reported`).
* C93 (P): only entities reached from the snapshot are reset. A body that was hit in one extrapolation is where that
  one left it in the next (`startsFull_false`); a kinematic body keeps its extrapolated values, which are then
  stored as if the server had sent them (`leftover_stored_as_remote`).
* C93 (P): the values of an aborted request are lost (`aborted_values_lost`); inputs added during the extrapolation are
  not reported (`new_input_not_reported`).
* C93 (P): a request that replaces nothing but inputs of owned entities fails the assertion in line 430
  (`empty_result_fails`).
* C93 (P): registering component types while entities exist leaves them untracked, destroying one then erases a
  component it does not have (`register_again_fails`); what the server sent is forgotten (`register_again_forgets`).
* C85: `query_aabb_async` is declared in `query_aabb.hpp` 37 but `query_aabb.cpp` defines `query_island_aabb_async`, so that
  it cannot be linked.
* C79 (P): a packet which creates entities may name an entity the client has a name for already, and then overwrites its
  components, `entity_owner` included; names for all valid entities can be obtained with `update_entity_map`.
* C79 (P): permission for a snapshot is checked when it arrives, and it is applied after the playout delay.
* C79 (P): the server fails on a snapshot of an entity which is not in the graph, on a name given twice, on creation of an
  entity which it has destroyed, and rejects updates of a constraint whose first body is static. `allow_full_ownership` is
  never consulted on import.
* C53 (P, `jitter_repeats_action`): an action may be executed twice if the clock estimate moves back.
* C52: outside of the asynchronous mode actions are recorded again if an update does no step.
* C17, C18 (P): lists of children are observed without a listener for their destruction; an operation may refer to an
  entity whose mapping has been erased. `registry_operation` move assignment does not destroy the operations it replaces.
* `serialize(material)` omits `id`. `calculate_client_playout_delay` reads `client_view.get` of a null owner.
* `server_side`/`snap_to_pool_snapshot`: components of snapshots are replaced only where they exist (P), never created.

Constraints and solver
* Point constraint reads out of range (P); generic constraints need more than the 16 rows there are (P); 10 constraint types
  but room for 8 (P); iteration settings are truncated to 8 bits (P); the origin of a moved body is stale (P).
* `cvjoint_constraint` guards bend damping with `twist_damping > 0`; `contact_extras` rotates the second rolling direction by
  the orientation of body A; `gravity_constraint` divides by the inverse mass; the position solver normalises orientations of
  immovable bodies.
* Rotation between directions is not always the shortest (P).

Shapes and contacts
* C67 (P): planes are bounded at 99999, moved meshes keep their box, tilted cylinders stick out of their box by up to 2r√ε.
* C68 (P): nearly parallel segments; the sign of the second pair; distances inside boxes; counts left unwritten.
* C69 (P): support of cylinders for short or nearly axial directions, of capsules for directions which are not unit vectors;
  a vertex which is not used stops hill climbing.
* C70, C73 (P): fractions of ray casts are not limited to [0, 1] and may be negative, which hides real hits; assertions for
  rays from the centre of a sphere and of length zero; parallel faces of polyhedra; normals of cylinders and capsules; the
  position of a mesh is ignored.
* C71 (P): sphere–plane subtracts the plane's position twice; distance of a sphere whose centre is inside a box; second point
  of capsules; shapes on a plane ignore the position of its body; normal of degenerate pairs.
* C72 (P): a line through two corners of a box is not found; concentric circles; tangents.
* C74 (P): an open mesh passes validation; the second update of a rotated mesh breaks an assertion.
* C75 (P): three corners within the tolerance drop the lowest; the projection of a triangle is too small by up to the
  tolerance; the index of a side edge is not written.
* C76, C78 (P): products of inertia of polyhedra have the wrong sign, and the moment of a capsule is never right; a compound
  assumes disjoint children with the centre of mass at their origin; the centroid of a mesh without volume divides by zero.
* C77 (P): the tolerance of hulls is not a distance, so small faces collapse (which the assertion in polyhedron–sphere does
  not allow); closest points of polygons beyond acute corners.
* Contact of three collinear points is decided with an unnormalised distance; `find_nearest_contact_rolling` always uses the
  pivot on A; `replace_manifold` reads impulses of points which have none.

Meshes, islands and the rest
* Edges which three faces share forget faces (P); edges at the border of pages are flagged as boundary (P); all pages are
  loaded after creation, possibly over the budget; edge values use the squared fraction (P); the material of paged meshes
  ignores one component of the colour, and friction is 0 for pages which are not loaded.
* A static tree with leaf size zero, or a query of an empty one, is undefined (P).
* Islands after a change of kind, contacts and page cache: see the notes in `MANIFEST.json` (P).
* Material damping is ignored for large stiffness; `async_settings` is dereferenced in the sequential modes.

<!-- generated: tables -->

## Axioms of each theorem

`p` = `propext`, `c` = `Classical.choice`, `q` = `Quot.sound`, `-` = none. From `#print axioms`.

| property | theorems |
|---|---|
| C01 | **pcq**: `DynTree.query_exact`, `DynTree.query_misses_nothing`, `DynTree.traverse_exact` |
| C02 | **pcq**: `DynTree.calls_defined`, `DynTree.proxy_stable` |
| C03 | **pcq**: `DynTree.tree_wellformed`, `DynTree.calls_defined` |
| C04 | **pcq**: `StaticTree.build_exact`, `StaticTree.query_exact`, `StaticTree.query_single_exact`; **pq**: `StaticTree.build_zero_undefined`; **p**: `StaticTree.query_empty_undefined` |
| C05 | **pcq**: `Graph.calls_defined`, `Graph.observers_exact`; **-**: `Graph.second_self_loop_asserts` |
| C06 | **pcq**: `Graph.freeList_no_alias` |
| C07 | **pcq**: `Graph.connectedComponents_exact`; **-**: `Graph.clear_leaves_stale_nodes` |
| C08 | **pcq**: `Graph.isSingle_exact` |
| C09 | **pcq**: `Graph.traverse_exact`, `Graph.reach_exact` |
| C10 | **pcq**: `Islands.bodies_live_in_one_island_partial`, `Islands.update_is_defined_partial`, `Islands.destruction_is_defined`, `Islands.kind_change_loses_body`, `Islands.destroying_stray_static_body_fails`, `Islands.clearing_new_constraint_breaks_update`, `Islands.early_kind_change_fails`, `Islands.static_pair_breaks_update`, `Islands.static_body_stays_listed` |
| C100 | **pq**: `Mesh.Parallel.loads_partial`, `Mesh.Parallel.external_loads`, `Mesh.Parallel.broken_forever`; **p**: `Mesh.Parallel.load_completes`, `Mesh.Parallel.external_completes`, `Mesh.Parallel.wrong_page`, `Mesh.Parallel.LoadsFull_false` |
| C101 | **pcq**: `Collide.capsule_box_axis`, `Collide.capsule_box_distance_partial`, `Collide.capsule_box_near_partial`, `Collide.capsule_box_points_partial`, `Collide.box_capsule_points_partial`, `Collide.capsule_box_flat`, `Collide.capBoxPoints_spec`, `Collide.cap_box_closest`, `Collide.on_edge`, `Collide.inner_axis` |
| C11 | **pcq**: `Islands.island_is_split_partial`, `Islands.bodies_live_in_one_island_partial`, `Islands.kind_change_does_not_split` |
| C12 | **pcq**: `Islands.islands_sleep_as_a_whole_partial`, `Islands.sleeping_disabled_is_respected`, `Islands.sleeps_only_after_rest`, `Islands.wake_up_wakes_everything`, `Islands.removal_wakes_island`, `Islands.kind_change_breaks_sleep`, `Islands.newcomer_sleeps_at_once`, `Islands.sleepNow_ignores_sleeping_disabled` |
| C13 | **pcq**: `Serial.round_trip`, `Serial.round_trip_archive`, `Serial.fixed_output_exact`, `Serial.write_defined`; **pq**: `Serial.serialization_sizeof_exact` |
| C14 | **pcq**: `Serial.reads_in_bounds`, `Serial.failure_sticky`, `Serial.truncation_detected`, `Serial.failed_read_keeps_target_partial`, `Serial.failed_read_alters_variant`; **p**: `Serial.failed_read_alters_entity`, `Serial.failed_read_alters_optional`, `Serial.failed_read_alters_map`, `Serial.failed_read_leaks_uninitialised` |
| C15 | **pq**: `Serial.long_vector_altered`, `Serial.long_vector_not_survive`, `Serial.long_map_desynchronises`; **pcq**: `Serial.source_unchanged_partial` |
| C16 | **pcq**: `EntityMap.run_defined_iff`, `EntityMap.lookups_match_spec`, `EntityMap.bijection`, `EntityMap.each_exact` |
| C17 | **pq**: `Repl.Mapping.identity_partial`, `Repl.Mapping.agree_partial`, `Repl.Mapping.never_fails_partial`, `Repl.Mapping.drained_partial`, `Repl.Mapping.drained_refuted`, `Repl.Mapping.race_leaves_orphan`, `Repl.Mapping.race_leaves_orphan_in_worker`, `Repl.Mapping.clear_leaves_mapping`, `Repl.Mapping.remake_fails` |
| C18 | **pcq**: `Repl.RegOps.replay_partial`, `Repl.RegOps.replay_shape`; **pq**: `Repl.RegOps.stored_refs_valid`, `Repl.RegOps.replay_refuted`, `Repl.RegOps.forward_reference_lost`, `Repl.RegOps.pair_with_itself`, `Repl.RegOps.wrong_element_dropped`, `Repl.RegOps.second_observation_breaks_references` |
| C19 | **pcq**: `Parallel.Task.Blocking.wait_at_most_once`, `Parallel.Task.Blocking.wait_exactly_once`, `Parallel.Task.Async.async_at_most_once`, `Parallel.Task.Async.async_completion`, `Parallel.Task.Async.async_exactly_once`, `Parallel.Task.Async.async_step_defined`, `Parallel.Task.Async.async_terminates`; **pq**: `Parallel.Task.Blocking.wait_decrement_defined`, `Parallel.Task.Blocking.wait_terminates`, `Parallel.Task.Blocking.wait_progress`; **p**: `Parallel.Task.Async.async_size_zero` |
| C20 | **pcq**: `Parallel.MessageQueue.messages_exactly_once`, `Parallel.MessageQueue.sender_order`, `Parallel.MessageQueue.update_delivers_all`; **p**: `Parallel.MessageQueue.send_without_queue`; **-**: `Parallel.MessageQueue.second_handle_not_served` |
| C21 | **pq**: `Parallel.Worker.jobs_fifo`, `Parallel.Worker.stop_terminates_partial`, `Parallel.Worker.size_exact`, `Parallel.Worker.async_least_busy`; **-**: `Parallel.Worker.stop_before_run_blocks`, `Parallel.Worker.stop_drops_queued_jobs`, `Parallel.Worker.full_statement_false`, `Parallel.Worker.size_underflows`; **p**: `Parallel.Worker.async_all_underflowed` |
| C22 | **pcq**: `Net.ClockSync.delta_mean_of_consistent`, `Net.ClockSync.duplicate_response_ignored`, `Net.ClockSync.delta_changes_only_on_response`, `Net.ClockSync.delta_accuracy`, `Net.ClockSync.ideal_exchange_exact`, `Net.ClockSync.stale_samples_mixed`; **pq**: `Net.ClockSync.stray_response_ignored` |
| C23 | **pcq**: `Net.InputHistory.import_latest_exact`, `Net.InputHistory.import_each_exact`, `Net.InputHistory.replay_exact`, `Net.InputHistory.replay_value_exact`; **pq**: `Net.InputHistory.eraseUntil_keeps`, `Net.InputHistory.recorded_ordered`, `Net.InputHistory.boundary_input_twice`; **p**: `Net.InputHistory.reordered_input_skipped` |
| C24 | **pcq**: `Net.ActionHistory.actions_at_most_once`, `Net.ActionHistory.actions_exactly_once`, `Net.ActionHistory.delivered_received`, `Net.ActionHistory.deliver_defined`, `Net.ActionHistory.client_keeps_recent`, `Net.ActionHistory.recent_packet_overlaps`; **p**: `Net.ActionHistory.jitter_repeats_action`, `Net.ActionHistory.gap_loses_action`; **pq**: `Net.ActionHistory.late_tie_lost`, `Net.ActionHistory.nonpositive_lost` |
| C25 | **pcq**: `Net.Snapshot.snapshot_transfer_partial`, `Net.Snapshot.wire_round_trip`, `Net.Snapshot.insertAll_holds`, `Net.Snapshot.pool_of_256_reads_empty`; **pq**: `Net.Snapshot.entity_256_aliases_first`, `Net.Snapshot.hostile_component_index_undefined`, `Net.Snapshot.hostile_entity_index_undefined` |
| C26 | **pcq**: `Net.TimedQueue.timed_packets_exactly_once`, `Net.TimedQueue.timed_packets_not_early`, `Net.TimedQueue.timed_packets_not_late`, `Net.TimedQueue.timed_packets_in_order`, `Net.TimedQueue.timed_packet_processed`; **p**: `Net.TimedQueue.packetTimestamp_le` |
| C27 | **pcq**: `Net.DispatchActions.actions_executed_once_partial`; **pq**: `Net.DispatchActions.two_entities_lose_action` |
| C28 | **pq**: `Net.ModifiedComps.modified_window_exact`, `Net.ModifiedComps.modified_once`, `Net.ModifiedComps.isEmpty_exact`, `Net.ModifiedComps.run_defined`, `Net.ModifiedComps.all_modified_asserts`, `Net.ModifiedComps.fast_updates_never_drop`, `Net.ModifiedComps.slow_update_drops_fresh` |
| C29 | **pcq**: `Net.AabbOfInterest.aoi_reports_exact_partial`, `Net.AabbOfInterest.collect_exact`, `Net.AabbOfInterest.aoi_difference_exact`; **pq**: `Net.AabbOfInterest.async_report_wrong`, `Net.AabbOfInterest.destroyed_entry_keeps_asset` |
| C30 | **pcq**: `Collision.shouldCollide_iff`, `Collision.shouldCollide_symm`, `Collision.shouldCollide_false` |
| C31 | **pcq**: `Collision.exclusions_exact`, `Collision.exclusion_lists_wellformed`, `Collision.clear_defined`; **p**: `Collision.self_exclusion_breaks_clear` |
| C32 | **pcq**: `ManifoldMap.lookup_exact`, `ManifoldMap.manifold_unique`, `ManifoldMap.makeIfAbsent_defined` |
| C33 | **pcq**: `Contact.contact_lists`, `Contact.contact_calls_succeed`, `Contact.narrowphase_sequential`, `Contact.narrowphase_parallel`, `Contact.parallel_same_as_sequential`, `Contact.task_footprint`, `Contact.import_exact`, `Contact.nearest_point`, `Contact.persistent_contact`, `Contact.no_contact`, `Contact.points_not_lost`, `Contact.impulses_stay_partial`, `Contact.impulses_stay_refuted`, `Contact.impulse_carried_away`, `Contact.sleeping_untouched_partial`, `Contact.sleeping_untouched_refuted`, `Contact.import_impulses_refuted`; **p**: `Contact.kind_change_leaves_points` |
| C34 | **pcq**: `Stepping.steps_account_for_time`, `Stepping.at_most_max_steps`, `Stepping.update_leftover`, `Stepping.update_step_times`, `Stepping.simulation_keeps_up`, `Stepping.worker_agrees_with_sequential`, `Stepping.worker_leftover`, `Stepping.no_steps_while_paused`; **pq**: `Stepping.worker_no_steps_while_paused` |
| C35 | **pq**: `Solver.impulses_within_limits_and_accounted`, `Solver.island_solver_impulses`, `Solver.iterate_succeeds`; **pcq**: `Solver.visit_satisfies_row` |
| C36 | **pcq**: `Solver.friction_in_circle`, `Solver.rolling_in_circle`, `Solver.spin_in_limit`, `Solver.island_friction_limits`, `Solver.friction_at_most_coulomb` |
| C37 | **pcq**: `Solver.linear_momentum_conserved`, `Solver.angular_momentum_conserved`; **pq**: `Solver.pointJac_moment`, `Solver.immovable_body_not_moved` |
| C38 | **pcq**: `Solver.Pack.impulses_return_to_their_constraint`, `Solver.Pack.friction_refers_to_its_contact`, `Solver.Slots.hinge_round_trip`, `Solver.Slots.generic_round_trip`, `Solver.Slots.cv_round_trip`, `Solver.Slots.contact_extras_round_trip`, `Solver.Slots.point_round_trip_partial`, `Solver.Slots.point_reads_past_the_end`, `Solver.Slots.generic_overflows`; **pq**: `Solver.Pack.prepare_succeeds`, `Solver.Slots.rows_fit`, `Solver.Slots.too_many_types`; **p**: `Solver.Slots.one_round_trip`, `Solver.Slots.soft_round_trip`, `Solver.Slots.cone_round_trip`, `Solver.Slots.contact_round_trip` |
| C39 | **pcq**: `Solver.Machine.tasks_agree_with_sequential_partial`, `Solver.Machine.any_schedule_agrees_partial`; **pq**: `Solver.Machine.any_order_integration`, `Solver.Machine.pending_tasks_can_run`; **-**: `Solver.Machine.zero_iterations_differ`, `Solver.Machine.many_iterations_differ` |
| C40 | **-**: `Material.lookup_order_dependent`; **pcq**: `Material.lookup_normalised_partial` |
| C41 | **pcq**: `Core.UPair.eq_iff_same_elements`, `Core.UPair.eq_equivalence`, `Core.UPair.lt_total_on_normal_partial`, `Core.UPair.lt_lex_on_normal_partial`; **-**: `Core.UPair.lt_not_strictWeakOrder` |
| C42 | **pq**: `Core.FlatNested.sizes_exact`, `Core.FlatNested.elems_exact`; **pcq**: `Core.FlatNested.starts_sorted` |
| C43 | **pcq**: `Mesh.Cache.lru_order`, `Mesh.Cache.evicts_least_recent`, `Mesh.Cache.making_room_ends`, `Mesh.Cache.requested_once`, `Mesh.Cache.missing_page_is_requested`, `Mesh.Cache.budget`, `Mesh.Cache.budget_one_at_a_time`; **pq**: `Mesh.Cache.fresher_asymm`, `Mesh.Cache.budget_refuted` |
| C44 | **pcq**: `Mesh.Topo.init_succeeds`, `Mesh.Topo.face_edges`, `Mesh.Topo.face_edges_length`, `Mesh.Topo.edges_unique`, `Mesh.Topo.edge_faces`, `Mesh.Topo.manifold_edge_faces`, `Mesh.Topo.neighbour`, `Mesh.Topo.vertex_edges`, `Mesh.Topo.edge_faces_refuted`, `Mesh.Topo.neighbours_mutual_refuted` |
| C45 | **pcq**: `Net.ClientDestroy.client_destroy_partial`, `Net.ClientDestroy.destroy_remote_exact`, `Net.ClientDestroy.destroy_asset_exact`; **-**: `Net.ClientDestroy.client_destroy_wrong_pair`, `Net.ClientDestroy.importing_ignored`, `Net.ClientDestroy.destroy_asset_missing_entry` |
| C46 | **pq**: `Net.ExtrapolationWorker.requests_kept`, `Net.ExtrapolationWorker.next_message_wakes_partial`; **-**: `Net.ExtrapolationWorker.lost_wakeup`, `Net.ExtrapolationWorker.pending_forgotten`, `Net.ExtrapolationWorker.stop_lost`, `Net.ExtrapolationWorker.full_statement_false` |
| C47 | **pq**: `Contact.swap_mirrors`, `Contact.swap_swap`, `Contact.result_swap_swap`, `Contact.mirrored_same_contact`, `Contact.merged_normal_agrees`, `Contact.swap_manifold_mirrors`, `Contact.swap_manifold_twice`, `Contact.swap_keeps_normal_partial`, `Contact.swapped_normal_reversed`, `Contact.import_mirrors_partial`, `Contact.import_loses_normal`; **pcq**: `Contact.result_swap`, `Contact.swap_keeps_normal_refuted`, `Contact.import_mirrors_refuted`, `Contact.planeSpace_neg`, `Contact.swap_keeps_friction_partial`, `Contact.swap_keeps_friction_refuted` |
| C48 | **pq**: `Math.rotate_dot`, `Math.rotate_length`, `Math.rotate_mul`, `Math.rotate_conjugate`, `Math.rotate_cross`, `Math.lengthSqr_mul`, `Math.sandwich_eq`, `Math.M3.mul_mulVec`, `Math.world_object_round_trip`; **pcq**: `Math.M3.ofQuat_rotate`, `Math.M3.ofQuat_mul`, `Math.M3.ofQuat_orthogonal`, `Math.M3.ofQuat_det`, `Math.world_object_round_trip_matrix`, `Math.spaces_agree`, `Math.M3.inverseSymmetric_spec`, `Math.inverse_spec`, `Math.toQuat_ofQuat`, `Math.planeSpace_orthonormal`, `Math.shortestArc_rotates`, `Math.integrate_unit`, `Math.integrate_always_unit`, `Math.integrate_turns`, `Math.slerp_rate`, `Math.integrate_rest`, `Math.slerp_spec`, `Math.axisAngle_spec`, `Math.axisAngle_z`, `Math.rotXYZ_eq`, `Math.angleBetween_not_shortest` |
| C49 | **pq**: `ChildList.list_mirrors_history_partial`, `ChildList.readding_child_fails`; **pcq**: `ChildList.calls_defined` |
| C50 | **pcq**: `Net.Packets.asset_sync_response_id`, `Net.Packets.query_response_id_partial`, `Net.Packets.query_entity_id_lost`, `Net.Packets.query_response_id_false`, `Net.Packets.packet_round_trip`; **pq**: `Net.Packets.time_response_id` |
| C51 | **pcq**: `Serial.paged_file_round_trip`, `Serial.offsets_exact`, `Serial.submeshPath_injective`; **pq**: `Serial.offsets_defined`, `Serial.submeshPath_ne`, `Serial.long_member_misplaces_submeshes` |
| C54 | **pcq**: `Islands.islands_are_components_partial`, `Islands.flag_lost_in_merge`, `Islands.flag_lost_for_good`, `Islands.unrelated_bodies_share_island`, `Islands.kind_change_does_not_split` |
| C55 | **pcq**: `Stepping.pause_not_simulated_partial`, `Stepping.worker_pause_not_simulated`, `Stepping.pause_is_simulated` |
| C56 | **pq**: `Contact.Mat.table_entry_partial`, `Contact.Mat.material_of_last_place`, `Contact.Mat.material_symmetric`; **pcq**: `Contact.Mat.table_entry_overridden`, `Contact.Mat.table_entry_refuted`, `Contact.Mat.mixing_bounds` |
| C57 | **pq**: `Solver.builtin_constraints_push_oppositely`; **pcq**: `Solver.builtin_constraints_no_moment_partial`, `Solver.cvjoint_adds_angular_momentum`, `Solver.generic_adds_angular_momentum` |
| C58 | **pcq**: `Solver.visit_satisfies_row`, `Solver.kinetic_energy_never_increases`, `Solver.bounce`, `Solver.collision_energy`, `Solver.gap_not_crossed`, `Solver.restitution_above_one`; **pq**: `Solver.prepareRow_inelastic` |
| C59 | **pcq**: `Solver.Position.correction_keeps_orientations_unit`, `Solver.Position.immovable_body_not_corrected`, `Solver.Position.corrected_bodies_in_sync`, `Solver.Position.centre_of_mass_kept`, `Solver.Position.correction_removes_a_fifth`, `Solver.Position.contact_distance_right_partial`, `Solver.Position.stale_origin_used` |
| C60 | **pcq**: `Contact.insertion_in_range`, `Contact.four_points_best`, `Contact.three_points_middle_partial`, `Contact.three_points_end_replaced`, `Contact.three_points_order_matters`; **pq**: `Contact.two_points_best`, `Contact.third_point_branch_dead` |
| C61 | **pcq**: `Mesh.Cache.thickness_partial`; **pq**: `Mesh.Cache.thickness_refuted` |
| C62 | **pcq**: `Mesh.Cache.use_safe_partial`; **pq**: `Mesh.Cache.use_safe_refuted` |
| C63 | **pcq**: `Mesh.Cache.events_track_pages_partial`; **pq**: `Mesh.Cache.events_refuted`, `Mesh.Cache.report_refuted`; **p**: `Mesh.Cache.report_partial`, `Mesh.Cache.report_only_users` |
| C64 | **pcq**: `Mesh.Interp.bary_weights`, `Mesh.Interp.bary_sum`, `Mesh.Interp.face_value`, `Mesh.Interp.face_value_between`, `Mesh.Interp.edge_value_is`, `Mesh.Interp.edge_value_partial`, `Mesh.Interp.edge_value_refuted`, `Mesh.Interp.edge_influence` |
| C65 | **pcq**: `Mesh.Convex.succeeds`, `Mesh.Convex.neighbour_normal`, `Mesh.Convex.boundary_convex`, `Mesh.Convex.edge_convex`, `Mesh.Interp.convex_below`, `Mesh.Interp.convex_iff_below`, `Mesh.Interp.convex_implies_below`; **pq**: `Mesh.Interp.convex_same` |
| C66 | **pcq**: `Mesh.Split.page_succeeds`, `Mesh.Split.page_triangle`, `Mesh.Split.page_size`, `Mesh.Split.page_vertices`, `Mesh.Split.page_convex`, `Mesh.Split.page_query`, `Mesh.Split.paged_visit`; **p**: `Mesh.Split.boundary_refuted` |
| C67 | **pcq**: `Geom.box_aabb_spec`, `Geom.sphere_aabb_spec`, `Geom.capsule_aabb_spec`, `Geom.cylinder_aabb_partial`, `Geom.cylinder_aabb_slack`, `Geom.cylinder_full_refuted`, `Geom.cloud_aabb_spec`, `Geom.rotated_cloud_encloses`, `Geom.compound_aabb_encloses`, `Geom.aabb_to_world_encloses`, `Geom.aabb_to_world_touches`, `Geom.aabb_to_object_encloses`, `Geom.aabb_to_object_touches`, `Geom.plane_aabb_partial`, `Geom.plane_full_refuted`, `Geom.mesh_aabb_partial`, `Geom.moved_mesh_left_out` |
| C68 | **pcq**: `Geom.closest_segment_spec`, `Geom.closest_line_spec`, `Geom.closest_degenerate`, `Geom.closest_line_line_spec`, `Geom.closest_segments_partial`, `Geom.closest_segments_refuted`, `Geom.second_pair_partial`, `Geom.second_pair_wrong_sign`, `Geom.closest_disc_spec`, `Geom.closest_box_outside_spec`, `Geom.closest_box_inside_partial`, `Geom.closest_box_inside_none`, `Geom.box_inside_distance_wrong`, `Geom.degenerate_count_unwritten` |
| C69 | **pcq**: `Geom.box_support_spec`, `Geom.cylinder_support_partial`, `Geom.cylinder_support_slack`, `Geom.cylinder_support_refuted`, `Geom.capsule_support_partial`, `Geom.capsule_refuted`, `Geom.circle_support_partial`, `Geom.circle_support_refuted`, `Geom.cloud_support_spec`, `Geom.Poly.climb_terminates`, `Geom.Poly.polyhedron_projection_spec`, `Geom.Poly.rotated_projection_spec`, `Geom.Poly.neighbours_of`, `Geom.Poly.unused_vertex_stops` |
| C70 | **pcq**: `Geom.sphere_ray_partial`, `Geom.sphere_ray_refuted`, `Geom.sphere_ray_center`, `Geom.plane_ray_partial`, `Geom.plane_ray_refuted`, `Geom.plane_ray_behind`, `Geom.box_ray_partial`, `Geom.box_ray_refuted`, `Geom.box_ray_inside`, `Geom.box_ray_behind`, `Geom.box_ray_degenerate`, `Geom.poly_ray_partial`, `Geom.poly_enters`, `Geom.poly_ray_refuted`, `Geom.cube_perpendicular_missed`, `Geom.poly_ray_parallel_hit`, `Geom.cyl_ray_partial`, `Geom.cyl_ray_refuted`, `Geom.cyl_ray_behind`, `Geom.cyl_side_normal_wrong`, `Geom.cyl_axis_normal_undefined`, `Geom.cyl_perpendicular_undefined`, `Geom.cyl_rim_missed`, `Geom.cap_ray_partial`, `Geom.cap_ray_refuted`, `Geom.cap_parallel_normal_undefined`, `Geom.cap_hemisphere_normal_wrong`, `Geom.cap_junction_missed`, `Geom.segment_triangle_partial`, `Geom.segment_triangle_refuted`, `Geom.mesh_ray_partial`, `Geom.mesh_ray_refuted`, `Geom.paged_ray_partial`, `Geom.loaded_all`, `Geom.compound_ray_partial` |
| C71 | **pcq**: `Collide.Good.facts`, `Collide.swap_right`, `Collide.sphere_sphere_partial`, `Collide.sphere_sphere_always`, `Collide.sphere_sphere_refuted`, `Collide.sphere_plane_partial`, `Collide.sphere_plane_refuted`, `Collide.sphere_plane_threshold`, `Collide.sphere_box_partial`, `Collide.sphere_box_attachment`, `Collide.sphere_box_inside_partial`, `Collide.sphere_box_refuted`, `Collide.sphere_box_skin`, `Collide.capsule_sphere_partial`, `Collide.capsule_sphere_refuted`, `Collide.capsule_plane_partial`, `Collide.capsule_plane_feature`, `Collide.capsule_plane_refuted`, `Collide.capsule_capsule_partial`, `Collide.capsule_capsule_refuted`, `Collide.capsule_capsule_collinear`, `Collide.cylinder_sphere_partial`, `Collide.cylinder_sphere_feature`, `Collide.cylinder_sphere_refuted`, `Collide.maybe_add_all`, `Collide.GoodWithin.facts`, `Collide.box_plane_spec`, `Collide.cylinder_plane_partial`, `Collide.support_polygon_spec`, `Collide.polyhedron_plane_partial`, `Collide.polyhedron_sphere_partial`, `Collide.polyhedron_sphere_refuted` |
| C72 | **p**: `Box.intersect_iff`; **pcq**: `Geom.segment_aabb_partial`, `Geom.segment_aabb_refuted`, `Geom.line_circle_partial`, `Geom.line_circle_refuted`, `Geom.circle_circle_partial`, `Geom.circle_circle_refuted`, `Geom.segments2_partial`, `Geom.segments2_refuted`, `Geom.line_aabb_partial`, `Geom.line_aabb_refuted`, `Geom.segment_triangle_partial`, `Geom.segment_triangle_refuted`, `Geom.point_in_triangle`, `Geom.point_in_prism`, `Geom.point_in_prism_few` |
| C73 | **pcq**: `Geom.castAll_nearest`, `Geom.castAll_order`, `Geom.world_visited`, `Geom.rayTest_monotone`, `Geom.world_ray_partial`, `Geom.sphere_fair`, `Geom.world_ray_refuted`, `Geom.world_ray_hidden` |
| C74 | **pcq**: `Geom.Poly.edges_exact`, `Geom.Poly.edges_succeed`, `Geom.Poly.closed_edges`, `Geom.Poly.edges_in_range`, `Geom.Poly.face_normal_spec`, `Geom.Poly.face_normal_unit`, `Geom.Poly.relevant_faces_spec`, `Geom.Poly.relevant_edges_spec`, `Geom.Poly.validate_spec`, `Geom.Poly.validate_hull`, `Geom.Poly.mesh_support_spec`, `Geom.Poly.open_mesh_accepted`, `Geom.Poly.second_update_breaks_support` |
| C75 | **pcq**: `Geom.box_feature_corners`, `Geom.box_face_spec`, `Geom.box_face_placed`, `Geom.box_edge_tables`, `Geom.box_edge_faces`, `Geom.box_support_feature_partial`, `Geom.box_support_feature_at`, `Geom.box_feature_thin`, `Geom.box_feature_three`, `Geom.box_closest_feature_spec`, `Geom.cylinder_feature_spec`, `Geom.cylinder_feature_at`, `Geom.tri_feature_partial`, `Geom.tri_feature_refuted`, `Geom.tri_feature_far`, `Geom.tri_clip_spec` |
| C76 | **pcq**: `Mass.mesh_volume_spec`, `Mass.mesh_centroid_spec`, `Mass.shift_to_centroid`, `Mass.box_mesh_mass`, `Mass.solid_volume`, `Mass.solid_fills`, `Mass.compound_volume_partial` |
| C77 | **pcq**: `Geom.furthest2_spec`, `Geom.split_spec`, `Geom.convex_hull_partial`, `Geom.convex_hull_small`, `Geom.hull_refuted`, `Geom.closest_polygon_partial`, `Geom.closest_polygon_refuted` |
| C78 | **pcq**: `Mass.poly_inertia_partial`, `Mass.poly_inertia_refuted`, `Mass.solid_inertia_partial`, `Mass.capsule_inertia_partial`, `Mass.capsule_inertia_wrong`, `Mass.inertia_refuted`, `Mass.placed_mass`, `Mass.solid_right`, `Mass.compound_inertia_partial` |
| C79 | **pcq**: `Net.Auth.server_authority_partial`, `Net.Auth.snapshot_adds_nothing`, `Net.Auth.names_known`, `Net.Auth.create_takes_over`, `Net.Auth.authority_refuted`, `Net.Auth.late_packet_applied`, `Net.Auth.own_update_applied`, `Net.Auth.constraint_at_static_rejected`, `Net.Auth.snapshot_of_plain_entity_crashes`, `Net.Auth.name_twice_crashes`, `Net.Auth.create_again_crashes` |
| C80 | **pcq**: `Body.body_consistent_partial`, `Body.body_suited`, `Body.current_after_step`, `Body.impulse_momentum`, `Body.torque_momentum`, `Body.body_refuted`, `Body.rolling_goes_stale`, `Body.mesh_moves`, `Body.world_inertia_behind`, `Body.never_dynamic`, `Body.kinematic_without_velocity`, `Body.dynamic_valid`, `Body.static_invalid`, `Body.box_at_com`, `Body.origin_behind` |
| C81 | **pcq**: `Body.com_keeps_motion`, `Body.com_twice`, `Body.com_can_be_set`, `Body.origin_round_trip`, `Body.static_without_com`, `Body.present_origin_wrong`, `Body.com_inertia` |
| C82 | **pcq**: `Body.clear_removes_partial`, `Body.make_again_partial`, `Body.clear_refuted`, `Body.origin_left`, `Body.kinematic_position`, `Body.kinematic_orientation_partial`, `Body.kinematic_orientation_same`, `Body.kinematic_orientation_refuted` |
| C83 | **pcq**: `Present.no_jump_partial`, `Present.no_jump_refuted`, `Present.offset_shrinks`, `Present.offset_vanishes`, `Present.worker_partial`, `Present.worker_refuted`, `Present.rest_refuted`, `Present.disabled_drifts`, `Present.decay_not_as_documented`, `Present.paused_shows_state` |
| C84 | **pcq**: `Present.shows_the_path`, `Present.onPath_unique`, `Present.shown_within`, `Present.shown_between`, `Present.shown_orientation`, `Present.delay_bounded`, `Present.target_bounds`, `Present.delay_steady`, `Present.delay_approaches`, `Present.time_forward_partial`, `Present.time_forward_refuted`, `Present.within_refuted`, `Present.not_far_ahead` |
| C85 | **pq**: `Query.rays_answered_partial`, `Query.raycast_nearest`, `Query.rays_refuted`, `Query.rays_translated`, `Query.boxes_answered`, `Query.boxes_translated`, `Query.plain_spec`; **pcq**: `Query.interest_spec` |
| C86 | **pcq**: `Restitution.only_velocities_and_impulses`, `Restitution.impulses_admissible`, `Restitution.restitution_momentum`, `Restitution.slow_contacts_do_not_bounce`, `Restitution.resolved_or_exhausted`, `Restitution.isolated_bounce`, `Restitution.isolated_bounce_energy`, `Restitution.group_reports_impulses`, `Restitution.restitution_defined_partial`, `Restitution.sensor_undefined`, `Restitution.reported_refuted`, `Restitution.stale_impulse`, `Restitution.energy_refuted`; **pq**: `Restitution.arm_spec` |
| C87 | **pcq**: `Collide.box_box_axis`, `Collide.box_box_depth_partial`, `Collide.box_box_overlap_partial`, `Collide.near_parallel_reported`, `Collide.box_box_points`, `Collide.box_box_contact_partial`, `Collide.box_box_contact_refuted` |
| C88 | **pcq**: `Collide.mesh_facets`, `Collide.sphere_axis_nearest`, `Collide.sphere_triangle_partial`, `Collide.sphere_triangle_far`, `Collide.sphere_triangle_sound`, `Collide.sphere_mesh_points`, `Collide.sphere_mesh_touch_partial`, `Collide.sphere_mesh_far_partial`, `Collide.sphere_mesh_missed`, `Collide.sphere_mesh_ghost` |
| C89 | **pcq**: `Broad.operations_defined_partial`, `Broad.parallel_same`, `Broad.update_frame`, `Broad.manifold_survives_iff`, `Broad.new_manifold_meets`, `Broad.one_manifold_per_pair`, `Broad.pairs_found_partial`, `Broad.seen_kept`, `Broad.still_found_partial`, `Broad.pairs_exact_partial`, `Broad.update_steady`, `Broad.apart_unpaired`, `Broad.bodies_queried_partial`, `Broad.moved_static_missed`, `Broad.broadFull_false`; **pq**: `Broad.shape_set_twice_fails`, `Broad.shape_removed_fails` |
| C90 | **pcq**: `Collide.compound_shape_points`, `Collide.compound_shape_partial`, `Collide.compound_plane_right`, `Collide.compound_mesh_points`, `Collide.compound_compound_partial`, `Collide.compound_of_spheres_partial`, `Collide.near_compound_missed`, `Collide.compoundShapeFull_false`, `Collide.compoundCompoundFull_false` |
| C91 | **pcq**: `Poly.polyhedra_current`, `Poly.step_current`, `Poly.keeps_current`, `Poly.init_current`, `Poly.init_defined`, `Poly.keeps_boxed`, `Poly.moved_boxed`, `Poly.turned_boxed_partial`, `Poly.destroy_releases`, `Poly.boxed_encloses`, `Poly.no_leak_partial`, `Poly.turned_box_stale`, `Poly.turnedBoxedFull_false`, `Poly.turned_before_init_fails`, `Poly.replaced_before_init_fails`, `Poly.stepped_before_init_fails`, `Poly.turned_static_stale`, `Poly.new_shape_old_box`, `Poly.replaced_compound_leaks`, `Poly.noLeakFull_false` |
| C92 | **pcq**: `Obj.tri_mesh_loaded_partial`, `Obj.meshes_loaded_partial`, `Obj.polyhedra_loaded_partial`, `Obj.compound_loaded_partial`, `Obj.meshesLoadedFull_false`, `Obj.triMeshLoadedFull_false`, `Obj.shared_vertices_fail`, `Obj.tab_vertex_lost`, `Obj.name_with_space`, `Obj.nameless_merged`, `Obj.negative_corner`, `Obj.missing_vertex`, `Obj.two_corners_shift`, `Obj.colors_misaligned`, `Obj.short_vertex_undefined`, `Obj.bad_number_undefined`, `Obj.second_file`, `Obj.empty_file_fails` |
| C93 | **pcq**: `Extra.starts_from_last_sent_partial`, `Extra.others_keep`, `Extra.result_exact`, `Extra.extrapolate_total`, `Extra.destroy_total`; **pq**: `Extra.reportedFull_false`, `Extra.reset_not_reported`, `Extra.startsFull_false`, `Extra.leftover_stored_as_remote`, `Extra.aborted_values_lost`, `Extra.empty_result_fails`, `Extra.register_again_fails`, `Extra.register_again_forgets`, `Extra.new_input_not_reported` |
| C94 | **pcq**: `Collide.polyhedron_polyhedron_partial`, `Collide.solid_of_mesh`, `Collide.polyAxis_spec`, `Collide.polyPairs_spec`, `Collide.polyEdgeCand_spec`, `Collide.minkowski_faces`, `Collide.faces_minkowski`, `Collide.aligned_undefined`, `Collide.PolyPolyFull_false`, `Collide.tetra_defined` |
| C95 | **pcq**: `Collide.polyhedron_capsule_partial`, `Collide.polyhedron_capsule_distance_partial`, `Collide.closest_feature`, `Collide.closest_exists`, `Collide.closed_of_mesh`, `Collide.tetra_closed`, `Collide.tetra_full`, `Collide.capAxis_spec`, `Collide.capEdgeCand_spec`, `Collide.capPoints_spec` |
| C96 | **pcq**: `Contact.Fric.set_friction_partial`, `Contact.Fric.sensor_undefined`, `Contact.Fric.factor_lost`, `Contact.Fric.late_entry`, `Contact.Fric.SetFrictionFull_false`; **pq**: `Contact.Fric.reach_current`, `Contact.Fric.setFriction_defined`, `Contact.Fric.updated_exact`, `Contact.Fric.current_friction` |
| C97 | **pq**: `Cfg.settings_partial`, `Cfg.refresh_exact`, `Cfg.extrapolation_settings`, `Cfg.async_contacts`, `Cfg.sequential_paused`, `Cfg.sequential_contacts`; **pcq**: `Cfg.gravity_stale`, `Cfg.role_stale`, `Cfg.both_roles_fail`, `Cfg.SettingsFull_false` |
| C98 | **pcq**: `Net.ActionData.actions_arrive_partial`, `Net.ActionData.actions_exact`, `Net.ActionData.history_round_trip`, `Net.ActionData.import_defined`, `Net.ActionData.truncated_ignored`, `Net.ActionData.large_list_lost`, `Net.ActionData.ActionsArriveFull_false`; **p**: `Net.ActionData.others_not_recorded`; **pq**: `Net.ActionData.bad_index_undefined` |
| C99 | **pcq**: `Ragdoll.assembled_partial`, `Ragdoll.gaps_exact`, `Ragdoll.frames_meet`, `Ragdoll.limits_allow_zero`, `Ragdoll.total_mass`, `Ragdoll.joined_excluded`, `Ragdoll.joined_through_excluded`, `Ragdoll.sides_mirror`, `Ragdoll.shapes_valid_partial`, `Ragdoll.short_neck`, `Ragdoll.right_hand_apart`, `Ragdoll.AssembledFull_false`; **p**: `Ragdoll.connected`, `Ragdoll.parts_complete` |

## What is modelled

Source file (of `/repo`) and the Lean modules which model code of it. Which functions and lines of a file are modelled is
said at each definition; what is not cited there is not modelled.

| source | modules |
|---|---|
| `include/edyn/collision/broadphase.hpp` | Broad.Model, Geom.RaycastWorld |
| `include/edyn/collision/collide.hpp` | Collide.Compound, Collide.Spec, Mesh.Cache |
| `include/edyn/collision/collision_feature.hpp` | Collide.Compound, Collide.Spec |
| `include/edyn/collision/collision_result.hpp` | Contact.Flip, Contact.Process |
| `include/edyn/collision/contact_manifold.hpp` | Contact.List, Restitution.Model |
| `include/edyn/collision/contact_normal_attachment.hpp` | Contact.Flip |
| `include/edyn/collision/contact_point.hpp` | Contact.Flip, Contact.List, Contact.Materials, Contact.Process, Restitution.Findings, Restitution.Model |
| `include/edyn/collision/dynamic_tree.hpp` | DynTree.Model |
| `include/edyn/collision/narrowphase.hpp` | Contact.Process, Contact.Step, Settings.Model |
| `include/edyn/collision/query_tree.hpp` | DynTree.Model, Geom.RaycastWorld, StaticTree.Model |
| `include/edyn/collision/raycast.hpp` | Geom.Raycast, Geom.RaycastWorld, Query.Model |
| `include/edyn/collision/raycast_service.hpp` | Query.Model |
| `include/edyn/collision/static_tree.hpp` | StaticTree.Model |
| `include/edyn/collision/tree_node.hpp` | DynTree.Model |
| `include/edyn/comp/aabb.hpp` | Broad.Model, Collide.Compound, Collide.SphereTri, DynTree.Box, DynTree.Model, Geom.Aabb, Geom.Shapes |
| `include/edyn/comp/action_list.hpp` | Net.ActionData |
| `include/edyn/comp/center_of_mass.hpp` | Solver.Position |
| `include/edyn/comp/child_list.hpp` | Sim.ChildList |
| `include/edyn/comp/collision_exclusion.hpp` | Collision.FilterModel |
| `include/edyn/comp/collision_filter.hpp` | Collision.FilterModel |
| `include/edyn/comp/island.hpp` | Islands.Model |
| `include/edyn/comp/material.hpp` | Contact.Friction, Contact.Materials |
| `include/edyn/comp/merge_component.hpp` | Extra.Model |
| `include/edyn/comp/origin.hpp` | Solver.Position |
| `include/edyn/comp/rotated_mesh_list.hpp` | Poly.Model |
| `include/edyn/config/execution_mode.hpp` | Settings.Model |
| `include/edyn/constraints/cone_constraint.hpp` | Solver.Slots |
| `include/edyn/constraints/constraint.hpp` | Solver.Jacobians |
| `include/edyn/constraints/constraint_body.hpp` | Solver.Jacobians |
| `include/edyn/constraints/constraint_row.hpp` | Solver.Rows |
| `include/edyn/constraints/constraint_row_friction.hpp` | Solver.Rows |
| `include/edyn/constraints/constraint_row_spin_friction.hpp` | Solver.Rows |
| `include/edyn/constraints/cvjoint_constraint.hpp` | Ragdoll.Model |
| `include/edyn/constraints/generic_constraint.hpp` | Solver.Slots |
| `include/edyn/context/settings.hpp` | Restitution.Findings, Restitution.Model, Settings.Model, Sim.Stepping |
| `include/edyn/core/entity_graph.hpp` | Graph.Model, Graph.TraverseModel, Islands.Model, Restitution.Model |
| `include/edyn/core/flat_nested_array.hpp` | Core.FlatNestedArray |
| `include/edyn/core/free_list.hpp` | Graph.FreeList |
| `include/edyn/core/unordered_pair.hpp` | Contact.Friction, Core.UnorderedPair, Mesh.Topology |
| `include/edyn/dynamics/material_mixing.hpp` | Contact.Friction, Contact.Materials, Material.Model |
| `include/edyn/dynamics/position_solver.hpp` | Solver.Position |
| `include/edyn/dynamics/row_cache.hpp` | Solver.Pack, Solver.Rows |
| `include/edyn/math/coordinate_axis.hpp` | Geom.Basic |
| `include/edyn/math/geom.hpp` | Collide.BoxBox, Contact.Insert, Contact.Process, Geom.RaycastCyl |
| `include/edyn/math/math.hpp` | Collide.PolyPoly, Geom.Closest, Mesh.Interp, Ragdoll.Model |
| `include/edyn/math/matrix3x3.hpp` | Body.Model, Mass.Compound, Math.Real, Math.Vec |
| `include/edyn/math/quaternion.hpp` | Collide.BoxAxis, Math.Real, Math.Vec, Ragdoll.Model, Solver.Position |
| `include/edyn/math/transform.hpp` | Collide.BoxBox, Collide.PolyPlane, Math.Vec |
| `include/edyn/math/triangle.hpp` | Geom.Feature |
| `include/edyn/math/vector2.hpp` | Geom.Hull2, Geom.Intersect, Geom.Intersect2 |
| `include/edyn/math/vector2_3_util.hpp` | Collide.BoxBox, Collide.PolyPlane |
| `include/edyn/math/vector3.hpp` | Collide.Capsule, Collide.CapsuleCapsule, Collide.MeshFacets, Collide.PolyPoly, Contact.Insert, DynTree.Box, Geom.Aabb, Geom.Basic, Geom.BoxFeature, Geom.ConvexNormals, Geom.Raycast, Math.Vec |
| `include/edyn/networking/comp/aabb_of_interest.hpp` | Net.AabbOfInterest |
| `include/edyn/networking/comp/action_history.hpp` | Net.ActionData, Net.ActionHistory |
| `include/edyn/networking/comp/asset_ref.hpp` | Net.Packets |
| `include/edyn/networking/comp/discontinuity.hpp` | Present.Model |
| `include/edyn/networking/comp/entity_owner.hpp` | Net.Authority |
| `include/edyn/networking/comp/exporter_modified_components.hpp` | Net.ModifiedComps |
| `include/edyn/networking/comp/networked_comp.hpp` | Net.Authority |
| `include/edyn/networking/comp/remote_client.hpp` | Net.Authority, Net.DispatchActions, Net.TimedQueue |
| `include/edyn/networking/extrapolation/extrapolation_modified_comp.hpp` | Extra.Model |
| `include/edyn/networking/extrapolation/extrapolation_worker.hpp` | Extra.Model, Net.ExtrapolationWorker |
| `include/edyn/networking/networking.hpp` | Present.Findings |
| `include/edyn/networking/networking_external.hpp` | Extra.Model |
| `include/edyn/networking/packet/asset_sync.hpp` | Net.Packets |
| `include/edyn/networking/packet/client_created.hpp` | Net.Packets |
| `include/edyn/networking/packet/create_entity.hpp` | Net.Packets |
| `include/edyn/networking/packet/destroy_entity.hpp` | Net.Packets |
| `include/edyn/networking/packet/edyn_packet.hpp` | Net.Authority, Net.Packets |
| `include/edyn/networking/packet/entity_entered.hpp` | Net.Packets |
| `include/edyn/networking/packet/entity_exited.hpp` | Net.Packets |
| `include/edyn/networking/packet/entity_response.hpp` | Net.Packets |
| `include/edyn/networking/packet/query_entity.hpp` | Net.Packets |
| `include/edyn/networking/packet/registry_snapshot.hpp` | Net.Packets, Net.SnapshotModel |
| `include/edyn/networking/packet/server_settings.hpp` | Net.Packets |
| `include/edyn/networking/packet/set_aabb_of_interest.hpp` | Net.Packets |
| `include/edyn/networking/packet/set_playout_delay.hpp` | Net.Packets |
| `include/edyn/networking/packet/time_request.hpp` | Net.Packets |
| `include/edyn/networking/packet/time_response.hpp` | Net.Packets |
| `include/edyn/networking/packet/update_entity_map.hpp` | Net.Packets |
| `include/edyn/networking/settings/client_network_settings.hpp` | Settings.Model |
| `include/edyn/networking/sys/accumulate_discontinuities.hpp` | Present.Model |
| `include/edyn/networking/sys/assign_previous_transforms.hpp` | Present.Model |
| `include/edyn/networking/util/client_snapshot_exporter.hpp` | Net.ActionData, Net.ActionHistory, Net.ModifiedComps |
| `include/edyn/networking/util/client_snapshot_importer.hpp` | Net.SnapshotModel |
| `include/edyn/networking/util/clock_sync.hpp` | Net.ClockSync |
| `include/edyn/networking/util/input_state_history.hpp` | Extra.Model, Net.ActionData, Net.InputHistory |
| `include/edyn/networking/util/pool_snapshot.hpp` | Net.Packets, Net.SnapshotModel |
| `include/edyn/networking/util/pool_snapshot_data.hpp` | Extra.Model, Net.Authority, Net.SnapshotModel |
| `include/edyn/networking/util/server_snapshot_exporter.hpp` | Net.ModifiedComps, Net.SnapshotModel |
| `include/edyn/networking/util/server_snapshot_importer.hpp` | Net.ActionData, Net.ActionHistory, Net.Authority |
| `include/edyn/parallel/atomic_counter_sync.hpp` | Solver.Machine |
| `include/edyn/parallel/message.hpp` | Query.Model, Settings.Model |
| `include/edyn/parallel/message_dispatcher.hpp` | Parallel.MessageQueue |
| `include/edyn/parallel/message_queue.hpp` | Parallel.MessageQueue |
| `include/edyn/parallel/worker.hpp` | Parallel.Worker |
| `include/edyn/replication/entity_map.hpp` | EntityMap.Model |
| `include/edyn/replication/map_child_entity.hpp` | Net.Authority, Repl.RegOps |
| `include/edyn/replication/register_external.hpp` | Settings.Model |
| `include/edyn/replication/registry_operation.hpp` | Extra.Model, Present.Model, Repl.Mapping, Repl.RegOps |
| `include/edyn/replication/registry_operation_builder.hpp` | Repl.RegOps |
| `include/edyn/replication/registry_operation_observer.hpp` | Present.Model, Repl.Mapping, Repl.RegOps |
| `include/edyn/serialization/entt_s11n.hpp` | Serial.Model |
| `include/edyn/serialization/file_archive.hpp` | Mesh.ParallelLoad |
| `include/edyn/serialization/math_s11n.hpp` | Serial.Model, Serial.PagedModel |
| `include/edyn/serialization/memory_archive.hpp` | Serial.Model |
| `include/edyn/serialization/s11n_util.hpp` | Serial.Model |
| `include/edyn/serialization/static_tree_s11n.hpp` | Serial.Model, Serial.PagedModel |
| `include/edyn/serialization/std_s11n.hpp` | Net.Packets, Serial.Model |
| `include/edyn/serialization/triangle_mesh_s11n.hpp` | Mesh.ParallelLoad, Serial.Model, Serial.PagedModel |
| `include/edyn/shapes/box_shape.hpp` | Geom.BoxFeature |
| `include/edyn/shapes/capsule_shape.hpp` | Collide.Spec |
| `include/edyn/shapes/compound_shape.hpp` | Collide.Compound, Geom.Aabb, Mass.Compound, Poly.Model |
| `include/edyn/shapes/convex_mesh.hpp` | Collide.PolyPoly, Mass.Poly, Poly.Model |
| `include/edyn/shapes/create_paged_triangle_mesh.hpp` | Mesh.Cache, Mesh.Split, Mesh.SplitQuery, StaticTree.Model |
| `include/edyn/shapes/cylinder_shape.hpp` | Geom.Feature |
| `include/edyn/shapes/paged_triangle_mesh.hpp` | Geom.RaycastWorld, Mesh.Cache, Mesh.SplitQuery |
| `include/edyn/shapes/polyhedron_shape.hpp` | Poly.Model |
| `include/edyn/shapes/shapes.hpp` | Body.Model |
| `include/edyn/shapes/triangle_mesh.hpp` | Collide.MeshFacets, Collide.SphereTri, Mesh.Split, Mesh.SplitQuery, Mesh.Topology |
| `include/edyn/simulation/island_manager.hpp` | Islands.Model |
| `include/edyn/simulation/stepper_async.hpp` | Present.Model, Query.Model |
| `include/edyn/simulation/stepper_sequential.hpp` | Sim.Stepping |
| `include/edyn/util/collision_util.hpp` | Contact.Process |
| `include/edyn/util/constraint_util.hpp` | Repl.Mapping |
| `include/edyn/util/contact_manifold_util.hpp` | Contact.Process |
| `include/edyn/util/entt_util.hpp` | Poly.Model |
| `include/edyn/util/island_util.hpp` | Present.Model |
| `include/edyn/util/polyhedron_shape_initializer.hpp` | Poly.Model |
| `include/edyn/util/ragdoll.hpp` | Ragdoll.Model, Ragdoll.Props |
| `include/edyn/util/rigidbody.hpp` | Body.Model, Broad.Model, Restitution.Model |
| `include/edyn/util/shape_io.hpp` | Obj.Model |
| `include/edyn/util/shape_util.hpp` | Collide.PolyPlane, Geom.Support |
| `include/edyn/util/transient_util.hpp` | Settings.Model |
| `include/edyn/util/tuple_util.hpp` | Net.ActionData, Net.SnapshotModel |
| `src/edyn/collision/broadphase.cpp` | Broad.Model, Collision.ManifoldMapModel, Contact.List |
| `src/edyn/collision/collide/collide_box_box.cpp` | Collide.BoxAxis, Collide.BoxBox |
| `src/edyn/collision/collide/collide_box_plane.cpp` | Collide.Planes |
| `src/edyn/collision/collide/collide_capsule_box.cpp` | Collide.CapBoxPoints, Collide.CapsuleBox |
| `src/edyn/collision/collide/collide_capsule_capsule.cpp` | Collide.Capsule, Collide.CapsuleCapsule |
| `src/edyn/collision/collide/collide_capsule_plane.cpp` | Collide.Capsule |
| `src/edyn/collision/collide/collide_capsule_sphere.cpp` | Collide.Capsule |
| `src/edyn/collision/collide/collide_compound_compound.cpp` | Collide.Compound |
| `src/edyn/collision/collide/collide_compound_mesh.cpp` | Collide.Compound |
| `src/edyn/collision/collide/collide_compound_plane.cpp` | Collide.Compound |
| `src/edyn/collision/collide/collide_cylinder_plane.cpp` | Collide.Planes |
| `src/edyn/collision/collide/collide_cylinder_sphere.cpp` | Collide.Cylinder |
| `src/edyn/collision/collide/collide_polyhedron_box.cpp` | Geom.Intersect2 |
| `src/edyn/collision/collide/collide_polyhedron_capsule.cpp` | Collide.PolyCapsule |
| `src/edyn/collision/collide/collide_polyhedron_plane.cpp` | Collide.PolyPlane |
| `src/edyn/collision/collide/collide_polyhedron_polyhedron.cpp` | Collide.PolyPoly, Collide.PolyPolyFindings |
| `src/edyn/collision/collide/collide_polyhedron_sphere.cpp` | Collide.PolyPlane |
| `src/edyn/collision/collide/collide_sphere_box.cpp` | Collide.Sphere |
| `src/edyn/collision/collide/collide_sphere_mesh.cpp` | Collide.SphereTri |
| `src/edyn/collision/collide/collide_sphere_plane.cpp` | Collide.Sphere |
| `src/edyn/collision/collide/collide_sphere_sphere.cpp` | Collide.Sphere |
| `src/edyn/collision/collision_result.cpp` | Collide.BoxBox, Collide.Planes |
| `src/edyn/collision/contact_manifold_map.cpp` | Collision.ManifoldMapModel |
| `src/edyn/collision/dynamic_tree.cpp` | DynTree.Balance, DynTree.Model |
| `src/edyn/collision/narrowphase.cpp` | Contact.Findings, Contact.Process, Contact.Step, Settings.Model |
| `src/edyn/collision/raycast.cpp` | Geom.Raycast, Geom.RaycastCap, Geom.RaycastCyl, Geom.RaycastPoly, Geom.RaycastWorld, Query.Model |
| `src/edyn/collision/raycast_service.cpp` | Query.Model |
| `src/edyn/collision/should_collide.cpp` | Collision.FilterModel, Settings.Model |
| `src/edyn/config/solver_iteration_config.cpp` | Settings.Model |
| `src/edyn/constraints/cone_constraint.cpp` | Solver.Jacobians, Solver.Slots |
| `src/edyn/constraints/constraint_row.cpp` | Restitution.Model, Solver.Rows |
| `src/edyn/constraints/constraint_row_friction.cpp` | Solver.Rows |
| `src/edyn/constraints/constraint_row_spin_friction.cpp` | Solver.Rows |
| `src/edyn/constraints/contact_constraint.cpp` | Contact.Flip, Contact.Props, Solver.Jacobians, Solver.Position, Solver.Slots |
| `src/edyn/constraints/contact_extras_constraint.cpp` | Solver.Jacobians, Solver.Slots |
| `src/edyn/constraints/cvjoint_constraint.cpp` | Solver.Jacobians, Solver.Slots |
| `src/edyn/constraints/distance_constraint.cpp` | Solver.Jacobians, Solver.Slots |
| `src/edyn/constraints/generic_constraint.cpp` | Solver.Jacobians, Solver.Slots |
| `src/edyn/constraints/gravity_constraint.cpp` | Solver.Jacobians, Solver.Slots |
| `src/edyn/constraints/hinge_constraint.cpp` | Ragdoll.Model, Solver.Jacobians, Solver.Slots |
| `src/edyn/constraints/point_constraint.cpp` | Solver.Jacobians, Solver.Slots |
| `src/edyn/constraints/soft_distance_constraint.cpp` | Solver.Jacobians, Solver.Slots |
| `src/edyn/context/step_callback.cpp` | Settings.Model |
| `src/edyn/context/task.cpp` | Parallel.Task, Parallel.TaskAsync |
| `src/edyn/core/entity_graph.cpp` | Graph.Model, Graph.Props, Graph.TraverseModel |
| `src/edyn/dynamics/island_solver.cpp` | Body.Model, Extra.Model, Solver.Machine, Solver.Pack, Solver.Position, Solver.Rows, Solver.Slots |
| `src/edyn/dynamics/moment_of_inertia.cpp` | Mass.Compound, Mass.Poly, Mass.Solid |
| `src/edyn/dynamics/restitution_solver.cpp` | Restitution.Findings, Restitution.Model |
| `src/edyn/dynamics/solver.cpp` | Body.Model, Poly.Model, Present.Interp, Solver.Machine, Solver.Pack, Solver.Position |
| `src/edyn/edyn.cpp` | Settings.Model |
| `src/edyn/math/geom.cpp` | Collide.PolyPlane, Collide.PolyPoly, Contact.Insert, DynTree.Box, Geom.Closest, Geom.Intersect, Geom.Intersect2, Geom.Intersect3, Geom.Raycast, Geom.RaycastCyl, Geom.Support, Geom.Triangle, Math.Real |
| `src/edyn/math/quaternion.cpp` | Math.Real |
| `src/edyn/math/shape_volume.cpp` | Mass.Compound, Mass.Poly, Mass.Solid |
| `src/edyn/math/triangle.cpp` | Collide.SphereTri, Contact.Insert, Geom.Feature, Geom.Intersect3, Geom.RaycastMesh, Geom.Triangle |
| `src/edyn/networking/extrapolation/extrapolation_callback.cpp` | Settings.Model |
| `src/edyn/networking/extrapolation/extrapolation_worker.cpp` | Extra.Model, Net.ExtrapolationWorker, Net.InputHistory, Settings.Model |
| `src/edyn/networking/networking.cpp` | Settings.Model |
| `src/edyn/networking/sys/client_side.cpp` | Extra.Model, Net.ActionHistory, Net.ClientDestroy, Net.Packets, Present.Model, Settings.Model |
| `src/edyn/networking/sys/server_side.cpp` | Net.AabbOfInterest, Net.ActionHistory, Net.Authority, Net.DispatchActions, Net.Packets, Net.TimedQueue, Settings.Model |
| `src/edyn/networking/sys/update_aabbs_of_interest.cpp` | Net.AabbOfInterest |
| `src/edyn/networking/util/clock_sync.cpp` | Net.ClockSync |
| `src/edyn/networking/util/import_contact_manifolds.cpp` | Contact.Flip, Contact.Step |
| `src/edyn/networking/util/process_extrapolation_result.cpp` | Present.Model |
| `src/edyn/networking/util/process_update_entity_map_packet.cpp` | Net.Authority |
| `src/edyn/networking/util/snap_to_pool_snapshot.cpp` | Net.Authority, Net.SnapshotModel, Present.Model |
| `src/edyn/parallel/job_dispatcher.cpp` | Parallel.Worker |
| `src/edyn/parallel/job_queue.cpp` | Parallel.Worker |
| `src/edyn/replication/map_child_entity.cpp` | Repl.RegOps |
| `src/edyn/replication/register_external.cpp` | Settings.Model, Sim.ChildList |
| `src/edyn/serialization/paged_triangle_mesh_s11n.cpp` | Mesh.Cache, Mesh.ParallelLoad, Serial.PagedModel |
| `src/edyn/shapes/box_shape.cpp` | Collide.BoxBox, Geom.BoxFeature, Geom.Raycast, Geom.Support |
| `src/edyn/shapes/compound_shape.cpp` | Collide.Compound, Geom.Aabb, StaticTree.Model |
| `src/edyn/shapes/convex_mesh.cpp` | Collide.PolyMesh, Geom.ConvexEdges, Geom.ConvexNormals, Geom.Polyhedron, Geom.Support, Mass.Poly, Poly.Model |
| `src/edyn/shapes/cylinder_shape.cpp` | Geom.Feature, Geom.Support |
| `src/edyn/shapes/paged_triangle_mesh.cpp` | Mesh.Cache |
| `src/edyn/shapes/triangle_mesh.cpp` | Collide.MeshFacets, Geom.RaycastMesh, Mesh.Convex, Mesh.Interp, Mesh.SplitQuery, Mesh.Topology, StaticTree.Model |
| `src/edyn/simulation/island_manager.cpp` | Body.Model, Islands.Model, Present.Model, Repl.Mapping |
| `src/edyn/simulation/simulation_worker.cpp` | Poly.Model, Present.Model, Query.Model, Repl.Mapping, Settings.Model, Sim.Stepping |
| `src/edyn/simulation/stepper_async.cpp` | Present.Model, Query.Model, Repl.Mapping |
| `src/edyn/simulation/stepper_sequential.cpp` | Present.Interp, Sim.Stepping |
| `src/edyn/sys/update_aabbs.cpp` | Body.Model, Broad.Model, Geom.Aabb, Poly.Model |
| `src/edyn/sys/update_inertias.cpp` | Body.Model, Solver.Position |
| `src/edyn/sys/update_origins.cpp` | Body.Model, Solver.Position |
| `src/edyn/sys/update_presentation.cpp` | Present.Model |
| `src/edyn/sys/update_rotated_meshes.cpp` | Collide.PolyPoly, Poly.Model |
| `src/edyn/util/aabb_util.cpp` | Collide.MeshFacets, Geom.Aabb, Poly.Model |
| `src/edyn/util/collision_util.cpp` | Collide.CompoundFindings, Contact.Flip, Contact.Friction, Contact.List, Contact.Materials, Contact.Process, Contact.Props, Restitution.Findings, Restitution.Model |
| `src/edyn/util/constraint_util.cpp` | Broad.Model, Collision.ManifoldMapModel, Contact.Flip, Contact.List, Islands.Model, Repl.Mapping, Restitution.Model, Solver.Position, Solver.Rows |
| `src/edyn/util/contact_manifold_util.cpp` | Contact.List |
| `src/edyn/util/exclude_collision.cpp` | Collision.FilterModel, Collision.FilterProps |
| `src/edyn/util/gravity_util.cpp` | Settings.Model |
| `src/edyn/util/insert_material_mixing.cpp` | Contact.Friction, Material.Model, Settings.Model |
| `src/edyn/util/island_util.cpp` | Islands.Model |
| `src/edyn/util/paged_mesh_load_reporting.cpp` | Mesh.CacheFindings |
| `src/edyn/util/polyhedron_shape_initializer.cpp` | Poly.Model |
| `src/edyn/util/ragdoll.cpp` | Ragdoll.Model |
| `src/edyn/util/rigidbody.cpp` | Body.Model, Broad.Findings, Broad.Model, Contact.Findings, Contact.Friction, Islands.Model, Poly.Model, Present.Model, Repl.Mapping, Restitution.Model |
| `src/edyn/util/settings_util.cpp` | Settings.Model |
| `src/edyn/util/shape_io.cpp` | Obj.Model |
| `src/edyn/util/shape_util.cpp` | Collide.SphereTri, Geom.Aabb, Geom.Basic, Geom.Hull2, Geom.Polyhedron, Geom.Support, Mass.Poly |

## What is not modelled

No code of the following files is modelled (lines in brackets).

* `include/edyn/collision`: contact_manifold_map.hpp (55), query_aabb.hpp (48), should_collide.hpp (22)
* `include/edyn/comp`: angvel.hpp (24), delta_angvel.hpp (18), delta_linvel.hpp (17), graph_edge.hpp (14), graph_node.hpp (14), gravity.hpp (22), inertia.hpp (46), linvel.hpp (25), mass.hpp (24), orientation.hpp (22), position.hpp (22), present_orientation.hpp (17), present_position.hpp (17), roll_direction.hpp (22), scalar_comp.hpp (26), shape_index.hpp (25), shared_comp.hpp (90), tag.hpp (91), transient.hpp (27), tree_resident.hpp (15)
* `include/edyn/config`: constants.hpp (84), solver_iteration_config.hpp (70)
* `include/edyn/constraints`: constraint_base.hpp (15), constraint_row_options.hpp (22), contact_constraint.hpp (50), contact_extras_constraint.hpp (41), distance_constraint.hpp (38), gravity_constraint.hpp (39), hinge_constraint.hpp (115), null_constraint.hpp (23), point_constraint.hpp (47), soft_distance_constraint.hpp (43)
* `include/edyn/context`: async_settings.hpp (19), profile.hpp (42), registry_operation_context.hpp (18), start_thread.hpp (12), step_callback.hpp (57), task.hpp (27), task_util.hpp (23)
* `include/edyn/core`: entity_pair.hpp (15)
* `include/edyn/dynamics`: island_constraint_entities.hpp (22), island_solver.hpp (21), moment_of_inertia.hpp (78), restitution_solver.hpp (13), solver.hpp (32)
* `include/edyn`: edyn.hpp (190)
* `include/edyn/math`: constants.hpp (35), scalar.hpp (23), shape_volume.hpp (55)
* `include/edyn/networking/comp`: aabb_oi_follow.hpp (16), asset_entry.hpp (28), network_input.hpp (14)
* `include/edyn/networking/context`: client_network_context.hpp (102), server_network_context.hpp (31)
* `include/edyn/networking/extrapolation`: extrapolation_callback.hpp (80), extrapolation_context.hpp (18), extrapolation_operation.hpp (19), extrapolation_request.hpp (22), extrapolation_result.hpp (51)
* `include/edyn/networking/settings`: server_network_settings.hpp (22)
* `include/edyn/networking/sys`: client_side.hpp (79), server_side.hpp (89), update_aabbs_of_interest.hpp (12)
* `include/edyn/networking/util`: asset_util.hpp (44), component_index_type.hpp (14), import_contact_manifolds.hpp (23), process_extrapolation_result.hpp (19), process_update_entity_map_packet.hpp (14), snap_to_pool_snapshot.hpp (24)
* `include/edyn/parallel`: job.hpp (34), job_dispatcher.hpp (49), job_queue.hpp (32)
* `include/edyn/replication`: make_reg_op_builder.hpp (32)
* `include/edyn/serialization`: paged_triangle_mesh_s11n.hpp (150), s11n.hpp (8)
* `include/edyn/shapes`: mesh_shape.hpp (22), paged_mesh_shape.hpp (22), plane_shape.hpp (27), sphere_shape.hpp (19), triangle_mesh_page_loader.hpp (19)
* `include/edyn/simulation`: simulation_worker.hpp (111)
* `include/edyn/sys`: apply_gravity.hpp (21), update_aabbs.hpp (43), update_inertias.hpp (35), update_origins.hpp (29), update_presentation.hpp (15), update_rotated_meshes.hpp (50)
* `include/edyn/time`: simulation_time.hpp (17), time.hpp (41)
* `include/edyn/util`: aabb_util.hpp (86), array_util.hpp (23), exclude_collision.hpp (42), gravity_util.hpp (27), insert_material_mixing.hpp (22), paged_mesh_load_reporting.hpp (29), profile_util.hpp (54), settings_util.hpp (12), vector_util.hpp (21), visit_component.hpp (133)
* `src/edyn/collision/collide`: collide_box_mesh.cpp (412), collide_capsule_cylinder.cpp (255), collide_capsule_mesh.cpp (267), collide_cylinder_box.cpp (434), collide_cylinder_cylinder.cpp (515), collide_cylinder_mesh.cpp (442), collide_polyhedron_cylinder.cpp (344), collide_polyhedron_mesh.cpp (273)
* `src/edyn/collision`: query_aabb.cpp (22)
* `src/edyn/context`: registry_operation_context.cpp (18), start_thread.cpp (10)
* `src/edyn/networking/context`: client_network_context.cpp (24), server_network_context.cpp (14)
* `src/edyn/networking/util`: pool_snapshot.cpp (12)
* `src/edyn/parallel`: message_dispatcher.cpp (10)
* `src/edyn/replication`: make_reg_op_builder.cpp (23)
* `src/edyn/shapes`: polyhedron_shape.cpp (11)
* `src/edyn/time/common`: time.cpp (11)
* `src/edyn/time`: simulation_time.cpp (19)
* `src/edyn/time/unix`: time.cpp (194)
* `src/edyn/time/windows`: time.cpp (33)
* `src/edyn/util`: profile_util.cpp (46)
