import Verif.Common.AMap
import Verif.Common.ListLemmas
import Verif.EntityMap.Props
import Verif.Core.UnorderedPairProps
import Verif.Core.FlatNestedArrayProps
import Verif.Material.Props
import Verif.Collision.FilterProps
import Verif.Collision.ManifoldMapProps
import Verif.DynTree.Props
import Verif.Graph.TraverseProps
import Verif.StaticTree.Props
import Verif.Serial.Props
import Verif.Serial.PagedProps
import Verif.Net.SnapshotProps
import Verif.Net.Packets
import Verif.Net.TimedQueue
import Verif.Net.ActionData
import Verif.Net.ActionHistory
import Verif.Net.DispatchActions
import Verif.Net.ModifiedComps
import Verif.Net.InputHistory
import Verif.Net.ClockSync
import Verif.Net.AabbOfInterest
import Verif.Net.ClientDestroy
import Verif.Net.ExtrapolationWorker
import Verif.Parallel.MessageQueue
import Verif.Parallel.TaskAsync
import Verif.Parallel.Worker
import Verif.Islands.Model
import Verif.Islands.Traverse
import Verif.Islands.Insert
import Verif.Islands.Reach
import Verif.Islands.Split
import Verif.Islands.SplitAll
import Verif.Islands.Inv
import Verif.Islands.Timer
import Verif.Islands.Hist
import Verif.Islands.Props
import Verif.Islands.Witness
import Verif.Sim.Stepping
import Verif.Sim.ChildList
import Verif.Math.Real
import Verif.Solver.Rows
import Verif.Solver.Spec
import Verif.Solver.Props
import Verif.Solver.Momentum
import Verif.Solver.Energy
import Verif.Solver.Witness
import Verif.Solver.Jacobians
import Verif.Solver.Machine
import Verif.Solver.Position
import Verif.Solver.Pack
import Verif.Solver.PackProps
import Verif.Solver.Slots
import Verif.Contact.Findings
import Verif.Contact.Flip
import Verif.Contact.Materials
import Verif.Mesh.CacheFindings
import Verif.Mesh.Convex
import Verif.Mesh.SplitQuery
import Verif.Repl.MappingProps
import Verif.Repl.ReplayProps
import Verif.Geom.AabbFinal
import Verif.Geom.ClosestMore
import Verif.Geom.Polyhedron
import Verif.Geom.ConvexNormals
import Verif.Geom.Triangle
import Verif.Geom.RaycastMesh
import Verif.Geom.Feature
import Verif.Geom.Hull2
import Verif.Collide.CapsuleCapsule
import Verif.Collide.Cylinder
import Verif.Collide.Planes
import Verif.Collide.PolyPlane
import Verif.Collide.PolyPolyFindings
import Verif.Collide.PolyCapFindings
import Verif.Mass.PolyInertia
import Verif.Mass.Compound
import Verif.Net.AuthorityProps
import Verif.Body.Findings
import Verif.Present.Interp
import Verif.Query.Props
import Verif.Restitution.Findings
import Verif.Collide.BoxNear
import Verif.Collide.BoxMissed
import Verif.Collide.BoxTouch
import Verif.Collide.SphereTri
import Verif.Collide.SphereMesh
import Verif.Collide.MeshFacets
import Verif.Collide.SphereMeshFindings
import Verif.Broad.Findings
import Verif.Collide.CompoundFindings
import Verif.Poly.Findings
import Verif.Obj.Findings
import Verif.Extra.Findings
import Verif.Contact.Friction
import Verif.Settings.Findings
import Verif.Ragdoll.Props
import Verif.Mesh.ParallelLoad
import Verif.Collide.CapsuleBox
import Verif.Collide.CapBoxPoints
