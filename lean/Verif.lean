import Verif.Transform.Props
import Verif.NavPath.Props
import Verif.NavIndex.Props
import Verif.BitSet.Props
import Verif.Vector.Props
import Verif.Voxel.Props
import Verif.Visit.Props
import Verif.Registry.Props
import Verif.AABB.Props
import Verif.BVH.Props
import Verif.BoxSolid.Props
import Verif.Orb.Props
import Verif.Capacity.Props
import Verif.Hybrid.Props
import Verif.Nav.StepProps
import Verif.Boolean.Props
import Verif.Boolean.FlattenProps
import Verif.Boolean.DistProps
import Verif.Scaled.Props
import Verif.Base.Halfspace
import Verif.Tet.Props
import Verif.Tet.Capacity
import Verif.Boolean.NormalProps
import Verif.Para.Props
import Verif.Para.MoreProps
import Verif.Para.NormalProps
import Verif.Para.Capacity
import Verif.Base.Slices
import Verif.Trd.Props
import Verif.Trd.DistProps
import Verif.Trd.MoreProps
import Verif.Trd.NormalProps
import Verif.Trd.Capacity
import Verif.Container.Props
import Verif.RobinHood.Props
import Verif.Wedge.Props
import Verif.Tube.Props
import Verif.Tube.PropsOut
import Verif.Tube.PropsIn
import Verif.Tube.PropsMore
import Verif.Tube.Volume
import Verif.Base.Ellipse
import Verif.EllTube.Props
import Verif.EllTube.Dist
import Verif.EllTube.DistIn
import Verif.EllTube.DistProps
import Verif.EllTube.Volume
import Verif.EllTube.Normal
import Verif.EllTube.Perimeter
import Verif.Polygon.Props
import Verif.Polygon.InitProps
import Verif.Polygon.SafetyProps
import Verif.Polygon.Convex
import Verif.Polygon.ConvexProps
import Verif.Polygon.FlagProps
import Verif.SExtru.Props
import Verif.SExtru.Cases
import Verif.SExtru.SafetyProps
import Verif.SExtru.Dist
import Verif.SExtru.DistIn
import Verif.SExtru.Concave
import Verif.SExtru.Counter
import Verif.SExtru.More
import Verif.Ellipsoid.Props
import Verif.Ellipsoid.Dist
import Verif.Ellipsoid.DistIn
import Verif.Ellipsoid.Volume
import Verif.Ellipsoid.Normal
import Verif.MultiUnion.Props
import Verif.Pool.Props
import Verif.Arr.Props
import Verif.VoxSafety.Witness
import Verif.Base.Ring
import Verif.CutTube.PropsIn
import Verif.CutTube.PropsMore
import Verif.Refl.Props
import Verif.Trapezoid.NormalProps
import Verif.Trapezoid.Capacity
import Verif.Paraboloid.Rest
import Verif.Cone.Props
import Verif.Cone.PropsMore
import Verif.Cone.Volume
import Verif.Cone.DistProps
import Verif.Polycone.Props
import Verif.Polycone.Props2
import Verif.Polycone.Props3
import Verif.Polycone.Props4
import Verif.Polycone.Props5
import Verif.Polycone.Volume
import Verif.Polycone.Area
import Verif.Hype.Props
import Verif.Hype.Safety
import Verif.Hype.SafetyCases
import Verif.Hype.Volume
import Verif.Hype.Rest
import Verif.Hype.Dist
import Verif.Hype.DistIn
import Verif.EllTube.Accuracy
import Verif.EllCone.Props
import Verif.EllCone.Volume
import Verif.EllCone.Rest
import Verif.EllCone.Dist
import Verif.EllCone.DistIn
import Verif.Base.Revolve
import Verif.Sphere.Props
import Verif.Sphere.Volume
import Verif.Sphere.Rest
import Verif.Sphere.Extent
import Verif.Sphere.Sample
import Verif.Sphere.Dist
import Verif.Torus.Props
import Verif.Torus.Volume
import Verif.Torus.Rest
import Verif.Torus.SolveProps
import Verif.Torus.Dist
import Verif.Torus.DistProps
import Verif.Torus.DistIn
import Verif.Torus.DistEx
import Verif.OBB.Props
import Verif.Coax.Rest
import Verif.Assembly.Rest
import Verif.GPoly.Rest
import Verif.GPoly.Circle
import Verif.Quad.Rest
import Verif.GPoly.Volume
import Verif.Quad.Sample
import Verif.Quad.In
import Verif.Phd.Rest
import Verif.Phd.Area
import Verif.Phd.Sample
import Verif.Phd.Bounds
import Verif.Phd.Walls
