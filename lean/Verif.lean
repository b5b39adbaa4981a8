import Verif.Model.Py
import Verif.Model.Util
import Verif.Model.Inertial
import Verif.Model.Constraint
import Verif.Spec.Basic
import Verif.Lemmas.Util
import Verif.Lemmas.Inertial
import Verif.Props.Util
import Verif.Lemmas.PSD
import Verif.Props.Dynamics
import Verif.Props.Inertial
import Verif.Props.Inertial2
import Verif.Model.Polydd
import Verif.Model.Poly
import Verif.Model.Box
import Verif.Model.Ellipsoid
import Verif.Model.Cylinder
import Verif.Spec.Shapes
import Verif.Lemmas.Shapes
import Verif.Props.Shapes
import Verif.Props.Shapes2
import Verif.Spec.Numerics
import Verif.Model.Numerics
import Verif.Props.Shapes3
import Verif.Props.Shapes4
import Verif.Props.Surface
import Verif.Model.Moment
import Verif.Model.Realize
import Verif.Model.RigidBody
import Verif.Model.Random
import Verif.Lemmas.Realize
import Verif.Props.Realize
import Verif.Props.Realize2
import Verif.Props.Realize3
import Verif.Spec.Moment
import Verif.Spec.Bodies
import Verif.Spec.Cdd
import Verif.Lemmas.Moment
import Verif.Lemmas.Cdd
import Verif.Props.Moment
import Verif.Props.Moment2
import Verif.Props.Moment3
import Verif.Props.RigidBody
import Verif.Props.Realize4
import Verif.Lemmas.Cdd2
import Verif.Props.Polydd
import Verif.Props.Sampling
import Verif.Props.Sampling2
import Verif.Model.TestUtil
import Verif.Props.TestUtil
import Verif.Model.Optim
import Verif.Lemmas.Optim
import Verif.Props.Optim
import Verif.Props.Optim2
import Verif.Props.Extremal
import Verif.Model.Same
import Verif.Props.Same
import Verif.Model.Closest
import Verif.Props.Closest
import Verif.Model.Body
import Verif.Props.Body
import Verif.Spec.Measure
import Verif.Props.Measure
import Verif.Lemmas.Uniform
import Verif.Props.Density
import Verif.Props.Shells
import Verif.Props.DensityRealizable
import Verif.Spec.Identify
import Verif.Model.Geodesic
import Verif.Model.Identify
import Verif.Lemmas.PosDef
import Verif.Props.Geodesic
import Verif.Props.Identify
import Verif.Props.Identify2
import Verif.Props.Identify3
import Verif.Props.Constructors
import Verif.Props.Tolerance
import Verif.Props.Strengthen
import Verif.Model.MultiBody
import Verif.Spec.MultiBody
import Verif.Props.MultiBody
import Verif.Lemmas.Pseudo
import Verif.Props.Tightness
import Verif.Props.Strengthen2
import Verif.Props.Strengthen3
import Verif.Lemmas.Corner
import Verif.Props.Exactness
import Verif.Lemmas.Putinar
import Verif.Props.Convergence
import Verif.Props.CylinderExact
import Verif.Props.ThinShell
import Verif.Spec.Random
import Verif.Lemmas.Polar
import Verif.Lemmas.Rejection
import Verif.Props.Laws
import Verif.Props.Rejection
import Verif.Spec.Surface
import Verif.Props.Area
import Verif.Props.SurfaceLaw
import Verif.Props.Strengthen4
import Verif.Lemmas.Multinomial
import Verif.Props.BoxLaw
import Verif.Spec.Float
import Verif.Lemmas.Float
import Verif.Model.Float
import Verif.Props.Float
import Verif.Lemmas.WeakLaw
import Verif.Lemmas.SphereMoments
import Verif.Model.Example
import Verif.Props.MonteCarlo
import Verif.Model.Theory
import Verif.Props.Theory
import Verif.Model.Drip
import Verif.Props.Drip
import Verif.Lemmas.SLemma
import Verif.Props.Optim3
import Verif.Model.NdArray
import Verif.Model.Batch
import Verif.Spec.Batch
import Verif.Spec.Broadcast
import Verif.Lemmas.NdArray
import Verif.Props.Batch
import Verif.Props.Batch2
import Verif.Props.Broadcast
import Verif.Model.MomentIndex
import Verif.Props.MomentIndex
import Verif.Props.Extent
import Verif.Model.Uniformity
import Verif.Props.Uniformity
import Verif.Props.Support
import Verif.Props.TestClaims
import Verif.Props.FloatContains
import Verif.Props.Polydd3
import Verif.Props.Wrappers
import Verif.Cases.Basic
import Verif.Cases.Inertial
import Verif.Cases.Shapes
import Verif.Cases.Moment
import Verif.Cases.Realize
import Verif.Cases.Sampling
import Verif.Cases.Optim
import Verif.Cases.Identify
import Verif.Cases.Random
import Verif.Model.Memory
import Verif.Spec.Memory
import Verif.Props.Memory
import Verif.Cases.Memory
import Verif.Model.FloatCylinder
import Verif.Props.FloatCylinder
import Verif.Model.MultiBodyState
import Verif.Spec.MultiBodyState
import Verif.Props.MultiBodyState
import Verif.Model.MomentObject
import Verif.Props.MomentObject
import Verif.Model.Construct
import Verif.Spec.Construct
import Verif.Props.Construct
import Verif.Model.Schur
import Verif.Spec.Schur
import Verif.Props.Schur
import Verif.Model.FloatInertial
import Verif.Props.FloatInertial
import Verif.Model.FloatRandom
import Verif.Props.FloatRandom
import Verif.Model.FloatRealize
import Verif.Props.FloatRealize
import Verif.Model.Program
import Verif.Spec.Program
import Verif.Props.Program
import Verif.Model.PolyProgram
import Verif.Spec.PolyProgram
import Verif.Props.PolyProgram
import Verif.Model.PolyhedronProgram
import Verif.Spec.PolyhedronProgram
import Verif.Props.PolyhedronProgram
import Verif.Model.Text
import Verif.Props.Text
import Verif.Model.FloatTransform
import Verif.Spec.FloatTransform
import Verif.Props.FloatTransform
import Verif.Model.FloatPointMasses
import Verif.Props.FloatPointMasses
import Verif.Model.FloatInertialTransform
import Verif.Props.FloatInertialTransform
import Verif.Model.FloatDynamics
import Verif.Props.FloatDynamics
import Verif.Model.FloatBound
import Verif.Props.FloatBound
import Verif.Model.FloatSampling
import Verif.Props.FloatSampling
import Verif.Model.FloatEllipsoidPoints
import Verif.Props.FloatEllipsoidPoints
import Verif.Model.FloatCylinderPoints
import Verif.Props.FloatCylinderPoints
import Verif.Model.FloatSurface
import Verif.Props.FloatSurface
import Verif.Model.FloatDensity
import Verif.Props.FloatDensity
import Verif.Model.FloatShells
import Verif.Props.FloatShells
import Verif.Model.FloatVolume
import Verif.Props.FloatVolume
import Verif.Model.FloatInscribed
import Verif.Props.FloatInscribed
