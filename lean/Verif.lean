import Verif.Data.Fetch
import Verif.Data.Kuka
import Verif.Data.Pr2
import Verif.Model.DataStructure
import Verif.Model.Export
import Verif.Model.Jacobian
import Verif.Model.Kin
import Verif.Model.Mat
import Verif.Model.Number
import Verif.Model.Outcome
import Verif.Model.Pose
import Verif.Model.Print
import Verif.Model.Py
import Verif.Model.PyHeap
import Verif.Model.PyImport
import Verif.Model.PyNoAssert
import Verif.Model.PyThreads
import Verif.Model.Real
import Verif.Model.Rounding
import Verif.Model.Urdf
import Verif.Model.Wrapper
import Verif.Model.Xml
import Verif.Model.XmlStamp
import Verif.Model.XmlText
import Verif.Proofs.AddLink
import Verif.Proofs.Axis
import Verif.Proofs.Batch
import Verif.Proofs.Build
import Verif.Proofs.Change
import Verif.Proofs.Column
import Verif.Proofs.ComFk
import Verif.Proofs.ComLinks
import Verif.Proofs.ComQuery
import Verif.Proofs.Construct
import Verif.Proofs.Depth
import Verif.Proofs.Deriv
import Verif.Proofs.Describes
import Verif.Proofs.Dist
import Verif.Proofs.Frozen
import Verif.Proofs.FwdDiff
import Verif.Proofs.Graph
import Verif.Proofs.Hang
import Verif.Proofs.History
import Verif.Proofs.Inv
import Verif.Proofs.JacQuery
import Verif.Proofs.Linear
import Verif.Proofs.Loops
import Verif.Proofs.LoopsMove
import Verif.Proofs.LoopsRun
import Verif.Proofs.Motion
import Verif.Proofs.Names
import Verif.Proofs.Number
import Verif.Proofs.Parse
import Verif.Proofs.Pickle
import Verif.Proofs.PoseQuery
import Verif.Proofs.Print
import Verif.Proofs.Progress
import Verif.Proofs.PyCopy
import Verif.Proofs.PyHeap
import Verif.Proofs.PyReach
import Verif.Proofs.PyThreads
import Verif.Proofs.Query
import Verif.Proofs.ReadTable
import Verif.Proofs.ReadText
import Verif.Proofs.RealPose
import Verif.Proofs.Rebase
import Verif.Proofs.Rotation
import Verif.Proofs.RoundAction
import Verif.Proofs.RoundAngles
import Verif.Proofs.RoundAsin
import Verif.Proofs.RoundBase
import Verif.Proofs.RoundCol
import Verif.Proofs.RoundCom
import Verif.Proofs.RoundDist
import Verif.Proofs.RoundEdge
import Verif.Proofs.RoundGrad
import Verif.Proofs.RoundInertia
import Verif.Proofs.RoundJac
import Verif.Proofs.RoundOps
import Verif.Proofs.RoundPath
import Verif.Proofs.RoundPose
import Verif.Proofs.RoundRpy
import Verif.Proofs.RoundScale
import Verif.Proofs.RoundWorld
import Verif.Proofs.Rpy
import Verif.Proofs.RpyDeriv
import Verif.Proofs.RpyPole
import Verif.Proofs.Safe
import Verif.Proofs.SafePy
import Verif.Proofs.SafeQuery
import Verif.Proofs.SafeSolve
import Verif.Proofs.Shapes
import Verif.Proofs.Shipped
import Verif.Proofs.Shown
import Verif.Proofs.ShownPy
import Verif.Proofs.ShownRows
import Verif.Proofs.ShownRun
import Verif.Proofs.ShownSolve
import Verif.Proofs.ShownTrack
import Verif.Proofs.Stale
import Verif.Proofs.Turn
import Verif.Proofs.Turns
import Verif.Proofs.TurnsJac
import Verif.Proofs.Version
import Verif.Proofs.Words
import Verif.Proofs.Wrapper
import Verif.Proofs.XmlBad
import Verif.Proofs.XmlCut
import Verif.Proofs.XmlDoc
import Verif.Proofs.XmlRef
import Verif.Proofs.XmlStamp
import Verif.Proofs.XmlText
import Verif.Props.Axis
import Verif.Props.BaseAngles
import Verif.Props.BaseCom
import Verif.Props.BaseDist
import Verif.Props.BaseError
import Verif.Props.BaseJac
import Verif.Props.BaseMotion
import Verif.Props.BasePose
import Verif.Props.BaseQuat
import Verif.Props.BatchJac
import Verif.Props.Bounds
import Verif.Props.Build
import Verif.Props.Cache
import Verif.Props.CacheWitness
import Verif.Props.Carried
import Verif.Props.Change
import Verif.Props.Com
import Verif.Props.ComBatchJac
import Verif.Props.ComColumns
import Verif.Props.ComJac
import Verif.Props.Containers
import Verif.Props.Deriv
import Verif.Props.Dist
import Verif.Props.DocExample
import Verif.Props.Document
import Verif.Props.EndToEnd
import Verif.Props.Export
import Verif.Props.ExportShapes
import Verif.Props.FromText
import Verif.Props.Hang
import Verif.Props.Inertia
import Verif.Props.Lever
import Verif.Props.Linear
import Verif.Props.LinearDist
import Verif.Props.Links
import Verif.Props.Loops
import Verif.Props.Motion
import Verif.Props.Names
import Verif.Props.NoAssert
import Verif.Props.NoAxis
import Verif.Props.Number
import Verif.Props.OtherLength
import Verif.Props.Parse
import Verif.Props.PartJac
import Verif.Props.Physical
import Verif.Props.Pickle
import Verif.Props.Pose
import Verif.Props.Print
import Verif.Props.PyHeap
import Verif.Props.PyImport
import Verif.Props.PyReuse
import Verif.Props.PyShown
import Verif.Props.PySolve
import Verif.Props.PyThreads
import Verif.Props.Renaming
import Verif.Props.Repeated
import Verif.Props.Rotation
import Verif.Props.RoundAction
import Verif.Props.RoundActionJac
import Verif.Props.RoundArc
import Verif.Props.RoundBase
import Verif.Props.RoundCom
import Verif.Props.RoundComJac
import Verif.Props.RoundDist
import Verif.Props.RoundGrad
import Verif.Props.RoundInertia
import Verif.Props.RoundJac
import Verif.Props.RoundMass
import Verif.Props.Rounding
import Verif.Props.RpyPole
import Verif.Props.SetAngle
import Verif.Props.Shapes
import Verif.Props.Shipped
import Verif.Props.ShippedDist
import Verif.Props.ShippedJac
import Verif.Props.ShippedRound
import Verif.Props.Shown
import Verif.Props.SolveFk
import Verif.Props.State
import Verif.Props.ThreadReach
import Verif.Props.ThreadTorn
import Verif.Props.Turns
import Verif.Props.TurnsJac
import Verif.Props.TwoParents
import Verif.Props.Units
import Verif.Props.Variants
import Verif.Props.Ways
import Verif.Props.XmlEnds
import Verif.Props.XmlLimits
import Verif.Props.XmlText
import Verif.Spec.Api
import Verif.Spec.Axis
import Verif.Spec.Bounds
import Verif.Spec.Carried
import Verif.Spec.Chain
import Verif.Spec.Change
import Verif.Spec.Com
import Verif.Spec.Containers
import Verif.Spec.Cycle
import Verif.Spec.Deriv
import Verif.Spec.Desc
import Verif.Spec.Dist
import Verif.Spec.Example
import Verif.Spec.Inertia
import Verif.Spec.Inverse
import Verif.Spec.Loops
import Verif.Spec.NoAxis
import Verif.Spec.Number
import Verif.Spec.Physical
import Verif.Spec.Pickle
import Verif.Spec.Print
import Verif.Spec.PyApi
import Verif.Spec.PyHeap
import Verif.Spec.PyImport
import Verif.Spec.PyThreads
import Verif.Spec.Repeated
import Verif.Spec.RobotTable
import Verif.Spec.RobotText
import Verif.Spec.Rotation
import Verif.Spec.RoundInertia
import Verif.Spec.RoundSums
import Verif.Spec.Rounding
import Verif.Spec.Shapes
import Verif.Spec.Shown
import Verif.Spec.Solver
import Verif.Spec.Text
import Verif.Spec.Urdf
import Verif.Spec.Variants
import Verif.Spec.Ways
import Verif.Spec.XmlDoc
