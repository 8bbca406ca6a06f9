import Verif.Props.Registry
import Verif.Props.Files
import Verif.Props.Points
import Verif.Props.Best
import Verif.Props.Tracking
import Verif.Props.Evaluators
import Verif.Props.PoolSelect
import Verif.Props.EsTotal
import Verif.Props.CmaRandom
import Verif.Props.Cma
import Verif.Props.CmaInvariance
import Verif.Props.Start
import Verif.Props.CmaAffine
import Verif.Props.Boundary
import Verif.Props.BoundaryHalf
import Verif.Props.FileReporter
import Verif.Props.MathTools
import Verif.Props.Optima
import Verif.Props.CmaEigen
import Verif.Props.CmaNan
import Verif.Model.Restart
import Verif.Props.CmaGauss
import Verif.Props.Predict
import Verif.Props.Restart
import Verif.Model.ParTools
import Verif.Model.Similarity
import Verif.Model.TestObjectives
import Verif.Props.ParTools
import Verif.Props.Similarity
import Verif.Props.TestObjectives
import Verif.Props.Feasible
import Verif.Props.SortOrder
import Verif.Model.ConsoleReporter
import Verif.Props.ConsoleReporter
import Verif.Model.ErrorMessage
import Verif.Props.ErrorMessage
import Verif.Props.Settle
import Verif.Props.StalePoint
import Verif.Props.Rounding
import Verif.Props.PoolAnnounce
import Verif.Props.StaticPars
import Verif.Lemmas.PoolEnd
import Verif.Props.PoolEnd
import Verif.Props.PoolRun
import Verif.Model.CmaSeed
import Verif.Props.CmaSeed
import Verif.Props.PoolTarget
import Verif.Model.ParTyped
import Verif.Props.ParTyped
import Verif.Model.FindCondition
import Verif.Props.FindCondition
import Verif.Lemmas.FloatSum
import Verif.Props.CmaFloat
import Verif.Props.PooledOrder
import Verif.Lemmas.PoolView
import Verif.Props.PoolFiles
import Verif.Model.Session
import Verif.Props.Session
import Verif.Spec.Mirror
import Verif.Lemmas.Mirror
import Verif.Props.Mirror
import Verif.Props.Limits
import Verif.Lemmas.PoolMark
import Verif.Model.PoolSession
import Verif.Props.PoolSession
import Verif.Props.Reproduce
import Verif.Props.PoolInfo
import Verif.Props.ImportValues
import Verif.Model.CRef
import Verif.Lemmas.CRef
import Verif.Lemmas.CRefSim
import Verif.Lemmas.CRefInit
import Verif.Lemmas.CRefRand
import Verif.Lemmas.CRefNan
import Verif.Props.CRef
import Verif.Model.CRefBoundary
import Verif.Props.CRefBoundary
import Verif.Props.CRefBest
import Verif.Model.SharedPool
import Verif.Model.SharedRun
import Verif.Lemmas.SharedPool
import Verif.Props.SharedPool
import Verif.Props.SharedRun
import Verif.Model.FileCrash
import Verif.Props.FileCrash
import Verif.Props.CutFile
import Verif.Model.EsSearch
import Verif.Props.EsAffine
import Verif.Props.EsUnits
import Verif.Model.Nested
import Verif.Lemmas.Nested
import Verif.Props.Nested
import Verif.Props.NestedStop
import Verif.Props.NestedFlat
import Verif.Num.SDbl
import Verif.Model.SignedText
import Verif.Lemmas.ArithSim
import Verif.Props.SignedZero
import Verif.Props.Recover
import Verif.Props.ParDefault
import Verif.Model.PoolEvaluator
import Verif.Props.PoolEvaluator
import Verif.Props.Defaults
import Verif.Model.PoolThrow
import Verif.Lemmas.PoolThrow
import Verif.Props.PoolThrow
import Verif.Model.StepThrow
import Verif.Props.StepThrow
import Verif.Model.PoolSettings
import Verif.Props.PoolSettings
