import Verif.Model.Basic
import Verif.Model.ComputeTrajectory
import Verif.Model.Concurrency
import Verif.Model.CostCheck
import Verif.Model.CsvDriver
import Verif.Model.DemoDriver
import Verif.Model.Equality
import Verif.Model.IO
import Verif.Model.LinearOpt
import Verif.Model.ManyPlanners
import Verif.Model.MavMsgs
import Verif.Model.MaxCheck
import Verif.Model.MotionDefines
import Verif.Model.NonlinearOpt
import Verif.Model.NotANumber
import Verif.Model.OptMagnitude
import Verif.Model.PathCheck
import Verif.Model.Planner
import Verif.Model.PlannerAftermath
import Verif.Model.PlannerDestroy
import Verif.Model.PlannerDirect
import Verif.Model.PlannerFine
import Verif.Model.PlannerFloat
import Verif.Model.PlannerThreads
import Verif.Model.PlotResults
import Verif.Model.Plotter
import Verif.Model.Polynomial
import Verif.Model.Print
import Verif.Model.PrintInfo
import Verif.Model.RPoly
import Verif.Model.RandomPath
import Verif.Model.RandomVertices
import Verif.Model.Rounding
import Verif.Model.SampledExtrema
import Verif.Model.Sampling
import Verif.Model.Segment
import Verif.Model.SharedTrajectory
import Verif.Model.TaylorBench
import Verif.Model.TimeStamps
import Verif.Model.Timing
import Verif.Model.TimingPrint
import Verif.Model.Trajectory
import Verif.Model.Vertex
import Verif.Model.Waypoint
import Verif.Model.YamlText
import Verif.Spec.Clock
import Verif.Spec.Concurrency
import Verif.Spec.CsvDriver
import Verif.Spec.DemoDriver
import Verif.Spec.Hermite
import Verif.Spec.IO
import Verif.Spec.LinearOpt
import Verif.Spec.LinearOptCost
import Verif.Spec.Magnitude
import Verif.Spec.ManyPlanners
import Verif.Spec.MavMsgs
import Verif.Spec.Moves
import Verif.Spec.NonlinearOpt
import Verif.Spec.NotANumber
import Verif.Spec.OptimumAxes
import Verif.Spec.OptimumCost
import Verif.Spec.OptimumFrame
import Verif.Spec.OptimumPlane
import Verif.Spec.OptimumRest
import Verif.Spec.OptimumReverse
import Verif.Spec.OptimumSum
import Verif.Spec.OptimumUnique
import Verif.Spec.PathCheck
import Verif.Spec.Planner
import Verif.Spec.PlannerAftermath
import Verif.Spec.PlannerDestroy
import Verif.Spec.PlannerFine
import Verif.Spec.PlannerFloat
import Verif.Spec.PlannerForever
import Verif.Spec.PlannerMoved
import Verif.Spec.PlannerOnePlan
import Verif.Spec.PlannerOrigin
import Verif.Spec.PlannerPile
import Verif.Spec.PlannerRouteThreads
import Verif.Spec.PlannerStored
import Verif.Spec.PlannerThreads
import Verif.Spec.PlotResults
import Verif.Spec.Plotter
import Verif.Spec.Polynomial
import Verif.Spec.Print
import Verif.Spec.PrintInfo
import Verif.Spec.RPoly
import Verif.Spec.RandomPath
import Verif.Spec.RandomVertices
import Verif.Spec.Requests
import Verif.Spec.RestLeg
import Verif.Spec.Rounding
import Verif.Spec.SampledExtrema
import Verif.Spec.Sampling
import Verif.Spec.SharedTrajectory
import Verif.Spec.TimeStamps
import Verif.Spec.Timing
import Verif.Spec.TimingPrint
import Verif.Spec.Trajectory
import Verif.Spec.Vertex
import Verif.Spec.Waypoint
import Verif.Spec.WaypointTold
import Verif.Spec.YamlText
import Verif.Lemmas.Concurrency
import Verif.Lemmas.ConcurrencyInv
import Verif.Lemmas.ConcurrencyPreserve
import Verif.Lemmas.ConcurrencyReach
import Verif.Lemmas.ConcurrencyReport
import Verif.Lemmas.ConcurrencyScript
import Verif.Lemmas.ConcurrencyStep
import Verif.Lemmas.ConcurrencyWait
import Verif.Lemmas.CsvDriver
import Verif.Lemmas.DemoDriver
import Verif.Lemmas.Extremum
import Verif.Lemmas.Hermite
import Verif.Lemmas.IO
import Verif.Lemmas.LinearOpt
import Verif.Lemmas.LinearOptCost
import Verif.Lemmas.LinearOptMatrix
import Verif.Lemmas.LinearOptReorder
import Verif.Lemmas.LinearOptTotal
import Verif.Lemmas.LinearOptUnique
import Verif.Lemmas.Magnitude
import Verif.Lemmas.MagnitudeApprox
import Verif.Lemmas.ManyPlanners
import Verif.Lemmas.MavMsgs
import Verif.Lemmas.MavMsgsMisc
import Verif.Lemmas.MavMsgsOmega
import Verif.Lemmas.MavMsgsRound
import Verif.Lemmas.MavMsgsVec
import Verif.Lemmas.ModifierCont
import Verif.Lemmas.Moves
import Verif.Lemmas.NearRotation
import Verif.Lemmas.NonlinearBounds
import Verif.Lemmas.NonlinearFree
import Verif.Lemmas.NonlinearInfo
import Verif.Lemmas.NonlinearMellinger
import Verif.Lemmas.NonlinearOpt
import Verif.Lemmas.NonlinearRun
import Verif.Lemmas.NonlinearTotal
import Verif.Lemmas.NotANumber
import Verif.Lemmas.OptimiserFails
import Verif.Lemmas.OptimumCost
import Verif.Lemmas.OptimumFrame
import Verif.Lemmas.OptimumRest
import Verif.Lemmas.OptimumReverse
import Verif.Lemmas.OptimumUnique
import Verif.Lemmas.Planner
import Verif.Lemmas.PlannerAftermath
import Verif.Lemmas.PlannerClock
import Verif.Lemmas.PlannerContents
import Verif.Lemmas.PlannerDestroy
import Verif.Lemmas.PlannerDirect
import Verif.Lemmas.PlannerEval
import Verif.Lemmas.PlannerFail
import Verif.Lemmas.PlannerFine
import Verif.Lemmas.PlannerFineCall
import Verif.Lemmas.PlannerFineLater
import Verif.Lemmas.PlannerFineSample
import Verif.Lemmas.PlannerFloat
import Verif.Lemmas.PlannerForeverSample
import Verif.Lemmas.PlannerFresh
import Verif.Lemmas.PlannerInv
import Verif.Lemmas.PlannerKeep
import Verif.Lemmas.PlannerMoved
import Verif.Lemmas.PlannerOnePlan
import Verif.Lemmas.PlannerOrigin
import Verif.Lemmas.PlannerPile
import Verif.Lemmas.PlannerPileUp
import Verif.Lemmas.PlannerPipeline
import Verif.Lemmas.PlannerPlan
import Verif.Lemmas.PlannerRate
import Verif.Lemmas.PlannerRequests
import Verif.Lemmas.PlannerSample
import Verif.Lemmas.PlannerSampleReal
import Verif.Lemmas.PlannerShape
import Verif.Lemmas.PlannerStitch
import Verif.Lemmas.PlannerStored
import Verif.Lemmas.PlannerThreads
import Verif.Lemmas.PlannerThreadsCarry
import Verif.Lemmas.PlannerThreadsFail
import Verif.Lemmas.PlannerThreadsLive
import Verif.Lemmas.PlannerThreadsLook
import Verif.Lemmas.PlannerThreadsPhases
import Verif.Lemmas.PlannerThreadsReq
import Verif.Lemmas.PlannerThreadsSample
import Verif.Lemmas.Polynomial
import Verif.Lemmas.Print
import Verif.Lemmas.PrintInfo
import Verif.Lemmas.QuadForm
import Verif.Lemmas.RPoly
import Verif.Lemmas.RPolyAnswer
import Verif.Lemmas.RPolyBound
import Verif.Lemmas.RandomVertices
import Verif.Lemmas.Sampling
import Verif.Lemmas.TimeStamps
import Verif.Lemmas.TimingPrint
import Verif.Lemmas.Trajectory
import Verif.Lemmas.TrajectoryOps
import Verif.Lemmas.TrajectoryRate
import Verif.Lemmas.Vertex
import Verif.Lemmas.Waypoint
import Verif.Lemmas.YamlCrash
import Verif.Lemmas.YamlCut
import Verif.Lemmas.YamlDoc
import Verif.Lemmas.YamlLines
import Verif.Lemmas.YamlRead
import Verif.Lemmas.YamlText
import Verif.Properties.Concurrency
import Verif.Properties.CostCheck
import Verif.Properties.CsvDriver
import Verif.Properties.DemoDriver
import Verif.Properties.EndConditions
import Verif.Properties.Equality
import Verif.Properties.IO
import Verif.Properties.LinearOpt
import Verif.Properties.LinearOptCost
import Verif.Properties.LinearOptHistory
import Verif.Properties.Magnitude
import Verif.Properties.MagnitudeApprox
import Verif.Properties.ManyPlanners
import Verif.Properties.MavMsgs
import Verif.Properties.MaxCheck
import Verif.Properties.MotionDefines
import Verif.Properties.NonlinearBounds
import Verif.Properties.NonlinearCost
import Verif.Properties.NonlinearHard
import Verif.Properties.NonlinearMellinger
import Verif.Properties.NonlinearOpt
import Verif.Properties.NotANumber
import Verif.Properties.OptMagnitude
import Verif.Properties.OptMatrices
import Verif.Properties.OptimiserFails
import Verif.Properties.OptimumAxes
import Verif.Properties.OptimumCost
import Verif.Properties.OptimumFrame
import Verif.Properties.OptimumPlane
import Verif.Properties.OptimumRecover
import Verif.Properties.OptimumRest
import Verif.Properties.OptimumReverse
import Verif.Properties.OptimumSum
import Verif.Properties.OptimumUnique
import Verif.Properties.PathCheck
import Verif.Properties.PlannerAftermath
import Verif.Properties.PlannerAppend
import Verif.Properties.PlannerDestroy
import Verif.Properties.PlannerDirect
import Verif.Properties.PlannerEval
import Verif.Properties.PlannerFine
import Verif.Properties.PlannerFirstClock
import Verif.Properties.PlannerFloat
import Verif.Properties.PlannerForever
import Verif.Properties.PlannerHandover
import Verif.Properties.PlannerInFlight
import Verif.Properties.PlannerMove
import Verif.Properties.PlannerMoveSpeed
import Verif.Properties.PlannerMoved
import Verif.Properties.PlannerMoves
import Verif.Properties.PlannerNoSpeed
import Verif.Properties.PlannerOnePlan
import Verif.Properties.PlannerOptimiser
import Verif.Properties.PlannerOrigin
import Verif.Properties.PlannerPickup
import Verif.Properties.PlannerPile
import Verif.Properties.PlannerPlan
import Verif.Properties.PlannerRemaining
import Verif.Properties.PlannerReplan
import Verif.Properties.PlannerRequests
import Verif.Properties.PlannerReroute
import Verif.Properties.PlannerRoute
import Verif.Properties.PlannerRouteThreads
import Verif.Properties.PlannerServed
import Verif.Properties.PlannerSetSpeed
import Verif.Properties.PlannerSmooth
import Verif.Properties.PlannerSpeed
import Verif.Properties.PlannerStitch
import Verif.Properties.PlannerStored
import Verif.Properties.PlannerThreads
import Verif.Properties.PlannerTime
import Verif.Properties.PlotResults
import Verif.Properties.Plotter
import Verif.Properties.Polynomial
import Verif.Properties.Print
import Verif.Properties.PrintInfo
import Verif.Properties.RPoly
import Verif.Properties.Ramp
import Verif.Properties.RandomPath
import Verif.Properties.RandomVertices
import Verif.Properties.Range
import Verif.Properties.RestLeg
import Verif.Properties.Rounding
import Verif.Properties.RoundingRange
import Verif.Properties.SampledExtrema
import Verif.Properties.Sampling
import Verif.Properties.ScaleToMeet
import Verif.Properties.SegmentTimes
import Verif.Properties.SharedTrajectory
import Verif.Properties.TaylorBench
import Verif.Properties.TimeStamps
import Verif.Properties.Timing
import Verif.Properties.TimingPrint
import Verif.Properties.Trajectory
import Verif.Properties.TrajectoryCompose
import Verif.Properties.Vertex
import Verif.Properties.Waypoint
import Verif.Properties.WaypointTold
import Verif.Properties.YamlText
