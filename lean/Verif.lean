import Verif.Props.Frontier
import Verif.Props.AStar
import Verif.Props.Heuristic
import Verif.Props.Bidirectional
import Verif.Props.Grid
import Verif.Props.Raster
import Verif.Props.OccMap
import Verif.Props.Shape
import Verif.Props.ObstacleMap
import Verif.Props.Node
import Verif.Props.Tree
import Verif.Props.RRT
import Verif.Props.Pose
import Verif.Props.Path
import Verif.Props.RRTR2
import Verif.Spec.RRT
import Verif.Props.RRTStar
import Verif.Model.RRTPlanner
import Verif.Spec.RRTPlanner
import Verif.Props.RRTPlanner
import Verif.Props.RRTOpen
import Verif.Props.RRTBounds
import Verif.Props.StateSpace
import Verif.Props.GridStore
import Verif.Props.Composite
import Verif.Props.ReedsSheppDir
import Verif.Props.GVD
import Verif.Props.VoronoiLate
import Verif.Props.Singleton
import Verif.Props.Profiler
import Verif.Props.Validator
import Verif.Props.ValidatorMore
import Verif.Props.ObstHeuristic
import Verif.Props.ShapeGeom
import Verif.Props.NonHolonomic
import Verif.Props.ValidatorNew
import Verif.Model.Smoother
import Verif.Model.HybridAStar
import Verif.Lemmas.Smoother
import Verif.Props.Smoother
import Verif.Spec.Smoother
import Verif.Props.SmootherGrad
import Verif.Props.SmootherStraight
import Verif.Props.Voronoi
import Verif.Props.HybridSteer
import Verif.Props.HybridSampling
import Verif.Props.HybridCells
import Verif.Props.HybridSearch
import Verif.Props.HybridExample
import Verif.Props.UnitSpeed
import Verif.Props.HybridClearance
import Verif.Spec.HybridAStar
import Verif.Props.HybridGoal
import Verif.Props.HybridGoalExample
import Verif.Props.HybridResult
import Verif.Props.FirstGenerated
import Verif.Model.MapUpdate
import Verif.Props.MapUpdate
import Verif.Props.ShapeNear
import Verif.Props.PlanClear
import Verif.Props.PlanClearExample
import Verif.Props.PlanOutside
import Verif.Props.PlanOutsideExample
import Verif.Props.ObstacleInside
import Verif.Props.HybridPlanner
import Verif.Props.HybridPlannerExample
import Verif.Props.HybridCost
import Verif.Model.HybridPlanner
import Verif.Model.BiPlanner
import Verif.Props.BiPlanner
import Verif.Model.BiGrid
import Verif.Props.BiGrid
import Verif.Model.Image
import Verif.Spec.Image
import Verif.Props.Image
import Verif.Model.SearchTree
import Verif.Props.SearchTree
import Verif.Model.Obstacle
import Verif.Props.Obstacle
import Verif.Props.SmootherDescent
import Verif.Props.SmootherDecrease
import Verif.Props.HybridStats
import Verif.Model.SmootherObject
import Verif.Props.SmootherObject
import Verif.Model.RRTStream
import Verif.Props.RRTCorridor
import Verif.Props.RRTRandom
import Verif.Props.Sampling
import Verif.Model.DistMapInt
import Verif.Props.DistMapInt
import Verif.Model.Hash
import Verif.Props.Hash
import Verif.Model.SingletonPlain
import Verif.Props.SingletonPlain
import Verif.Model.ProfilerThreads
import Verif.Props.ProfilerThreads
import Verif.Spec.Rounding
import Verif.Props.AStarRound
import Verif.Model.Float
import Verif.Lemmas.Float
import Verif.Model.FloatMap
import Verif.Model.FloatPose
import Verif.Props.FloatMap
import Verif.Props.FloatPose
import Verif.Props.AStarDouble
import Verif.Spec.ReedsSheppFamilies
import Verif.Lemmas.ReedsSheppComplete
import Verif.Lemmas.ReedsSheppGap
import Verif.Lemmas.ReedsSheppLimits
import Verif.Props.ReedsSheppFamilies
import Verif.Props.NonHoloSym
import Verif.Model.NonHoloMemory
import Verif.Lemmas.NonHoloMemory
import Verif.Props.NonHoloMemory
import Verif.Model.Resize
import Verif.Props.Resize
import Verif.Model.FloatSample
import Verif.Props.FloatSample
import Verif.Model.FloatValidator
import Verif.Spec.FloatValidator
import Verif.Props.FloatValidator
import Verif.Spec.Accumulate
import Verif.Model.FloatHeuristic
import Verif.Props.FloatHeuristic
import Verif.Model.RasterInt
import Verif.Props.RasterInt
import Verif.Model.FloatHybrid
import Verif.Props.FloatHybrid
import Verif.Model.FloatComposite
import Verif.Props.FloatComposite
import Verif.Model.FloatReedsShepp
import Verif.Props.FloatReedsShepp
import Verif.Lemmas.FloatRel
import Verif.Model.FloatGVD
import Verif.Props.FloatGVD
import Verif.Model.FloatCost
import Verif.Props.FloatCost
import Verif.Model.MapInt
import Verif.Props.MapInt
import Verif.Model.FloatDrive
import Verif.Props.FloatDrive
import Verif.Model.FloatSteer
import Verif.Props.FloatSteer
import Verif.Model.FloatRRT
import Verif.Props.FloatRRT
import Verif.Props.FloatRRTStar
import Verif.Spec.FloatRRT
import Verif.Props.FloatRRTBounds
import Verif.Props.BiRound
import Verif.Props.AStarSimple
import Verif.Spec.GridFloat
import Verif.Props.GridFloat
import Verif.Model.SmootherDiv
import Verif.Spec.SmootherDiv
import Verif.Props.SmootherDiv
import Verif.Model.FloatPath
import Verif.Props.FloatPath
import Verif.Model.FloatAStar
import Verif.Model.FloatObstacle
import Verif.Spec.FloatObstacle
import Verif.Props.FloatObstacle
import Verif.Props.FloatShape
import Verif.Spec.FloatClear
import Verif.Props.FloatClear
import Verif.Model.FloatNonHolo
import Verif.Props.FloatNonHolo
import Verif.Model.SingletonInit
import Verif.Props.SingletonInit
import Verif.Model.Interrupt
import Verif.Props.Interrupt
import Verif.Model.RRTInterrupt
import Verif.Spec.RRTInterrupt
import Verif.Props.RRTInterrupt
import Verif.Model.SharedHeuristic
import Verif.Props.SharedHeuristic
import Verif.Model.RandomInit
import Verif.Spec.RandomInit
import Verif.Props.RandomInit
import Verif.Props.BiSimple
import Verif.Props.GridFloatBi
import Verif.Model.Handles
import Verif.Props.Handles
import Verif.Spec.Work
import Verif.Props.AStarWork
import Verif.Props.AStarWeighted
import Verif.Props.RRTLimits
import Verif.Props.RRTMean
import Verif.Props.DistExact
import Verif.Props.GridMetric
import Verif.Props.ValidatorGrow
import Verif.Props.WorldFrame
import Verif.Props.DistHistory
import Verif.Props.ValidatorSettings
import Verif.Model.Python
import Verif.Props.Python
import Verif.Props.OutlineOrder
import Verif.Props.GridSymmetry
import Verif.Props.FloatRoundTrip
import Verif.Props.HeuristicMetric
import Verif.Props.Translate
import Verif.Props.RRTUnits
import Verif.Props.FloatObstacleObject
import Verif.Props.LengthUnit
import Verif.Props.UpdateTwice
import Verif.Props.Axes
import Verif.Props.PathParts
import Verif.Props.TwoPlanners
import Verif.Props.ConnectBounds
import Verif.Props.HybridCostBounds
import Verif.Props.Octile
import Verif.Props.DriveWalk
import Verif.Props.RRTClear
import Verif.Props.RRTClearExample
import Verif.Model.GVDQueries
import Verif.Props.GVDQueries
import Verif.Props.PathConnect
import Verif.Props.SteerDirection
