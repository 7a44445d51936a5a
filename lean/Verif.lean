import Verif.Prelude
import Verif.Props.GridMap
import Verif.Props.Bresenham
import Verif.Props.Area
import Verif.Props.Circle
import Verif.Props.OpenLists
import Verif.Props.Search
import Verif.Props.SearchOpt
import Verif.Props.SearchHistory
import Verif.Props.GridSearch
import Verif.Props.SearchExamples
import Verif.Props.Schedule
import Verif.Props.Vec
import Verif.Props.Managers
import Verif.Props.ChunkManager
import Verif.Props.DynLine
import Verif.Model.LegacyAStar
import Verif.Spec.Route
import Verif.Props.LegacyAStar
import Verif.Props.LegacyHistory
import Verif.Props.LegacyOpt
import Verif.Props.RSParse
import Verif.Props.RSArc
import Verif.Props.RSGeom
import Verif.Props.RSCurve
import Verif.Props.RSFind
import Verif.Props.RSLine
import Verif.Props.RSCircle
import Verif.Props.RSWeight
import Verif.Props.RSFree
import Verif.Props.RSIter
import Verif.Props.RSHistory
import Verif.Model.Shapes
import Verif.Spec.Shapes
import Verif.Props.ShapeLine
import Verif.Props.ShapeLine2
import Verif.Props.ShapeArc
import Verif.Props.ShapeArc2
import Verif.Props.ShapeSample
import Verif.Props.ShapeInter
import Verif.Props.ShapeTangent
import Verif.Props.ShapeTangent2
import Verif.Props.Collision
import Verif.Props.Steering3
import Verif.Props.DistTrans2
import Verif.Props.GridPath
import Verif.Props.Sampling3
import Verif.Props.MapGen5
import Verif.Spec.RSOpt
import Verif.Props.RSOpt
import Verif.Props.RSOpt2
import Verif.Props.RSOpt3
import Verif.Props.RSOpt4
import Verif.Model.Table
import Verif.Spec.Table
import Verif.Props.Table
import Verif.Model.Expansion
import Verif.Spec.Expansion
import Verif.Props.Expansion
import Verif.Props.MapGen6
import Verif.Model.KinSearch
import Verif.Spec.KinSearch
import Verif.Props.KinSearch
import Verif.Props.KinSearchEx
import Verif.Model.SteerSearch
import Verif.Spec.SteerSearch
import Verif.Props.ChunkManager2
import Verif.Props.SteerSearch
import Verif.Props.SteerSearch2
import Verif.Props.SteerSearch3
import Verif.Spec.SearchCustom
import Verif.Props.SearchCustom
import Verif.Props.SearchCustom2
import Verif.Props.SearchCustom3
import Verif.Props.SearchCustomEx
import Verif.Model.Reversed
import Verif.Spec.Reversed
import Verif.Props.Reversed
import Verif.Props.ReversedEx
import Verif.Model.HybridSearch
import Verif.Spec.HybridSearch
import Verif.Spec.HybridRS
import Verif.Props.HybridSearch
import Verif.Props.RSBox
import Verif.Props.HybridRS
import Verif.Props.HybridEx
import Verif.Lemmas.SearchHist
import Verif.Spec.SearchHistory
import Verif.Props.SearchHist
import Verif.Props.SearchHistEx
import Verif.Props.ShapeTangent3
import Verif.Props.ShapeTangentEx
import Verif.Props.Area2
import Verif.Props.GridBFS
import Verif.Props.Bresenham2
import Verif.Model.Renderer
import Verif.Spec.Renderer
import Verif.Props.Renderer
import Verif.Props.Renderer2
import Verif.Model.Evaluator
import Verif.Props.Evaluator
import Verif.Spec.Float
import Verif.Props.Float
import Verif.Model.Float
import Verif.Props.SearchRound
import Verif.Props.GridRound
import Verif.Props.GridRound2
import Verif.Props.GridRound3
import Verif.Model.FloatMap
import Verif.Props.FloatMap
import Verif.Props.FloatMap2
import Verif.Props.Tighten
import Verif.Props.OwnershipCopy
import Verif.Props.FourWs
import Verif.Model.StateLookup
import Verif.Spec.StateLookup
import Verif.Props.StateLookup
import Verif.Model.KinHistory
import Verif.Props.KinHist
import Verif.Props.KinHistEx
import Verif.Model.SteerHistory
import Verif.Props.SteerHistory
import Verif.Props.SteerHistory2
import Verif.Model.Statics
import Verif.Spec.Statics
import Verif.Props.Statics
import Verif.Props.StaticsEx
import Verif.Model.KinCustom
import Verif.Spec.KinCustom
import Verif.Lemmas.KinCustom
import Verif.Props.KinCustom
import Verif.Props.SteerCustom
import Verif.Model.DStar
import Verif.Spec.DStar
import Verif.Lemmas.DStar
import Verif.Props.DStar
import Verif.Props.DStarGrid
import Verif.Lemmas.KinDuring
import Verif.Model.CustomHistory
import Verif.Lemmas.KinCustomHist
import Verif.Props.KinCustomHist
import Verif.Props.SteerCustomHist
import Verif.Props.SteerCustomHist2
import Verif.Props.SearchAssert
import Verif.Spec.KinDom
import Verif.Lemmas.KinSearchDom
import Verif.Props.KinDom
import Verif.Spec.SteerDom
import Verif.Props.SteerDom
import Verif.Props.KinDomEx
import Verif.Model.Counters
import Verif.Spec.Counters
import Verif.Lemmas.SearchCount
import Verif.Lemmas.SearchWork
import Verif.Props.Counters
import Verif.Spec.Clearance
import Verif.Lemmas.Clearance
import Verif.Props.RSClearance
import Verif.Props.RSClearanceEx
import Verif.Props.SteerClearance
import Verif.Props.SteerClearanceEx
import Verif.Model.KinCounters
import Verif.Lemmas.KinCount
import Verif.Props.KinCounters
import Verif.Spec.MotionClear
import Verif.Props.RSMotionClear
import Verif.Props.RSMotionNear
import Verif.Props.RSMotionCsc
import Verif.Spec.HybridClearance
import Verif.Props.HybridClearance
import Verif.Lemmas.HybridRefuse
import Verif.Props.HybridComplete
import Verif.Props.HybridRun
import Verif.Props.Tighten2
import Verif.Props.HybridHistRS
import Verif.Props.HybridHistEx
import Verif.Props.FloatAngle
import Verif.Props.LaterClearanceEx
import Verif.Props.GridClearance
import Verif.Props.GridClearanceEx
import Verif.Props.Tighten3
import Verif.Model.FloatSteer
import Verif.Spec.FloatSteer
import Verif.Lemmas.FloatSteer
import Verif.Props.FloatSteer
import Verif.Props.FloatSteer2
import Verif.Props.FloatSteerEx
import Verif.Props.FloatSteer3
import Verif.Spec.FloatClearance
import Verif.Props.FloatClearance
import Verif.Props.FloatClearanceEx
import Verif.Model.CellCost
import Verif.Spec.MapChange
import Verif.Props.MapChange
import Verif.Props.MapChangeRS
import Verif.Props.MapChangeEx
import Verif.Model.CurveRenderer
import Verif.Spec.CurveRenderer
import Verif.Props.CurveRenderer
import Verif.Props.CurveRendererEx
import Verif.Props.RSCost
import Verif.Model.TableMain
import Verif.Props.TableMain
import Verif.Model.DrawThread
import Verif.Props.DrawThread
import Verif.Spec.MotionPrice
import Verif.Props.RSMapCost
import Verif.Model.Editor
import Verif.Spec.Editor
import Verif.Props.Editor
import Verif.Props.Editor2
import Verif.Props.FourWs2
import Verif.Model.DuringSearch
import Verif.Spec.DuringSearch
import Verif.Lemmas.DuringSearch
import Verif.Props.DuringSearch
import Verif.Props.DuringSearch2
import Verif.Props.DuringGrid
import Verif.Model.FloatRot
import Verif.Spec.FloatRot
import Verif.Props.FloatRot
import Verif.Props.FloatRot2
import Verif.Spec.Symmetry
import Verif.Props.Symmetry
import Verif.Props.SymmetryEx
import Verif.Spec.RSSymmetry
import Verif.Props.RSSymmetry
import Verif.Props.RSSymmetryEx
import Verif.Model.KinDuringMap
import Verif.Spec.KinDuringMap
import Verif.Spec.SteerDuringMap
import Verif.Lemmas.KinDuringMap
import Verif.Props.KinDuringMap
import Verif.Props.SteerDuringMap
import Verif.Props.KinDuringMapEx
import Verif.Props.SteerDuringMapEx
import Verif.Props.Tighten4
import Verif.Lemmas.KinDuringMono
import Verif.Props.KinDuringExact
import Verif.Props.KinDuringExactEx
import Verif.Props.SteerDuringExact
import Verif.Props.HybridDuring
import Verif.Props.HybridDuringRS
import Verif.Props.HybridDuringEx
import Verif.Model.KinCustomDuring
import Verif.Spec.KinCustomDuring
import Verif.Lemmas.KinCustomDuring
import Verif.Props.KinCustomDuring
import Verif.Props.SteerCustomDuring
import Verif.Props.KinCustomDuringEx
import Verif.Spec.KinMoments
import Verif.Lemmas.KinMoments
import Verif.Props.KinMoments
import Verif.Props.SteerMoments
import Verif.Props.DuringMoments
import Verif.Props.DistTrans3
import Verif.Props.EditorKeys
import Verif.Model.CustomDuring
import Verif.Lemmas.CustomDuring
import Verif.Props.CustomDuring
import Verif.Props.CustomDuring2
import Verif.Props.CustomDuringGrid
import Verif.Model.CallbackRuns
import Verif.Spec.CallbackRuns
import Verif.Props.CallbackRuns
import Verif.Model.DistTransRound
import Verif.Spec.DistTransRound
import Verif.Props.DistTransRound
import Verif.Props.DistTransRound2
import Verif.Props.DistTransRound3
import Verif.Lemmas.SearchHistMaps
import Verif.Spec.SearchMaps
import Verif.Props.SearchMaps
import Verif.Props.SearchMapsGrid
import Verif.Props.DistTransMetric
import Verif.Props.DistTransMetricEx
import Verif.Props.TimeLimit
import Verif.Props.TimeLimitKin
import Verif.Props.TimeLimitEx
import Verif.Model.TimeLimit
import Verif.Props.Deadline
import Verif.Props.DeadlineEx
import Verif.Lemmas.KinAgain
import Verif.Props.KinAgain
import Verif.Props.KinAgainEx
import Verif.Props.DeadlineKin
import Verif.Props.DeadlineKinEx
import Verif.Props.DeadlineHybrid
import Verif.Props.DeadlineHybridEx
import Verif.Model.TimeLimitTest
import Verif.Props.DeadlineTest
import Verif.Props.DeadlineTestEx
import Verif.Model.TimeLimitKinTest
import Verif.Props.DeadlineKinTest
import Verif.Props.DeadlineKinTestEx
