import Verif.Alg.Basic
import Verif.Alg.Sturm
import Verif.Grf.Cad
import Verif.Grf.CadStep
import Verif.Grf.DegLemmas
import Verif.Grf.Fiber
import Verif.Grf.Heap
import Verif.Grf.Interactive
import Verif.Grf.Model
import Verif.Grf.MultiTree
import Verif.Grf.OpenCad
import Verif.Grf.ParamModel
import Verif.Grf.Poly
import Verif.Grf.PrintModel
import Verif.Grf.PropsAtom
import Verif.Grf.PropsBefore
import Verif.Grf.PropsCad
import Verif.Grf.PropsCells
import Verif.Grf.PropsCex
import Verif.Grf.PropsCore
import Verif.Grf.PropsDecides
import Verif.Grf.PropsDialog
import Verif.Grf.PropsExact
import Verif.Grf.PropsFileDecides
import Verif.Grf.PropsFileGeneric
import Verif.Grf.PropsFileReal
import Verif.Grf.PropsFileRealOne
import Verif.Grf.PropsGeneric
import Verif.Grf.PropsHeap
import Verif.Grf.PropsHistory
import Verif.Grf.PropsHypOrder
import Verif.Grf.PropsInteractive
import Verif.Grf.PropsLast
import Verif.Grf.PropsLift
import Verif.Grf.PropsLoop
import Verif.Grf.PropsLoopExact
import Verif.Grf.PropsMulti
import Verif.Grf.PropsNames
import Verif.Grf.PropsOrder
import Verif.Grf.PropsParam
import Verif.Grf.PropsPrint
import Verif.Grf.PropsPrompt
import Verif.Grf.PropsPromptFile
import Verif.Grf.PropsReaders
import Verif.Grf.PropsRenaming
import Verif.Grf.PropsRerun
import Verif.Grf.PropsReturned
import Verif.Grf.PropsSamples
import Verif.Grf.PropsSched
import Verif.Grf.PropsSchedFail
import Verif.Grf.PropsSchedLog
import Verif.Grf.PropsSchedTime
import Verif.Grf.PropsSearch
import Verif.Grf.PropsSearchStep
import Verif.Grf.PropsSelect
import Verif.Grf.PropsSession
import Verif.Grf.PropsSmt2
import Verif.Grf.PropsSmtCost
import Verif.Grf.PropsSmtFile
import Verif.Grf.PropsSmtFmls
import Verif.Grf.PropsSmtText
import Verif.Grf.PropsSmtUnique
import Verif.Grf.PropsSoft
import Verif.Grf.PropsStale
import Verif.Grf.PropsWeaken
import Verif.Grf.PropsWhole
import Verif.Grf.PropsWholeOrder
import Verif.Grf.RepoTests
import Verif.Grf.Sched
import Verif.Grf.SchedLog
import Verif.Grf.Search
import Verif.Grf.Session
import Verif.Grf.Smt2
import Verif.Grf.SmtCost
import Verif.Grf.SmtText
import Verif.Grf.Soft
import Verif.Grf.TrueElim
import Verif.Grf.Whole
import Verif.Qe.CacheModel
import Verif.Qe.ChApart
import Verif.Qe.ChCopy
import Verif.Qe.ChCopySem
import Verif.Qe.ChDepth
import Verif.Qe.ChEnds
import Verif.Qe.ChExpand
import Verif.Qe.ChExt
import Verif.Qe.ChExtSem
import Verif.Qe.ChFull
import Verif.Qe.ChGap
import Verif.Qe.ChGeneric
import Verif.Qe.ChMain
import Verif.Qe.ChModel
import Verif.Qe.ChRaise
import Verif.Qe.ChRaiseGen
import Verif.Qe.ChSize
import Verif.Qe.ChTable
import Verif.Qe.ComplexFull
import Verif.Qe.ComplexLemmas
import Verif.Qe.ComplexMain
import Verif.Qe.ComplexSem
import Verif.Qe.DiagLemmas
import Verif.Qe.FloatBad
import Verif.Qe.FloatLemmas
import Verif.Qe.FloatModel
import Verif.Qe.FloatRun
import Verif.Qe.MuchnikModel
import Verif.Qe.OldLemmas
import Verif.Qe.OldMain
import Verif.Qe.OldModel
import Verif.Qe.PartialLemmas
import Verif.Qe.PartialModel
import Verif.Qe.PolyLemmas
import Verif.Qe.PolyModel
import Verif.Qe.PrintModel
import Verif.Qe.PropsAgree
import Verif.Qe.PropsBlocks
import Verif.Qe.PropsCache
import Verif.Qe.PropsChEnds
import Verif.Qe.PropsChGeneric
import Verif.Qe.PropsChRaise
import Verif.Qe.PropsChSize
import Verif.Qe.PropsClosure
import Verif.Qe.PropsCohenHormander
import Verif.Qe.PropsDepth
import Verif.Qe.PropsFloat
import Verif.Qe.PropsMuchnik
import Verif.Qe.PropsMuchnikReal
import Verif.Qe.PropsOld
import Verif.Qe.PropsPartial
import Verif.Qe.PropsPrint
import Verif.Qe.PropsReadme
import Verif.Qe.PropsRows
import Verif.Qe.PropsSize
import Verif.Qe.PropsTarski
import Verif.Qe.RealFull
import Verif.Qe.RealIndex
import Verif.Qe.RealLemmas
import Verif.Qe.RealMain
import Verif.Qe.RealSem
import Verif.Qe.RealStep
import Verif.Qe.RepoTests
import Verif.Qe.SeqLemmas
import Verif.Qe.SizeLemmas
import Verif.Qe.ZPoly
import Verif.Vts.CacheLemmas
import Verif.Vts.CacheModel
import Verif.Vts.CheckerModel
import Verif.Vts.CostLemmas
import Verif.Vts.CostModel
import Verif.Vts.DirectModel
import Verif.Vts.Err
import Verif.Vts.ExamplesModel
import Verif.Vts.FrameModel
import Verif.Vts.GrowthLemmas
import Verif.Vts.IsymModel
import Verif.Vts.MatrixLemmas
import Verif.Vts.MatrixModel
import Verif.Vts.Model
import Verif.Vts.ParserModel
import Verif.Vts.PolyLemmas
import Verif.Vts.Props
import Verif.Vts.PropsAliasing
import Verif.Vts.PropsAux
import Verif.Vts.PropsCache
import Verif.Vts.PropsCacheExact
import Verif.Vts.PropsChecker
import Verif.Vts.PropsCost
import Verif.Vts.PropsDirect
import Verif.Vts.PropsExamples
import Verif.Vts.PropsExamples2
import Verif.Vts.PropsFrames
import Verif.Vts.PropsGrowth
import Verif.Vts.PropsIsym
import Verif.Vts.PropsOrder
import Verif.Vts.PropsParser
import Verif.Vts.PropsParserCost
import Verif.Vts.PropsParserErr
import Verif.Vts.PropsParserExact
import Verif.Vts.PropsPick
import Verif.Vts.PropsRefusal
import Verif.Vts.PropsShared
import Verif.Vts.PropsTs
import Verif.Vts.PropsUniv
import Verif.Vts.RepoExamples
import Verif.Vts.RepoTests
import Verif.Vts.SharedLemmas
import Verif.Vts.SharedModel
import Verif.Vts.SharedMore
import Verif.Vts.SignLemmas
import Verif.Vts.Spec
import Verif.Vts.TarskiLemmas
import Verif.Vts.TsModel
import Verif.Vts.UnivModel
import Verif.Vts.VtsLemmas
import Verif.Vts.Witness
