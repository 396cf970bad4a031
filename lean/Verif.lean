import Verif.Basic
import Verif.PQSpec
import Verif.Heap
import Verif.HeapProofs
import Verif.PropHeap
import Verif.ComTree
import Verif.ComTreeProofs
import Verif.PropComTree
import Verif.TourTree
import Verif.TourTreeProofs
import Verif.PropTourTree
import Verif.StlSet
import Verif.StlSetProofs
import Verif.PropStlSet
import Verif.Geobucket
import Verif.GeoFrontProofs
import Verif.GeoDataProofs
import Verif.GeoKeyProofs
import Verif.GeoPopProofs
import Verif.GeoMergeProofs
import Verif.GeoInsertProofs
import Verif.GeobucketProofs
import Verif.GeoDedupProofs
import Verif.PropGeobucket
import Verif.PQSort
import Verif.PropPQSort
import Verif.BitTriangle
import Verif.BitTriangleSpec
import Verif.BitTriangleProofs
import Verif.PropBitTriangle
import Verif.HashTable
import Verif.HashTableSpec
import Verif.HashTableProofs
import Verif.PropHashTable
import Verif.DivMask
import Verif.DivMaskSpec
import Verif.DivMaskProofs
import Verif.PropDivMask
import Verif.DivList
import Verif.DivListSpec
import Verif.DivListProofs
import Verif.PropDivList
import Verif.TourTreeX
import Verif.TourTreeXProofs
import Verif.PairQueue
import Verif.PairQueueSpec
import Verif.PairQueueProofs
import Verif.PropPairQueue
import Verif.KDEntryArray
import Verif.KDTree
import Verif.KDTreeSpec
import Verif.KDEntryArrayProofs
import Verif.KDTreeProofs
import Verif.KDSearchProofs
import Verif.KDStateProofs
import Verif.KDAgree
import Verif.KDThrowProofs
import Verif.PropKDTree
import Verif.Minimize
import Verif.MinimizeSpec
import Verif.MinimizeProofs
import Verif.PropMinimize
import Verif.Text
import Verif.TextSpec
import Verif.TextProofs
import Verif.ColumnPrinter
import Verif.ColumnPrinterSpec
import Verif.ColumnPrinterProofs
import Verif.PropColumnPrinter
import Verif.F64
import Verif.F64Proofs
import Verif.Ratio
import Verif.RatioSpec
import Verif.RatioProofs
import Verif.PropRatio
import Verif.NameFactory
import Verif.NameFactorySpec
import Verif.NameFactoryProofs
import Verif.PropNameFactory
import Verif.Cli
import Verif.CliSpec
import Verif.CliProofs
import Verif.PropCli
import Verif.Display
import Verif.DisplaySpec
import Verif.DisplayProofs
import Verif.PropDisplay
import Verif.Timer
import Verif.TimerSpec
import Verif.TimerProofs
import Verif.PropTimer
import Verif.Help
import Verif.HelpSpec
import Verif.HelpProofs
import Verif.PropHelp
import Verif.RebuildSpec
import Verif.RebuildProofs
import Verif.PropRebuild
import Verif.PropRatioDouble
import Verif.GeoMem
import Verif.GeoMemSpec
import Verif.GeoMemProofs
import Verif.GeoLayoutProofs
import Verif.GeoSimProofs
import Verif.GeoSimMergeProofs
import Verif.GeoSimAddProofs
import Verif.GeoSimInsertProofs
import Verif.GeoMemRunProofs
import Verif.PropGeoMem
import Verif.CompareSpec
import Verif.HeapTrace
import Verif.HeapTraceProofs
import Verif.TourTreeTrace
import Verif.TourTreeTraceProofs
import Verif.PropCompare
import Verif.KDMem
import Verif.KDMemArrProofs
import Verif.KDMemHeapProofs
import Verif.KDMemBinaryProofs
import Verif.KDMemBinaryReset
import Verif.KDMemPackedProofs
import Verif.KDMemPackedInsert
import Verif.KDMemPackedReset
import Verif.KDMemSim
import Verif.PropKDMem
import Verif.HeapLog
import Verif.HeapLogProofs
import Verif.GeoCountProofs
import Verif.PQSim
import Verif.PQSimSpec
import Verif.PQSimProofs
import Verif.PQSimQueues
import Verif.PropPQSim
import Verif.Simulator
import Verif.SimulatorSpec
import Verif.SimulatorProofs
import Verif.PropSimulator
import Verif.DivSim
import Verif.DivSimSpec
import Verif.DivSimProofs
import Verif.PropDivSim
import Verif.HashThrow
import Verif.HashThrowSpec
import Verif.HashThrowProofs
import Verif.PropHashThrow
import Verif.QueueThrowSpec
import Verif.HeapThrow
import Verif.TourTreeThrow
import Verif.HeapThrowProofs
import Verif.TourTreeThrowProofs
import Verif.QueueThrowProofs
import Verif.PropQueueThrow
import Verif.DivListAlias
import Verif.DivListAliasSpec
import Verif.DivListAliasProofs
import Verif.KDMemAlias
import Verif.KDMemAliasProofs
import Verif.KDMemAliasTree
import Verif.PropAlias
import Verif.Assert
import Verif.QueueAssert
import Verif.QueueAssertProofs
import Verif.PropQueueAssert
import Verif.GeoAssert
import Verif.GeoAssertSpec
import Verif.GeoAssertProofs
import Verif.PropGeoAssert
import Verif.KDAssert
import Verif.KDAssertProofs
import Verif.KDAssertStateProofs
import Verif.PropKDAssert
import Verif.GeoTrace
import Verif.GeoTraceProofs
import Verif.GeoCostProofs
import Verif.GeoAmortProofs
import Verif.GeoCompareSpec
import Verif.GeoStepCostProofs
import Verif.PropGeoCompare
import Verif.PairAssert
import Verif.PairAssertSpec
import Verif.PairAssertProofs
import Verif.PropPairAssert
import Verif.HashAssert
import Verif.HashAssertSpec
import Verif.HashAssertProofs
import Verif.PropHashAssert
import Verif.DivListAssert
import Verif.DivListAssertProofs
import Verif.PropDivListAssert
import Verif.NameAssert
import Verif.NameAssertProofs
import Verif.PropNameAssert
import Verif.TextAssert
import Verif.TextAssertSpec
import Verif.TextAssertProofs
import Verif.PropTextAssert
import Verif.QueueVisit
import Verif.QueueVisitSpec
import Verif.QueueVisitProofs
import Verif.PropQueueVisit
import Verif.QueueSpace
import Verif.QueueSpaceSpec
import Verif.QueueSpaceProofs
import Verif.GeoSpaceProofs
import Verif.PropQueueSpace
import Verif.DivAsk
import Verif.DivAskSpec
import Verif.DivAskProofs
import Verif.KDAskProofs
import Verif.AskMatterProofs
import Verif.KDAskMatterProofs
import Verif.PropDivAsk
import Verif.Names
import Verif.NamesProofs
import Verif.PropNames
import Verif.Print
import Verif.PrintSpec
import Verif.PrintProofs
import Verif.PropPrint
import Verif.DivThrow
import Verif.DivThrowSpec
import Verif.DivThrowProofs
import Verif.PropDivThrow
import Verif.SimVerdictSpec
import Verif.SimVerdictProofs
import Verif.PropSimVerdict
import Verif.RebuildThrow
import Verif.RebuildThrowSpec
import Verif.RebuildThrowProofs
import Verif.PropRebuildThrow
import Verif.GeoThrow
import Verif.GeoThrowSpec
import Verif.GeoThrowProofs
import Verif.PropGeoThrow
import Verif.StlSetSpec
import Verif.StlSetOrderProofs
import Verif.PropStlSetOrder
