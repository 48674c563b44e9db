import Verif.Base
import Verif.Csr
import Verif.HashOps
import Verif.HeapOps
import Verif.Kinds
import Verif.Lemmas.Alias
import Verif.Lemmas.Assemble
import Verif.Lemmas.Base1
import Verif.Lemmas.Bc
import Verif.Lemmas.BcMain
import Verif.Lemmas.BenchRun
import Verif.Lemmas.Bin
import Verif.Lemmas.BitMap
import Verif.Lemmas.Blocked
import Verif.Lemmas.BlockedCount
import Verif.Lemmas.BlockedTc
import Verif.Lemmas.Blocks
import Verif.Lemmas.BlocksOwn
import Verif.Lemmas.Common
import Verif.Lemmas.Convert
import Verif.Lemmas.Dot
import Verif.Lemmas.Driver
import Verif.Lemmas.Expected
import Verif.Lemmas.Flops
import Verif.Lemmas.GenMat
import Verif.Lemmas.Graph
import Verif.Lemmas.GraphCtor
import Verif.Lemmas.GrbBase
import Verif.Lemmas.Hash
import Verif.Lemmas.HashAlg
import Verif.Lemmas.HashDup
import Verif.Lemmas.HashMult
import Verif.Lemmas.HashNum
import Verif.Lemmas.HashOps
import Verif.Lemmas.HashTbl
import Verif.Lemmas.HashWord
import Verif.Lemmas.HeapAlg
import Verif.Lemmas.HeapCompl
import Verif.Lemmas.HeapGen
import Verif.Lemmas.HeapGenMca
import Verif.Lemmas.HeapGenNeg
import Verif.Lemmas.HeapGenPlain
import Verif.Lemmas.HeapGenRow
import Verif.Lemmas.HeapMult
import Verif.Lemmas.HeapNum
import Verif.Lemmas.HeatMap
import Verif.Lemmas.Inner
import Verif.Lemmas.InnerDriver
import Verif.Lemmas.Intersect
import Verif.Lemmas.KTrussMain
import Verif.Lemmas.Kinds
import Verif.Lemmas.LpMult
import Verif.Lemmas.Masked
import Verif.Lemmas.MaskedAll
import Verif.Lemmas.MatEq
import Verif.Lemmas.MatObj
import Verif.Lemmas.Mca
import Verif.Lemmas.Memory
import Verif.Lemmas.Msa
import Verif.Lemmas.MsaAlg
import Verif.Lemmas.MsaNd
import Verif.Lemmas.Never
import Verif.Lemmas.NumaMain
import Verif.Lemmas.OfRows
import Verif.Lemmas.OldAlg
import Verif.Lemmas.OneEntry
import Verif.Lemmas.Outer
import Verif.Lemmas.Outer2
import Verif.Lemmas.OuterMain
import Verif.Lemmas.OuterProd
import Verif.Lemmas.OuterProfile
import Verif.Lemmas.OuterRange
import Verif.Lemmas.OuterSquare
import Verif.Lemmas.PathSum
import Verif.Lemmas.Paths
import Verif.Lemmas.Place
import Verif.Lemmas.Poly
import Verif.Lemmas.ProfileMain
import Verif.Lemmas.Race
import Verif.Lemmas.RaceAny
import Verif.Lemmas.RaceCall
import Verif.Lemmas.RaceConv
import Verif.Lemmas.RaceConvAcc
import Verif.Lemmas.RaceConvFree
import Verif.Lemmas.RaceCover
import Verif.Lemmas.RaceCoverDot
import Verif.Lemmas.RaceCoverHeap
import Verif.Lemmas.RaceCoverOld
import Verif.Lemmas.RaceDot
import Verif.Lemmas.RaceGen
import Verif.Lemmas.RaceHeap
import Verif.Lemmas.RaceInner
import Verif.Lemmas.RaceMain
import Verif.Lemmas.RaceOld
import Verif.Lemmas.RaceOldFree
import Verif.Lemmas.RaceOuter
import Verif.Lemmas.RaceOuterAcc
import Verif.Lemmas.RaceOuterMain
import Verif.Lemmas.RaceSound
import Verif.Lemmas.RadixSort
import Verif.Lemmas.ReadBin
import Verif.Lemmas.ReadCsr
import Verif.Lemmas.ReadIO
import Verif.Lemmas.Relabel
import Verif.Lemmas.Reorder
import Verif.Lemmas.Rmat
import Verif.Lemmas.RmatSort
import Verif.Lemmas.RowData
import Verif.Lemmas.Rows
import Verif.Lemmas.Run
import Verif.Lemmas.SameMat
import Verif.Lemmas.SampleGen
import Verif.Lemmas.SampleMain
import Verif.Lemmas.Scan
import Verif.Lemmas.Slots
import Verif.Lemmas.Sort
import Verif.Lemmas.Spa
import Verif.Lemmas.StlHeap
import Verif.Lemmas.SubRef
import Verif.Lemmas.SumAll
import Verif.Lemmas.Threads
import Verif.Lemmas.Transpose
import Verif.Lemmas.TriCnt
import Verif.Lemmas.TriGrbMain
import Verif.Lemmas.TriMain
import Verif.Lemmas.Triangles
import Verif.Lemmas.Triples
import Verif.Lemmas.Truss
import Verif.Lemmas.Tuples
import Verif.Lemmas.TwoPass
import Verif.Lemmas.UtilScan
import Verif.Lemmas.Width
import Verif.Lemmas.WidthDriver
import Verif.Lemmas.WidthInner
import Verif.Lemmas.WidthNeg
import Verif.Model.Alias
import Verif.Model.Bc
import Verif.Model.BcMain
import Verif.Model.BenchRun
import Verif.Model.Bin
import Verif.Model.BitMap
import Verif.Model.BlockedTc
import Verif.Model.Blocks
import Verif.Model.Checksum
import Verif.Model.Common
import Verif.Model.Convert
import Verif.Model.Dot
import Verif.Model.Driver
import Verif.Model.Flops
import Verif.Model.GenMat
import Verif.Model.Graph
import Verif.Model.GraphCtor
import Verif.Model.GrbBase
import Verif.Model.Hash
import Verif.Model.HashIntersect
import Verif.Model.HashMult
import Verif.Model.HeapAlg
import Verif.Model.HeapGen
import Verif.Model.HeapMult
import Verif.Model.HeatMap
import Verif.Model.Inner
import Verif.Model.Intersect
import Verif.Model.KTrussMain
import Verif.Model.LpMult
import Verif.Model.MaskedAll
import Verif.Model.MatEq
import Verif.Model.MatObj
import Verif.Model.Mca
import Verif.Model.Memory
import Verif.Model.Msa
import Verif.Model.MsaAlg
import Verif.Model.Nest
import Verif.Model.NumaMain
import Verif.Model.OldAlg
import Verif.Model.Outer
import Verif.Model.Outer2
import Verif.Model.OuterMain
import Verif.Model.OuterProfile
import Verif.Model.Poly
import Verif.Model.ProfileMain
import Verif.Model.Race
import Verif.Model.RaceConv
import Verif.Model.RaceDot
import Verif.Model.RaceGen
import Verif.Model.RaceHeap
import Verif.Model.RaceInner
import Verif.Model.RaceOld
import Verif.Model.RaceOuter
import Verif.Model.RadixSort
import Verif.Model.ReadBin
import Verif.Model.ReadCsr
import Verif.Model.ReadIO
import Verif.Model.Reorder
import Verif.Model.Rmat
import Verif.Model.RowData
import Verif.Model.SampleMain
import Verif.Model.Scan
import Verif.Model.Sort
import Verif.Model.Spa
import Verif.Model.StlHeap
import Verif.Model.SubRef
import Verif.Model.SumAll
import Verif.Model.Threads
import Verif.Model.Transpose
import Verif.Model.TriCnt
import Verif.Model.TriGrbMain
import Verif.Model.TriMain
import Verif.Model.Tuples
import Verif.Model.TwoPass
import Verif.Model.UtilScan
import Verif.Model.Width
import Verif.Props.C01
import Verif.Props.C03
import Verif.Props.C05
import Verif.Props.C06
import Verif.Props.C08
import Verif.Props.C09
import Verif.Props.C100
import Verif.Props.C101
import Verif.Props.C102
import Verif.Props.C103
import Verif.Props.C104
import Verif.Props.C105
import Verif.Props.C106
import Verif.Props.C11
import Verif.Props.C13
import Verif.Props.C15
import Verif.Props.C16
import Verif.Props.C17
import Verif.Props.C20
import Verif.Props.C21
import Verif.Props.C22
import Verif.Props.C24
import Verif.Props.C28
import Verif.Props.C29
import Verif.Props.C30
import Verif.Props.C31
import Verif.Props.C32
import Verif.Props.C33
import Verif.Props.C35
import Verif.Props.C36
import Verif.Props.C37
import Verif.Props.C39
import Verif.Props.C41
import Verif.Props.C42
import Verif.Props.C49
import Verif.Props.C52
import Verif.Props.C53
import Verif.Props.C54
import Verif.Props.C55
import Verif.Props.C56
import Verif.Props.C57
import Verif.Props.C58
import Verif.Props.C59
import Verif.Props.C60
import Verif.Props.C61
import Verif.Props.C64
import Verif.Props.C65
import Verif.Props.C66
import Verif.Props.C67
import Verif.Props.C68
import Verif.Props.C69
import Verif.Props.C70
import Verif.Props.C71
import Verif.Props.C72
import Verif.Props.C73
import Verif.Props.C74
import Verif.Props.C77
import Verif.Props.C79
import Verif.Props.C80
import Verif.Props.C81
import Verif.Props.C82
import Verif.Props.C83
import Verif.Props.C84
import Verif.Props.C85
import Verif.Props.C86
import Verif.Props.C87
import Verif.Props.C88
import Verif.Props.C89
import Verif.Props.C90
import Verif.Props.C91
import Verif.Props.C92
import Verif.Props.C93
import Verif.Props.C94
import Verif.Props.C95
import Verif.Props.C96
import Verif.Props.C97
import Verif.Props.C98
import Verif.Props.C99
import Verif.Props.Examples
import Verif.Props.Listed
import Verif.Props.MissingBin
import Verif.Props.WideCols
import Verif.Props.WideCols2
import Verif.Props.WideCols3
import Verif.Props.ZeroRows
import Verif.Run
import Verif.Spec
import Verif.SpecBc
import Verif.SpecBcMain
import Verif.SpecBench
import Verif.SpecBits
import Verif.SpecBlocked
import Verif.SpecChecksum
import Verif.SpecCols
import Verif.SpecConv
import Verif.SpecCsc
import Verif.SpecDense
import Verif.SpecGenMat
import Verif.SpecGraph
import Verif.SpecHeatMap
import Verif.SpecIO
import Verif.SpecLegacy
import Verif.SpecMaskedAll
import Verif.SpecOuter
import Verif.SpecRadix
import Verif.SpecRmat
import Verif.SpecRowData
import Verif.SpecSample
import Verif.SpecSub
import Verif.SpecTri
import Verif.SpecTriGrb
import Verif.SpecTriMain
import Verif.SpecTruss
import Verif.SpecTuples
import Verif.SpecValue
