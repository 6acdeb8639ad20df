import Verif.Spec
import Verif.Lemmas.Count
import Verif.Lemmas.ArrayUtil
import Verif.Lemmas.Bits
import Verif.Lemmas.Array
import Verif.Lemmas.Run
import Verif.Lemmas.Run2
import Verif.Lemmas.Run3
import Verif.Lemmas.Run4
import Verif.Lemmas.Run5
import Verif.Lemmas.Bitset
import Verif.Lemmas.Bitset2
import Verif.Lemmas.Bitset3
import Verif.Lemmas.Convert
import Verif.Lemmas.Convert2
import Verif.Lemmas.Convert3
import Verif.Lemmas.MixedUnion
import Verif.Lemmas.MixedInter
import Verif.Lemmas.MixedDiff
import Verif.Lemmas.MixedRel
import Verif.Props.C44
import Verif.Model.Container
import Verif.Lemmas.Container
import Verif.Lemmas.Container2
import Verif.Lemmas.Container3
import Verif.Model.Bitmap
import Verif.Lemmas.Bitmap
import Verif.Lemmas.Bitmap2
import Verif.Lemmas.Bitmap3
import Verif.Props.Common
import Verif.Props.C01
import Verif.Props.C04
import Verif.Props.C09
import Verif.Props.C30
import Verif.Props.C43
import Verif.Model.Bulk
import Verif.Model.Range
import Verif.Lemmas.Bulk
import Verif.Lemmas.Range
import Verif.Props.C35
import Verif.Lemmas.Range2
import Verif.Lemmas.Flip
import Verif.Props.C13
import Verif.Model.Query
import Verif.Lemmas.Query
import Verif.Lemmas.Query2
import Verif.Props.C18
import Verif.Model.Lazy
import Verif.Lemmas.Lazy
import Verif.Lemmas.Offset
import Verif.Props.C33
import Verif.Model.Iter
import Verif.Lemmas.Iter
import Verif.Lemmas.Iter2
import Verif.Props.C25
import Verif.Props.C03
import Verif.Model.Serial
import Verif.Lemmas.Serial
import Verif.Lemmas.Serial2
import Verif.Lemmas.Serial3
import Verif.Lemmas.Serial4
import Verif.Props.C28
import Verif.Model.Frozen
import Verif.Lemmas.Frozen
import Verif.Lemmas.Frozen2
import Verif.Props.C32
import Verif.Model.BitsetT
import Verif.Lemmas.BitsetT
import Verif.Lemmas.BitsetT2
import Verif.Lemmas.BitsetT3
import Verif.Model.Stats
import Verif.Lemmas.Stats
import Verif.Props.C39
import Verif.Model.Cow
import Verif.HistorySpec
import Verif.Lemmas.Cow
import Verif.Lemmas.Cow2
import Verif.Lemmas.Cow3
import Verif.Lemmas.Cow4
import Verif.Lemmas.Cow5
import Verif.Lemmas.Cow6
import Verif.Lemmas.Cow7
import Verif.Lemmas.Cow8
import Verif.Lemmas.Cow9
import Verif.Lemmas.Cow10
import Verif.Model.CowMany
import Verif.Model.CowHistory
import Verif.Lemmas.Cow11
import Verif.Lemmas.CowMany
import Verif.Lemmas.CowMany2
import Verif.Lemmas.CowMany3
import Verif.Lemmas.CowSteps
import Verif.Props.C38
import Verif.Model.Art
import Verif.Lemmas.ArtNode
import Verif.Lemmas.ArtTree
import Verif.Lemmas.ArtIter
import Verif.Model.Roaring64
import Verif.Lemmas.R64
import Verif.Lemmas.R64b
import Verif.Lemmas.R64c
import Verif.Lemmas.R64d
import Verif.Lemmas.R64e
import Verif.Lemmas.R64f
import Verif.Lemmas.R64g
import Verif.Lemmas.R64h
import Verif.Model.Validate64
import Verif.Lemmas.Validate64
import Verif.Lemmas.R64i
import Verif.Model.Iter64
import Verif.Lemmas.Iter64
import Verif.Lemmas.Iter64b
import Verif.Model.Serial64
import Verif.Lemmas.Serial64
import Verif.Lemmas.Serial64b
import Verif.Props.Common64
import Verif.Props.C53
import Verif.Props.C54
import Verif.Props.C60
import Verif.Props.C67
import Verif.Props.C70
import Verif.Props.C75
import Verif.Props.C78
import Verif.Props.C81
import Verif.Props.C85
import Verif.Props.C88
import Verif.Props.C89
import Verif.Model.SimdTables
import Verif.Model.Simd
import Verif.Model.SimdMerge
import Verif.Lemmas.Simd
import Verif.Lemmas.Simd2
import Verif.Lemmas.Simd3
import Verif.Lemmas.Simd4
import Verif.Lemmas.Simd5
import Verif.Lemmas.Simd6
import Verif.Lemmas.Simd7
import Verif.Lemmas.Simd8
import Verif.Model.ArrayMem
import Verif.Lemmas.Simd9
import Verif.Lemmas.ArrayMem
import Verif.Lemmas.ArrayBuf
import Verif.Props.C94
import Verif.Model.ExtractTables
import Verif.Model.SimdExtract
import Verif.Lemmas.Extract
import Verif.Lemmas.Extract2
import Verif.Lemmas.Extract3
import Verif.Props.C99
import Verif.Model.SimdBits
import Verif.Model.Isa
import Verif.Model.CowThreads
import Verif.Lemmas.SimdBits
import Verif.Lemmas.SimdBits2
import Verif.Lemmas.SimdBits3
import Verif.Lemmas.Isa
import Verif.Lemmas.CowThreads
import Verif.Props.C101
import Verif.Props.C105
import Verif.Model.ArtHeap
import Verif.ArtHeapSpec
import Verif.Lemmas.ArtHeapNode
import Verif.Lemmas.ArtHeap
import Verif.Lemmas.ArtHeapTree
import Verif.Lemmas.ArtHeapErase
import Verif.Lemmas.ArtHeapLive
import Verif.Props.C106
import Verif.Model.ArtHeapShrink
import Verif.Model.Store64
import Verif.Store64Spec
import Verif.Model.Frozen64
import Verif.Lemmas.ArtHeapShrink
import Verif.Lemmas.ArtHeapShrink2
import Verif.Lemmas.ArtHeapCalls
import Verif.Props.C107
import Verif.Lemmas.ArtHeapPtr
import Verif.Lemmas.Store64
import Verif.Lemmas.Store64b
import Verif.Lemmas.Store64c
import Verif.Lemmas.Store64d
import Verif.Lemmas.Frozen64
import Verif.Lemmas.Frozen64b
import Verif.Lemmas.Frozen64c
import Verif.Lemmas.Frozen64d
import Verif.Props.C108
import Verif.Props.C109
import Verif.RunBufSpec
import Verif.Props.C111
import Verif.Props.C112
import Verif.Props.C113
import Verif.Props.C114
import Verif.BitmapBufSpec
import Verif.Props.C115
import Verif.Props.C116
import Verif.Props.C117
import Verif.Props.C118
import Verif.Model.ArtHeapIter
import Verif.Lemmas.ArtHeapIter
import Verif.Lemmas.ArtHeapIter2
import Verif.ArtIterSpec
import Verif.Lemmas.ArtHeapIter3
import Verif.Props.C119
import Verif.Model.Store64Ops
import Verif.Store64PoolSpec
import Verif.Lemmas.Store64Ops
import Verif.Lemmas.Store64Ops2
import Verif.Lemmas.Store64Ops3
import Verif.Lemmas.Store64Ops4
import Verif.Lemmas.Store64Ops5
import Verif.Props.C121
import Verif.Model.Store64Ask
import Verif.Lemmas.Store64Ask
import Verif.Lemmas.Store64Ask2
import Verif.Store64AskSpec
import Verif.Props.C122
import Verif.Model.Store64More
import Verif.Lemmas.Store64More
import Verif.Lemmas.Store64Flip
import Verif.Lemmas.Store64Bulk
import Verif.Props.C124
import Verif.Model.Store64Serial
import Verif.Lemmas.Store64Serial
import Verif.Props.C125
import Verif.PrintSpec
import Verif.Model.Print
import Verif.Lemmas.Print
import Verif.Props.C126
import Verif.Model.Store64Validate
import Verif.Lemmas.Store64Validate
import Verif.Lemmas.Store64Validate2
import Verif.Lemmas.Store64Validate3
import Verif.Props.C127
import Verif.Props.C128
import Verif.BitsetHistSpec
import Verif.Model.BitsetMem
import Verif.Lemmas.BitsetMem
import Verif.Lemmas.BitsetMem2
import Verif.Lemmas.BitsetMem2b
import Verif.Lemmas.BitsetMem3
import Verif.Lemmas.BitsetMem4
import Verif.Lemmas.BitsetMem5
import Verif.Props.C129
import Verif.BitsetAskSpec
import Verif.Model.BitsetAsk
import Verif.Lemmas.BitsetAsk
import Verif.Props.C130
import Verif.Props.C131
import Verif.Props.C131b
import Verif.Props.C132
import Verif.Props.C133
import Verif.Props.C134
import Verif.Props.C135
