import Verif.Model.Bsdiff
import Verif.Model.CBase
import Verif.Model.CCallbacks
import Verif.Model.CDump
import Verif.Model.CDumpRestore
import Verif.Model.CDumpRestoreFail
import Verif.Model.CExampleInPlace
import Verif.Model.CInPlace
import Verif.Model.CInPlaceFiles
import Verif.Model.CLzmaHeap
import Verif.Model.CMain
import Verif.Model.CMainStdio
import Verif.Model.CReader
import Verif.Model.CSequential
import Verif.Model.CStdio
import Verif.Model.DataFormat
import Verif.Model.DataFormatArch
import Verif.Model.Divsufsort
import Verif.Model.Elf
import Verif.Model.ExtResources
import Verif.Model.HDiffModule
import Verif.Model.Heatshrink
import Verif.Model.PyCompression
import Verif.Model.PyContainers
import Verif.Model.PyInPlace
import Verif.Model.PyInfo
import Verif.Model.PyInfoShow
import Verif.Model.PyInfoText
import Verif.Model.PyMain
import Verif.Model.PySequential
import Verif.Model.PyStream
import Verif.Model.Sais
import Verif.Model.SsMerge
import Verif.Model.Sssort
import Verif.Model.Trsort
import Verif.Model.Varint
import Verif.Proofs.Bsdiff
import Verif.Proofs.BsdiffCount
import Verif.Proofs.BsdiffPrefix
import Verif.Proofs.CAccept
import Verif.Proofs.CBound
import Verif.Proofs.CCallbacks
import Verif.Proofs.CCodes
import Verif.Proofs.CDecodes
import Verif.Proofs.CDump
import Verif.Proofs.CDumpLzma
import Verif.Proofs.CDumpRestore
import Verif.Proofs.CDumpRestoreFail
import Verif.Proofs.CEnvSim
import Verif.Proofs.CExampleInPlace
import Verif.Proofs.CHeader
import Verif.Proofs.CInPlaceBody
import Verif.Proofs.CInPlaceCallbacks
import Verif.Proofs.CInPlaceCalls
import Verif.Proofs.CInPlaceCauses
import Verif.Proofs.CInPlaceCreated
import Verif.Proofs.CInPlaceEarly
import Verif.Proofs.CInPlaceErrorCalls
import Verif.Proofs.CInPlaceErrors
import Verif.Proofs.CInPlaceFiles
import Verif.Proofs.CInPlaceHeader
import Verif.Proofs.CInPlaceReject
import Verif.Proofs.CInPlaceRun
import Verif.Proofs.CInPlaceSafe
import Verif.Proofs.CInPlaceShift
import Verif.Proofs.CLzmaHeap
import Verif.Proofs.CLzmaHeapApi
import Verif.Proofs.CMainStdio
import Verif.Proofs.CReader
import Verif.Proofs.CReaderRun
import Verif.Proofs.CRecords
import Verif.Proofs.CSafe
import Verif.Proofs.CSeqCalls
import Verif.Proofs.CSeqCauses
import Verif.Proofs.CSeqComp
import Verif.Proofs.CSeqDecodes
import Verif.Proofs.CSeqErrors
import Verif.Proofs.CSeqFailed
import Verif.Proofs.CSeqHist
import Verif.Proofs.CSeqPieces
import Verif.Proofs.CSeqReject
import Verif.Proofs.CSeqRun
import Verif.Proofs.CSeqSafe
import Verif.Proofs.CSeqSim
import Verif.Proofs.CSize
import Verif.Proofs.CSizeVal
import Verif.Proofs.CStdio
import Verif.Proofs.CStdioInPlace
import Verif.Proofs.CStdioInPlaceSim
import Verif.Proofs.CStdioSim
import Verif.Proofs.CStdioWorks
import Verif.Proofs.CStream
import Verif.Proofs.CTransfer
import Verif.Proofs.Crle
import Verif.Proofs.CrleCanon
import Verif.Proofs.CrleDrive
import Verif.Proofs.DfArch
import Verif.Proofs.DfBlocks
import Verif.Proofs.DfDis
import Verif.Proofs.DfFields
import Verif.Proofs.DfRound
import Verif.Proofs.DssBase
import Verif.Proofs.DssCount
import Verif.Proofs.DssMain
import Verif.Proofs.DssRank
import Verif.Proofs.DssScan
import Verif.Proofs.DssSort
import Verif.Proofs.DssSs
import Verif.Proofs.DssStar
import Verif.Proofs.DssSub
import Verif.Proofs.Elf
import Verif.Proofs.ExtResources
import Verif.Proofs.Flash
import Verif.Proofs.HDiffModule
import Verif.Proofs.HsAccept
import Verif.Proofs.HsBits
import Verif.Proofs.HsDecodes
import Verif.Proofs.HsExample
import Verif.Proofs.HsMean
import Verif.Proofs.HsReader
import Verif.Proofs.HsRun
import Verif.Proofs.Lzma
import Verif.Proofs.LzmaReads
import Verif.Proofs.MemFile
import Verif.Proofs.PyAccept
import Verif.Proofs.PyBsdiff40
import Verif.Proofs.PyCompression
import Verif.Proofs.PyContainers
import Verif.Proofs.PyInPlace
import Verif.Proofs.PyInPlaceExact
import Verif.Proofs.PyInfo
import Verif.Proofs.PyInfoExact
import Verif.Proofs.PyInfoShow
import Verif.Proofs.PyInfoText
import Verif.Proofs.PyInt
import Verif.Proofs.PyMain
import Verif.Proofs.PyRecords
import Verif.Proofs.PySequential
import Verif.Proofs.PySize
import Verif.Proofs.PyStream
import Verif.Proofs.PySupply
import Verif.Proofs.PyTerm
import Verif.Proofs.PyTrunc
import Verif.Proofs.Records
import Verif.Proofs.SaisArray
import Verif.Proofs.SaisBase
import Verif.Proofs.SaisCopy
import Verif.Proofs.SaisGroups
import Verif.Proofs.SaisInduce
import Verif.Proofs.SaisKeys
import Verif.Proofs.SaisMain
import Verif.Proofs.SaisMarks
import Verif.Proofs.SaisNames
import Verif.Proofs.SaisNames1
import Verif.Proofs.SaisPass
import Verif.Proofs.SaisPlace
import Verif.Proofs.SaisSort1
import Verif.Proofs.SaisSort2
import Verif.Proofs.SaisTypes
import Verif.Proofs.Search
import Verif.Proofs.SsBase
import Verif.Proofs.SsBwd
import Verif.Proofs.SsFwd
import Verif.Proofs.SsHeap
import Verif.Proofs.SsIns
import Verif.Proofs.SsLast
import Verif.Proofs.SsLimit
import Verif.Proofs.SsMintro
import Verif.Proofs.SsPart
import Verif.Proofs.SsPlace
import Verif.Proofs.SsRotate
import Verif.Proofs.SsSort
import Verif.Proofs.SsSplit
import Verif.Proofs.SsSwap
import Verif.Proofs.SsSwap2
import Verif.Proofs.SsWire
import Verif.Proofs.TrCopy
import Verif.Proofs.TrCopyAll
import Verif.Proofs.TrCopyDown
import Verif.Proofs.TrCopyUp
import Verif.Proofs.TrDriver
import Verif.Proofs.TrHeap
import Verif.Proofs.TrIns
import Verif.Proofs.TrLog
import Verif.Proofs.TrPass
import Verif.Proofs.TrPivot
import Verif.Proofs.TrRank
import Verif.Proofs.TrSegs
import Verif.Proofs.TrSorted
import Verif.Proofs.TrSplit
import Verif.Proofs.TrStep
import Verif.Proofs.TrTandem
import Verif.Proofs.TrTask
import Verif.Proofs.TrWorks
import Verif.Proofs.Varint
import Verif.Props.CBuilds
import Verif.Props.CCallbacks
import Verif.Props.CDump
import Verif.Props.CDumpRestore
import Verif.Props.CDumpRestoreFail
import Verif.Props.CErrors
import Verif.Props.CExampleInPlace
import Verif.Props.CHeatshrink
import Verif.Props.CInPlace
import Verif.Props.CInPlaceErrors
import Verif.Props.CInPlaceFiles
import Verif.Props.CInPlaceFormat
import Verif.Props.CInPlaceSafety
import Verif.Props.CLzma
import Verif.Props.CLzmaHeap
import Verif.Props.CMain
import Verif.Props.CMainStdio
import Verif.Props.CSafety
import Verif.Props.CSequential
import Verif.Props.CSizes
import Verif.Props.CStdio
import Verif.Props.Crle
import Verif.Props.DataFormat
import Verif.Props.Divsufsort
import Verif.Props.Elf
import Verif.Props.ExtResources
import Verif.Props.HDiffModule
import Verif.Props.Heatshrink
import Verif.Props.PatchSize
import Verif.Props.PyBsdiff40
import Verif.Props.PyCompression
import Verif.Props.PyContainers
import Verif.Props.PyFormat
import Verif.Props.PyInPlace
import Verif.Props.PyInPlaceExact
import Verif.Props.PyInfo
import Verif.Props.PyInfoShow
import Verif.Props.PyInfoText
import Verif.Props.PyInt
import Verif.Props.PyMain
import Verif.Props.Sais
import Verif.Props.SaisLayout
import Verif.Props.Search
import Verif.Props.Sequential
import Verif.Props.Varint
import Verif.Spec.Bsdiff40
import Verif.Spec.CApi
import Verif.Spec.CCauses
import Verif.Spec.CCodes
import Verif.Spec.CDumpRestore
import Verif.Spec.CDumpRestoreFail
import Verif.Spec.CErrors
import Verif.Spec.CExampleInPlace
import Verif.Spec.CFormat
import Verif.Spec.CInPlaceApi
import Verif.Spec.CInPlaceErrors
import Verif.Spec.CLzmaHeap
import Verif.Spec.CSizes
import Verif.Spec.CStdio
import Verif.Spec.Callbacks
import Verif.Spec.Codec
import Verif.Spec.Compression
import Verif.Spec.Containers
import Verif.Spec.Crle
import Verif.Spec.DataFormat
import Verif.Spec.Device
import Verif.Spec.DeviceFormat
import Verif.Spec.Divsufsort
import Verif.Spec.Drive
import Verif.Spec.Elf
import Verif.Spec.ExtResources
import Verif.Spec.Flash
import Verif.Spec.HDiffModule
import Verif.Spec.Heatshrink
import Verif.Spec.InPlaceMeans
import Verif.Spec.Info
import Verif.Spec.InfoText
import Verif.Spec.Lzma
import Verif.Spec.Ops
import Verif.Spec.PyInfoShow
import Verif.Spec.PyInt
import Verif.Spec.PyMain
import Verif.Spec.Records
import Verif.Spec.Segments
import Verif.Spec.Sequential
import Verif.Spec.SuffixArray
import Verif.Spec.Truncation
