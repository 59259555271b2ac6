import Verif.Base
import Verif.Packed
import Verif.Queue
import Verif.PropsData
import Verif.Store
import Verif.Sais
import Verif.Cnt
import Verif.Theory
import Verif.TheoryLms
import Verif.SaisMem
import Verif.SaisCount
import Verif.SaisPlace
import Verif.SaisInduce
import Verif.SaisName
import Verif.SaisMain
import Verif.Spec
import Verif.PropsSais
import Verif.Hash
import Verif.HashField
import Verif.HashTab
import Verif.Plan
import Verif.HashIns
import Verif.HashOps
import Verif.PropsHash
import Verif.Induce
import Verif.IndTheory
import Verif.IndQueue
import Verif.IndPass1
import Verif.IndPass1b
import Verif.IndSetup
import Verif.IndPass2
import Verif.IndMain
import Verif.Front
import Verif.Bwt
import Verif.FrontTheory
import Verif.FrontExtract
import Verif.FrontSort
import Verif.FrontShort
import Verif.FrontMain
import Verif.Bridge
import Verif.PropsFront
import Verif.BwtSpec
import Verif.PropsTop
import Verif.ErrIn
import Verif.PropsTerm
import Verif.PropsThrow
import Verif.File
import Verif.FileSpec
import Verif.PropsFile
import Verif.PropsSpace
import Verif.PropsDirty
import Verif.PropsLimit
import Verif.HeapBase
import Verif.HeapModel
import Verif.HeapQueue
import Verif.HeapInduce
import Verif.HeapInduce2
import Verif.HeapSais
import Verif.HeapFront
import Verif.HeapMain
import Verif.HeapTop
import Verif.PropsHeap
import Verif.PropsTime
import Verif.TimeBase
import Verif.TimeModel
import Verif.TimeErase
import Verif.TimeSais
import Verif.TimeInduce
import Verif.TimeFrontModel
import Verif.TimeFront
import Verif.PropsTime2
import Verif.PropsFit
import Verif.PtrModel
import Verif.PropsPtr
import Verif.FileHeap
import Verif.PropsFileSize
import Verif.PropsFileHeap
import Verif.PropsMisuse
import Verif.PropsMisuse2
import Verif.PropsSession
import Verif.PropsEnd
import Verif.PropsLast
import Verif.PropsLayout
import Verif.Tests
import Verif.PropsDepth
import Verif.Checks
import Verif.ConcBase
import Verif.ConcModel
import Verif.ConcErase
import Verif.ConcText
import Verif.ConcMachine
import Verif.PropsConc
import Verif.ConcFile
import Verif.PropsConcFile
import Verif.PropsWidth
import Verif.PropsSaisInt
import Verif.PropsTable
import Verif.PropsFileFail
import Verif.PropsSaisAlpha
import Verif.PropsFileChain
import Verif.GenTheory
import Verif.GenPass1
import Verif.GenPass1b
import Verif.GenPass2
import Verif.GenMain
import Verif.GenOrder
import Verif.GenFront
import Verif.PropsAnyEnd
import Verif.PropsIndex
import Verif.PropsSort
import Verif.Copy
import Verif.PropsCopy
import Verif.Frame
import Verif.PropsFrame
import Verif.Peak
import Verif.Mirror
import Verif.PropsMirror
import Verif.PropsEndHeap
import Verif.QueueObj
import Verif.PropsQueueExc
import Verif.PropsTableHeap
import Verif.PropsShare
import Verif.PropsLost
import Verif.Dirty
import Verif.PropsDirty2
import Verif.PropsTotal
import Verif.PropsDirty3
import Verif.DirtyInduce
import Verif.DirtyHead
import Verif.PropsDirtyHead
import Verif.DirtyTab
import Verif.DirtyIns
import Verif.DirtyScan
import Verif.PropsDirtyTab
import Verif.DirtyExact
import Verif.PropsExact
import Verif.Hang
import Verif.PropsHang
import Verif.Instances
import Verif.Instances2
import Verif.Instances3
import Verif.Instances4
import Verif.Instances5
import Verif.Textbook
import Verif.PropsTextbook
import Verif.Shape
import Verif.PropsAgree
import Verif.PropsRelabel
