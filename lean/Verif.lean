import Verif.Prog
import Verif.Script
import Verif.Partition
import Verif.Spec.Basic
import Verif.Spec.Csr
import Verif.PrefixSum
import Verif.PrefixSum1
import Verif.Perm
import Verif.ParMem
import Verif.CsrMem
import Verif.Base
import Verif.Props.Utils
import Verif.Props.CsrBasic
import Verif.Team
import Verif.P2P
import Verif.Spec.Sweep
import Verif.P2PSweep
import Verif.Spec.Schedule
import Verif.SchedLists
import Verif.Kernels
import Verif.SchedExec
import Verif.BarrierExec
import Verif.Props.Schedules
import Verif.Props.SchedulesEx
import Verif.Barrier
import Verif.Props.Barrier
import Verif.RowTeam
import Verif.Spec.Linear
import Verif.SpMV
import Verif.SpMDM
import Verif.RelyGuar
import Verif.CsrQuery
import Verif.CsrDiag
import Verif.Reduction
import Verif.CsrMetrics
import Verif.Props.Linear
import Verif.Spec.Rows
import Verif.RowsMem
import Verif.SplitLU
import Verif.Props.Split
import Verif.LoopN
import Verif.ConstRule
import Verif.Spec.Transpose
import Verif.Spec.TransposeRel
import Verif.Transpose
import Verif.Props.Transpose
import Verif.Qsort
import Verif.Spec.Coo
import Verif.SortRows
import Verif.Coo
import Verif.Props.Coo
import Verif.StdLib
import Verif.Spec.Loader
import Verif.Loader
import Verif.LoaderSym
import Verif.Props.Loader
import Verif.StoreMM
import Verif.Props.Store
import Verif.BinFile
import Verif.Props.BinFile
import Verif.Pool
import Verif.Props.Pool
import Verif.BitVector
import Verif.Props.BitVector
import Verif.Laplacian
import Verif.Props.Laplacian
import Verif.LogRule
import Verif.Spec.Level
import Verif.Levels
import Verif.LevelsPure
import Verif.LevelsMem
import Verif.LevelsTrav
import Verif.LevelsProof
import Verif.Props.Levels
import Verif.Spec.Tasks
import Verif.TaskPart
import Verif.TaskPartProof
import Verif.TaskPartMain
import Verif.TaskGraph
import Verif.TaskGraphProof
import Verif.Fused
import Verif.Props.Tasks
import Verif.Props.TasksEx
import Verif.Props.Fused
import Verif.Spec.Ilu
import Verif.BlockSweep
import Verif.Ilu
import Verif.IluMath
import Verif.Props.Ilu
import Verif.Permute
import Verif.PermuteProof
import Verif.InsSort
import Verif.PermuteMain
import Verif.PermuteRows
import Verif.PermuteCols
import Verif.Props.Permute
import Verif.SymPat
import Verif.SlotRule
import Verif.Bucket
import Verif.SymPatProof
import Verif.SymPatPhases
import Verif.SymPatMain
import Verif.Spec.SymPat
import Verif.Props.SymPat
import Verif.MMio
import Verif.MMioProof
import Verif.Spec.MMText
import Verif.MMioWords
import Verif.LoadVec
import Verif.Props.MMText
import Verif.ReduceBarrier
import Verif.ReduceProof
import Verif.ReduceStep
import Verif.Props.ReduceBarrier
import Verif.Spec.Components
import Verif.Components
import Verif.Wlp
import Verif.CompUnion
import Verif.CompSort
import Verif.CompNumber
import Verif.CompMain
import Verif.Sched
import Verif.Props.Components
import Verif.Spec.Bfs
import Verif.Bfs
import Verif.BfsPure
import Verif.BfsExpand
import Verif.BfsLevel
import Verif.BfsSer
import Verif.BfsBlocks
import Verif.BfsSmall
import Verif.BfsMain
import Verif.BfsAll
import Verif.Props.Bfs
import Verif.Spec.Bip
import Verif.Bip
import Verif.BipExpand
import Verif.BipPure
import Verif.BipLevel
import Verif.BipMain
import Verif.Props.Bip
import Verif.Spec.Rcm
import Verif.Rcm
import Verif.RcmPure
import Verif.RcmPlace
import Verif.RcmSearch
import Verif.RcmMain
import Verif.Checks
import Verif.Props.Rcm
import Verif.FusedProof
import Verif.Props.FusedOrder
import Verif.BkLocal
import Verif.TgMem
import Verif.TgPure
import Verif.TgPhase
import Verif.TgBuild
import Verif.TgTail
import Verif.TgRed
import Verif.TgPar
import Verif.TgMain
import Verif.Props.TaskGraphMem
import Verif.SpinCore
import Verif.Spin
import Verif.OwnTeam
import Verif.RcmSeq
import Verif.Pipe
import Verif.PipeEnv
import Verif.PipeNode
import Verif.PipeProof
import Verif.PipeAll
import Verif.BfsLev
import Verif.BfsLevNode
import Verif.BfsLevExpand
import Verif.BfsLevLoop
import Verif.RcmSums
import Verif.RcmSelect
import Verif.RcmGet
import Verif.RcmSelProof
import Verif.RcmLargeComp
import Verif.RcmFull
import Verif.Props.RcmLarge
import Verif.Props.BfsLev
import Verif.Props.RcmSelect
import Verif.Spec.Race
import Verif.RaceFree
import Verif.Props.Races
import Verif.MMioCrd
import Verif.MMioCrdProof
import Verif.Spec.MMCrd
import Verif.Props.MMCrd
import Verif.Spec.Pcg
import Verif.PcgMath
import Verif.Pcg
import Verif.PcgProof
import Verif.PcgRun
import Verif.Props.Pcg
import Verif.Spec.PcgIlu
import Verif.PcgIluMath
import Verif.PcgIlu
import Verif.PcgIluRun
import Verif.Props.PcgIlu
import Verif.PcgOpt
import Verif.PcgOptMath
import Verif.PcgOptSolve
import Verif.PcgOptRun
import Verif.Props.PcgOpt
import Verif.PartMem
import Verif.PartMemProof
import Verif.PartMemMain
import Verif.BuildMem
import Verif.Props.BuildSchedule
import Verif.Props.BarrierRed
import Verif.Own
import Verif.OwnProof
import Verif.Spec.Own
import Verif.OwnStep
import Verif.OwnMain
import Verif.Props.Own
import Verif.SynkInit
import Verif.SynkInitProof
import Verif.SynkInitMain
import Verif.Spec.SynkInit
import Verif.Props.SynkInit
import Verif.LoadImba
import Verif.Props.LoadImba
import Verif.AdjCsr
import Verif.ShortCnt
import Verif.Ladder
import Verif.Props.ShortCnt
import Verif.FileCtor
import Verif.CrdParse
import Verif.Spec.FileCtor
import Verif.Props.FileCtor
import Verif.IntRange
import Verif.TransposeInt
import Verif.LapInt
import Verif.PrefixInt
import Verif.LevelInt
import Verif.RcmInt
import Verif.Props.IntRange
import Verif.SpMVInt
import Verif.Props.IntSpMV
import Verif.Reorder
import Verif.Spec.Reorder
import Verif.Props.Reorder
import Verif.SamePerm
import Verif.Props.SamePerm
import Verif.Props.SamePermMem
import Verif.Props.ConvVec
import Verif.BipUse
import Verif.Spec.RectReorder
import Verif.Props.BipUse
import Verif.CheckVec
import Verif.Props.CheckVec
import Verif.HugePages
import Verif.Props.HugePages
import Verif.Report
import Verif.Props.Report
import Verif.Spec.Blocks
import Verif.BarrierMem
import Verif.Props.BarrierMem
import Verif.Singleton
import Verif.Props.Singleton
import Verif.Efficiency
import Verif.Props.Efficiency
import Verif.Props.LapSpd
import Verif.PcgProgram
import Verif.Props.PcgProgram
import Verif.PcgProgramIlu
import Verif.Props.PcgProgramIlu
import Verif.PcgProgramOpt
import Verif.Props.PcgProgramOpt
import Verif.Prepare
import Verif.Props.Prepare
