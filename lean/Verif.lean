import Verif.Loop
import Verif.Glob
import Verif.GlobProps
import Verif.TextUtils
import Verif.TextProps
import Verif.Suppress
import Verif.SuppressProps
import Verif.SuppressFile
import Verif.UmbraRange
import Verif.UmbraRangeProps
import Verif.Shadow
import Verif.ShadowProps
import Verif.ShadowTables
import Verif.Umbra64
import Verif.Umbra64Props
import Verif.RedBlack
import Verif.RedBlackProps
import Verif.RedBlackBal
import Verif.RedBlackThms
import Verif.Regions
import Verif.RegionsProps
import Verif.Md5
import Verif.Md5Props
import Verif.Crc
import Verif.CrcProps
import Verif.CRun
import Verif.LibcMem
import Verif.LibcMemProps
import Verif.LibcStr
import Verif.LibcStrProps
import Verif.Mutator
import Verif.MutatorEnum
import Verif.MutatorProps
import Verif.Modules
import Verif.ModulesProps
import Verif.Callstack
import Verif.CallstackProps
import Verif.CallstackTable
import Verif.CallstackTableProps
import Verif.Errors
import Verif.ErrorsProps
import Verif.ErrorsLeak
import Verif.Alloc
import Verif.AllocInv
import Verif.AllocOps
import Verif.AllocFree
import Verif.AllocGet
import Verif.AllocTop
import Verif.AllocRun
import Verif.AllocProps
import Verif.AllocThms
import Verif.DelayFree
import Verif.DelayFreeProps
import Verif.DelayFreeRun
import Verif.DelayFreeThms
import Verif.LeakThms
import Verif.LeakRangeProps
import Verif.SymCacheReload
import Verif.SymCacheSafe
import Verif.Define
import Verif.DefineProps
import Verif.DefineSpec
import Verif.DefineMoves
import Verif.DefineShift
import Verif.DefineThms
import Verif.DefineAndOr
import Verif.DefineAndOrProps
import Verif.SymCacheReject
import Verif.MemRef
import Verif.MemRefProps
import Verif.MemRefThms
import Verif.MemRefStack
import Verif.MemRefAbort
import Verif.MemRefDword
import Verif.Stack
import Verif.StackProps
import Verif.StackThms
import Verif.HeapShadow
import Verif.HeapShadowProps
import Verif.HeapShadowThms
import Verif.HeapShadowDword
import Verif.Options
import Verif.OptionsProps
import Verif.OptionsThms
import Verif.OptionsMulti
import Verif.OptionsNum
import Verif.OptDeps
import Verif.OptDepsEqs
import Verif.OptDepsThms
import Verif.Pattern
import Verif.PatternProps
import Verif.PatternInv
import Verif.PatternThms
import Verif.SysArgs
import Verif.SysTable
import Verif.SysArgsProps
import Verif.SysArgsThms
import Verif.SysTableThms
import Verif.SysLinuxThms
import Verif.SysUnknown
import Verif.SysUnknownThms
import Verif.Umbra32
import Verif.Umbra32Inv
import Verif.Umbra32Put
import Verif.Umbra32Loop
import Verif.Umbra32Ops
import Verif.Umbra32Copy
import Verif.Umbra32Thms
import Verif.Umbra32Use
import Verif.EspFast
import Verif.EspFastRun
import Verif.EspFastLoop
import Verif.EspFastBlocks
import Verif.EspFastOuter
import Verif.EspFastEnds
import Verif.EspFastThms
import Verif.EspFastAnd
import Verif.EspFastPatch
import Verif.FastX86
import Verif.FastX86Run
import Verif.FastX86Pre
import Verif.FastX86Checks
import Verif.FastX86Stage
import Verif.FastX86Clear
import Verif.FastX86Dst
import Verif.FastX86Dst2
import Verif.FastX86Dst3
import Verif.FastX86Ext
import Verif.FastX86Prop
import Verif.FastX86Shape
import Verif.FastX86Reg
import Verif.FastX86Load
import Verif.FastX86Store
import Verif.FastX86Store2
import Verif.FastX86Zero
import Verif.FastX86Slow
import Verif.FastX86Thms
import Verif.FastX86Wrong
import Verif.FastX86Shift
import Verif.BlockChecks
import Verif.BlockChecksThms
import Verif.Spill
import Verif.SpillThms
import Verif.SpillFault
import Verif.SysFile
import Verif.SysFileThms
import Verif.MemLayout
import Verif.MemLayoutThms
import Verif.MemLayoutGrammar
import Verif.RegShadow
import Verif.RegShadowThms
import Verif.RegShadowMore
import Verif.HeapStat
import Verif.HeapStatSpread
import Verif.HeapStatAcct
import Verif.HeapStatRun
import Verif.HeapStatHist
import Verif.HeapStatThms
import Verif.Stale
import Verif.StaleSnap
import Verif.StaleStep
import Verif.StaleThms
import Verif.StaleRun
import Verif.DrFuzz
import Verif.DrFuzzThms
import Verif.DrFuzzMem
import Verif.DrFuzzMore
import Verif.DrFuzzFault
import Verif.FuzzDriver
import Verif.FuzzDriverThms
import Verif.FuzzDriverPass
import Verif.FuzzDriverProps
import Verif.FuzzDriverCorpus
import Verif.FuzzDriverCorpusRun
import Verif.FuzzDriverCorpusThms
import Verif.FuzzDriverCorpusSeq
import Verif.FuzzDriverWrong
import Verif.FuzzDriverMore
import Verif.HandleCheck
import Verif.HandleCheckThms
import Verif.HandleCheckSafe
import Verif.HandleCheckExact
import Verif.HandleCheckProps
import Verif.HandleCheckList
import Verif.GdiCheck
import Verif.GdiCheckThms
import Verif.GdiCheckProps
import Verif.GdiCheckWrong
import Verif.Wrap
import Verif.WrapThms
import Verif.WrapProps
import Verif.WrapRealloc
import Verif.WrapWrong
import Verif.FuzzTarget
import Verif.FuzzTargetThms
import Verif.FuzzTargetProps
import Verif.FuzzTargetWrong
import Verif.WrapNest
import Verif.WrapNestThms
import Verif.WrapNestProps
import Verif.WrapNestWrong
import Verif.SysReq
import Verif.SysReqThms
import Verif.SysReqProps
import Verif.Ltrace
import Verif.LtraceThms
import Verif.LtraceProps
import Verif.Mapping
import Verif.MappingThms
import Verif.MappingProps
import Verif.Strace
import Verif.StraceProps
import Verif.Transfer
import Verif.TransferProps
import Verif.Except
import Verif.ExceptProps
import Verif.Uninit
import Verif.UninitProps
import Verif.Walk
import Verif.WalkProps
import Verif.WalkLow
import Verif.Annot
import Verif.AnnotProps
import Verif.Target
import Verif.TargetProps
