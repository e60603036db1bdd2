import Verif.TaskSys.Index
import Verif.Spmd.Props3
import Verif.Foreach.Props
import Verif.Foreach.ActiveProps
import Verif.Builtins.Saturating64
import Verif.Builtins.ScanProps
import Verif.Builtins.Perm
import Verif.Builtins.Aos
import Verif.Builtins.AtomicsLane
import Verif.Builtins.Div
import Verif.Builtins.MemOps
import Verif.Builtins.Half
import Verif.Builtins.Rng
import Verif.Builtins.RngPeriod
import Verif.TaskSys.SchedProps
import Verif.TaskSys.Fair
import Verif.TaskSys.FreeList
import Verif.TaskSys.Alloc
import Verif.TaskSys.ImplicitSync
import Verif.Util.EditDistance
import Verif.Ispcrt.RefCount
import Verif.Front.SymTab
import Verif.Front.Targets
import Verif.Front.Link
import Verif.Dispatch.Isa
import Verif.Dispatch.Dispatch
import Verif.Front.Types
import Verif.Front.Promote
import Verif.Front.Mangle
import Verif.Front.Overload
import Verif.Front.FoldFloat
import Verif.Front.FoldScalar
import Verif.Front.FoldExpr
import Verif.Front.Soa
import Verif.Spmd.Short
import Verif.Spmd.FnPtr
import Verif.Opt.Linear
import Verif.Opt.LinearExec
import Verif.Opt.LinearWrong
import Verif.Opt.LinearSound
import Verif.Builtins.Gather
import Verif.Builtins.GatherProps
import Verif.Opt.GatherToLoad
import Verif.Opt.Coalesce
import Verif.Opt.CoalesceProps
import Verif.Opt.Offsets
import Verif.Opt.OffsetsProps
import Verif.Opt.Average
import Verif.Opt.AverageProps
import Verif.Opt.ConstMask
import Verif.Opt.ConstMaskProps
import Verif.Builtins.AosNetsData
import Verif.Builtins.AosNets
import Verif.Builtins.AosNetsProps
import Verif.Opt.ShiftPass
import Verif.Builtins.BlendFns
import Verif.Opt.Blend
import Verif.Opt.BlendProps
import Verif.Front.Literal
import Verif.Front.LiteralProps
import Verif.Front.LiteralFloat
import Verif.Front.LiteralFloatProps
import Verif.Builtins.Print
import Verif.Builtins.PrintProps
import Verif.Builtins.PrintXe
import Verif.Builtins.PrintXeProps
import Verif.Ispcrt.MemPool
import Verif.Ispcrt.MemPoolProps
import Verif.Ispcrt.GpuQueue
import Verif.Ispcrt.GpuQueueInv
import Verif.Ispcrt.GpuQueueProps
import Verif.Builtins.Dot
import Verif.Builtins.DotProps
import Verif.Front.InitSpec
import Verif.Front.Init
import Verif.Front.InitProps
import Verif.Front.Header
import Verif.Front.HeaderProps
import Verif.Front.Stride
import Verif.Front.StrideProps
import Verif.Front.New
import Verif.Front.NewProps
import Verif.Front.Aggregate
import Verif.Front.AggregateProps
import Verif.Builtins.FloatBits
import Verif.Builtins.FloatBitsProps
import Verif.Builtins.FloatBitsFmod
import Verif.Builtins.Rounding
import Verif.Builtins.RoundingProps
import Verif.TaskSys.Args
import Verif.TaskSys.ArgsProps
import Verif.TaskSys.ThreadIndex
import Verif.Front.Intrinsics
import Verif.Front.IntrinsicsProps
import Verif.Front.Const
import Verif.Front.ConstProps
import Verif.Front.Once
import Verif.Front.OnceProps
import Verif.Front.OpAssign
import Verif.Front.OpAssignProps
import Verif.Front.PtrOps
import Verif.Front.PtrOpsProps
import Verif.Front.Swizzle
import Verif.Front.SwizzleProps
import Verif.Spmd.StoreMask
import Verif.Spmd.StoreMaskProof
import Verif.Spmd.StoreMaskProps
import Verif.Front.Declare
import Verif.Front.DeclareProps
import Verif.Util.Args
import Verif.Util.ArgsProps
import Verif.Front.Places
import Verif.Front.PlacesProps
import Verif.Front.IntConst
import Verif.Front.IntConstProps
import Verif.Front.Templates
import Verif.Front.TemplatesDeduce
import Verif.Front.TemplatesProps
import Verif.Front.Instances
import Verif.Front.InstancesProps
import Verif.Front.InstancesSpec
import Verif.Front.Redeclare
import Verif.Front.RedeclareProps
import Verif.Front.RedeclareSpec
import Verif.Opt.Element
import Verif.Opt.ElementProps
import Verif.Opt.ElementFirst
import Verif.Opt.ElementValid
import Verif.Opt.ElementSpec
import Verif.Dispatch.Globals
import Verif.Dispatch.GlobalsProps
import Verif.Dispatch.GlobalsSpec
import Verif.Spmd.Fuel
import Verif.Spmd.Terminate
import Verif.Spmd.Returns
import Verif.Spmd.PropsReturn
import Verif.Front.Export
import Verif.Front.ExportProps
import Verif.Builtins.MaskBits
import Verif.Builtins.MaskBitsProps
import Verif.Builtins.Reduce
import Verif.Builtins.ReduceProps
import Verif.Front.SrcPos
import Verif.Front.SrcPosProps
import Verif.Front.Registry
import Verif.Front.RegistryProps
import Verif.Builtins.BitCount
import Verif.Builtins.BitCountProps
import Verif.Front.OutFiles
import Verif.Front.OutFilesProps
import Verif.Front.Operators
import Verif.Front.OperatorsProps
import Verif.Builtins.ReduceEqual
import Verif.Opt.Scalarize
import Verif.Opt.ScalarizeProps
import Verif.Opt.AmxTile
import Verif.Opt.AmxTileProps
import Verif.Front.Ellipsis
import Verif.Front.EllipsisProps
import Verif.Front.Goto
import Verif.Front.GotoProps
import Verif.Front.Unmasked
import Verif.Front.UnmaskedProps
