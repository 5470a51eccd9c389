import Verif.SPSC.ConcProps
import Verif.SPSC.SeqProps
import Verif.SPSC.Storage
import Verif.SPSC.StorageProps
import Verif.Array.Props
import Verif.Array.ClassProps
import Verif.Array.CostProps
import Verif.Array.ThrowProps
import Verif.Array.PointersProps
import Verif.Array.Iterator
import Verif.Array.IteratorProps
import Verif.Math.VectorProps
import Verif.Math.Subscript
import Verif.Math.SubscriptProps
import Verif.Math.MatrixProps
import Verif.Math.TransformProps
import Verif.Math.ProjectionProps
import Verif.Math.RoundingProps
import Verif.Math.RoundingMoreProps
import Verif.LinkedList.Props
import Verif.LinkedList.LeakProps
import Verif.LinkedList.CostProps
import Verif.LinkedList.Iterator
import Verif.LinkedList.IteratorProps
import Verif.Heap.Props
import Verif.Heap.Clients
import Verif.Heap.ClientsProps
import Verif.Heap.Paths
import Verif.Heap.PathsProps
import Verif.Heap.Oracle
import Verif.Heap.OracleProps
import Verif.Heap.Stored
import Verif.Heap.StoredProps
import Verif.Array.SinglePass
import Verif.Array.SinglePassProps
import Verif.Array.Sizes
import Verif.Array.SizesProps
import Verif.Alloc.Model
import Verif.Alloc.Props
import Verif.Headers.Model
import Verif.Headers.Props
import Verif.Math.IeeeBoundProps
import Verif.Alloc.ListProps
import Verif.Math.IeeeProjectionProps
import Verif.SPSC.ObserverProps
import Verif.SPSC.CapacityProps
import Verif.SPSC.ConcThrowProps
import Verif.SPSC.SyncProps
import Verif.Math.BoolVectorProps
import Verif.Math.FloatMixed
import Verif.Math.FloatMixedProps
import Verif.Math.IntNarrowProps
import Verif.Math.InverseTrigProps
import Verif.Array.OwnRangeProps
import Verif.Tuple.Make
import Verif.Tuple.MakeProps
import Verif.Tuple.CompareThrow
import Verif.Tuple.CompareThrowProps
import Verif.Algo.FindProps
import Verif.Algo.ReverseProps
import Verif.Algo.Pointers
import Verif.Algo.PointersProps
import Verif.Algo.Builds
import Verif.Algo.BuildsProps
import Verif.Algo.Throwing
import Verif.Algo.ThrowingProps
import Verif.Algo.Clients
import Verif.Algo.ClientsProps
import Verif.Functional.DelegateProps
import Verif.Functional.Clients
import Verif.Functional.ClientsProps
import Verif.Functional.DelegateAddress
import Verif.Functional.DelegateAddressProps
import Verif.Functional.DelegateThrow
import Verif.Functional.DelegateThrowProps
import Verif.Functional.BindThrow
import Verif.Functional.BindThrowProps
import Verif.Tuple.Props
import Verif.Tuple.Category
import Verif.Tuple.CategoryProps
import Verif.Functional.BindProps
import Verif.Functional.ScopedProps
import Verif.Functional.Undo
import Verif.Functional.UndoProps
import Verif.View.Props
import Verif.View.Construct
import Verif.View.ConstructProps
import Verif.View.Clients
import Verif.View.ClientsProps
import Verif.Core.ReverseIteratorProps
import Verif.Core.BitsProps
import Verif.Math.TrigonometryProps
import Verif.Math.ConstantsProps
import Verif.Math.ConstantsSeries
import Verif.Hal.SimdProps
import Verif.Hal.EnvProps
import Verif.Hal.SharedLibraryProps
import Verif.Hal.SharedLibraryExactProps
import Verif.Hal.Symbols
import Verif.Hal.SymbolsProps
import Verif.Hal.SymbolsExactProps
import Verif.Ranges.Props
import Verif.Math.IntVector
import Verif.Math.IntVectorLemmas
import Verif.Math.IntVectorProps
import Verif.Math.IntLengthProps
import Verif.Math.MixedVector
import Verif.Math.MixedVectorProps
import Verif.Math.Compare
import Verif.Math.CompareProps
import Verif.Core.ConstIterator
import Verif.Core.ConstIteratorProps
import Verif.AlignedData.Model
import Verif.AlignedData.Props
import Verif.AlignedData.Copy
import Verif.AlignedData.CopyProps
import Verif.AlignedData.Pool
import Verif.AlignedData.PoolProps
import Verif.Math.Ieee
import Verif.Math.IeeeLemmas
import Verif.Math.IeeeProps
import Verif.Math.IeeeRange
import Verif.Math.IeeeSelf
import Verif.Math.IeeeRangeProps
import Verif.Math.IeeeSpecialProps
import Verif.Math.IeeeAxisProps
import Verif.Core.TypesProps
import Verif.Functional.InitProps
import Verif.Container.InitProps
import Verif.Container.Require
import Verif.Container.RequireProps
import Verif.Container.Constness
import Verif.Container.ConstnessProps
import Verif.Container.Shared
import Verif.Container.SharedProps
import Verif.Math.Alias
import Verif.Math.AliasProps
import Verif.Math.Init
import Verif.Math.InitProps
import Verif.Math.Deduce
import Verif.Math.DeduceProps
import Verif.Tuple.TypesProps
import Verif.Math.IeeeDetProps
import Verif.Math.IeeeMatrixProps
import Verif.Math.Precision
import Verif.Math.PrecisionProps
import Verif.Math.RotateDriftProps
import Verif.Math.FloatLawsProps
import Verif.SPSC.Reenter
import Verif.SPSC.ReenterLemmas
import Verif.SPSC.ReenterProps
import Verif.Functional.DelegateNested
import Verif.Functional.DelegateNestedProps
import Verif.Math.LerpFloatProps
import Verif.Algo.FindClassProps
import Verif.Core.Adaptors
import Verif.Core.AdaptorsProps
import Verif.Tuple.Noexcept
import Verif.Tuple.NoexceptProps
import Verif.Math.VisibilityProps
import Verif.Math.WholeProps
import Verif.Math.LongRun
import Verif.Math.LongRunProps
import Verif.Math.Powers
import Verif.Math.PowersProps
import Verif.Math.Curves
import Verif.Math.CurvesProps
import Verif.Math.Areas
import Verif.Math.AreasProps
import Verif.Math.Frames
import Verif.Math.FramesProps
import Verif.Math.Rays
import Verif.Math.RaysProps
import Verif.SPSC.Explain
import Verif.SPSC.ExplainRun
import Verif.SPSC.ExplainProps
import Verif.Math.FitProps
import Verif.SPSC.Pipeline
import Verif.SPSC.PipelineProps
import Verif.LinkedList.Clients
import Verif.LinkedList.ClientsProps
import Verif.LinkedList.Lru
import Verif.LinkedList.LruProps
import Verif.LinkedList.Merge
import Verif.LinkedList.MergeProps
import Verif.Sorting
import Verif.Array.Clients
import Verif.Array.ClientsProps
import Verif.Array.MapClient
import Verif.Array.MapClientProps
import Verif.Array.SetsClient
import Verif.Array.SetsClientProps
import Verif.Array.Numbers
import Verif.Array.NumbersProps
import Verif.Hal.EnvClient
import Verif.Hal.EnvClientProps
import Verif.Hal.Plugins
import Verif.Hal.PluginsProps
import Verif.Array.Sieve
import Verif.Array.SieveProps
import Verif.Array.Postfix
import Verif.Array.PostfixProps
import Verif.Core.ConstRange
import Verif.Core.ConstRangeProps
