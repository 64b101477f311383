import Verif.Spec.Index
import Verif.Model.Basic
import Verif.Model.Layout
import Verif.Model.Strides
import Verif.Lemmas.Index
import Verif.Lemmas.Strides
import Verif.Props.Addressing
import Verif.Props.Indexing
import Verif.Spec.Broadcast
import Verif.Model.Broadcast
import Verif.Lemmas.Broadcast
import Verif.Props.Broadcast
import Verif.Props.Layout
import Verif.Model.Container
import Verif.Props.Container
import Verif.Spec.Slice
import Verif.Model.Slice
import Verif.Props.Slice
import Verif.Spec.View
import Verif.Model.View
import Verif.Lemmas.View
import Verif.Props.View
import Verif.Props.ViewCompose
import Verif.Spec.StridedView
import Verif.Model.StridedView
import Verif.Props.StridedView
import Verif.Model.Stepper
import Verif.Model.Expr
import Verif.Spec.Expr
import Verif.Lemmas.Stepper
import Verif.Props.Iterator
import Verif.Props.ExprIter
import Verif.Model.Assign
import Verif.Spec.Assign
import Verif.Lemmas.Assign
import Verif.Lemmas.AssignLoops
import Verif.Lemmas.AssignStrided
import Verif.Props.Assign
import Verif.Model.Semantic
import Verif.Props.AssignAlias
import Verif.Spec.Reducer
import Verif.Model.Reducer
import Verif.Lemmas.Reducer
import Verif.Props.Reducer
import Verif.Model.ReduceImmediate
import Verif.Lemmas.ReduceImmediate
import Verif.Lemmas.ReduceImmediateCore
import Verif.Lemmas.ReduceImmediateMain
import Verif.Props.ReduceImmediate
import Verif.Spec.Accumulator
import Verif.Spec.Manip
import Verif.Model.Accumulator
import Verif.Model.Manip
import Verif.Props.Accumulator
import Verif.Props.Manip
import Verif.Props.Flip
import Verif.Props.ManipShape
import Verif.Spec.Builder
import Verif.Model.Builder
import Verif.Props.Builder
import Verif.Props.Concat
import Verif.Props.Diag
import Verif.Spec.Sort
import Verif.Model.Sort
import Verif.Lemmas.Sort
import Verif.Props.Sort
import Verif.Props.Partition
import Verif.Props.ArgExtremum
import Verif.Spec.SetOps
import Verif.Model.SetOps
import Verif.Model.Histogram
import Verif.Props.SetOps
import Verif.Props.Histogram
import Verif.Spec.Pad
import Verif.Model.Pad
import Verif.Model.Repeat
import Verif.Lemmas.Region
import Verif.Props.Pad
import Verif.Props.Tile
import Verif.Props.Repeat
import Verif.Spec.Chunked
import Verif.Model.Chunked
import Verif.Props.Chunked
import Verif.Props.ChunkIter
import Verif.Spec.Npy
import Verif.Model.Npy
import Verif.Props.Npy
import Verif.Spec.Svector
import Verif.Model.Svector
import Verif.Props.Svector
import Verif.Spec.Machine
import Verif.Model.Machine
import Verif.Props.Machine
import Verif.Model.Cache
import Verif.Props.Cache
import Verif.Spec.Optional
import Verif.Model.Optional
import Verif.Props.Optional
import Verif.Model.ViewStepper
import Verif.Props.ViewStepper
import Verif.Model.IndexView
import Verif.Props.IndexView
import Verif.Model.AxisIter
import Verif.Props.AxisIter
import Verif.Model.Fft
import Verif.Lemmas.Fft
import Verif.Props.Fft
import Verif.Model.Random
import Verif.Props.Random
import Verif.Model.Quantile
import Verif.Spec.Quantile
import Verif.Props.Quantile
import Verif.Model.Stats
import Verif.Spec.Stats
import Verif.Props.Stats
import Verif.Model.Numeric
import Verif.Spec.Numeric
import Verif.Props.Numeric
import Verif.Props.NumericSeq
import Verif.Model.Blockwise
import Verif.Spec.Norms
import Verif.Lemmas.Blockwise
import Verif.Props.Blockwise
import Verif.Model.Csv
import Verif.Spec.Csv
import Verif.Props.Csv
import Verif.Model.Json
import Verif.Spec.Json
import Verif.Props.Json
import Verif.Model.Storage
import Verif.Spec.Storage
import Verif.Lemmas.Storage
import Verif.Props.Storage
import Verif.Model.Print
import Verif.Spec.Print
import Verif.Props.Print
import Verif.Props.NumericArgs
import Verif.Model.Norms
import Verif.Spec.NormsReal
import Verif.Props.Norms
import Verif.Model.DynamicView
import Verif.Props.DynamicView
import Verif.Spec.Braces
import Verif.Model.Braces
import Verif.Props.Braces
import Verif.Model.Fixed
import Verif.Props.Fixed
import Verif.Model.Functor
import Verif.Props.Functor
import Verif.Model.Special
import Verif.Props.Special
import Verif.Model.Adapt
import Verif.Props.Adapt
import Verif.Model.Assembly
import Verif.Props.Assembly
import Verif.Model.ContigView
import Verif.Props.ContigView
import Verif.Model.FunIter
import Verif.Props.FunIter
import Verif.Model.Masked
import Verif.Props.Masked
import Verif.Model.Lifetime
import Verif.Props.Lifetime
import Verif.Model.IndexLists
import Verif.Props.IndexLists
import Verif.Model.Sharing
import Verif.Props.Sharing
import Verif.Model.Holder
import Verif.Props.Holder
import Verif.Model.Ravel
import Verif.Props.Ravel
import Verif.Model.Program
import Verif.Spec.Program
import Verif.Lemmas.Program
import Verif.Props.Program
import Verif.Model.Compare
import Verif.Props.Compare
import Verif.Props.Laws
import Verif.Props.LawsOrder
import Verif.Model.RowCol
import Verif.Props.ViewsAgree
import Verif.Model.CountNonzero
import Verif.Props.StatsAgree
import Verif.Model.HistogramCalls
import Verif.Props.HistogramCalls
import Verif.Model.IntArith
import Verif.Props.IntArith
import Verif.Props.IntReduce
import Verif.Model.Argpartition
import Verif.Props.Argpartition
import Verif.Model.RandomExpr
import Verif.Spec.RandomExpr
import Verif.Props.RandomExpr
import Verif.Props.LawsResize
import Verif.Props.StorageFail
import Verif.Props.GenReshape
import Verif.Model.Threads
import Verif.Props.Threads
import Verif.Model.AssignFail
import Verif.Props.AssignFail
import Verif.Model.StaticShape
import Verif.Spec.StaticShape
import Verif.Props.StaticShape
import Verif.Model.Temporary
import Verif.Props.Temporary
import Verif.Spec.SvectorHeap
import Verif.Model.SvectorHeap
import Verif.Props.SvectorHeap
import Verif.Props.SvectorHeapAlloc
import Verif.Spec.Moved
import Verif.Model.Moved
import Verif.Props.Moved
import Verif.Spec.KeptView
import Verif.Model.KeptView
import Verif.Props.KeptView
import Verif.Spec.SelectLayout
import Verif.Model.SelectLayout
import Verif.Props.SelectLayout
import Verif.Model.TensorAssign
import Verif.Props.TensorAssign
import Verif.Props.TensorOp
import Verif.Model.TensorReshape
import Verif.Props.TensorReshape
import Verif.Props.SliceRefusal
import Verif.Model.FrontBack
import Verif.Props.FrontBack
import Verif.Model.ElementWays
import Verif.Props.ElementWays
