import Verif.Model.Prim
import Verif.Model.Dlt
import Verif.Model.Traits
import Verif.Model.Iter
import Verif.Spec.Wire
import Verif.Spec.Header
import Verif.Spec.Layout
import Verif.Spec.Scan
import Verif.Spec.File
import Verif.Lemmas.Parse
import Verif.Lemmas.Find
import Verif.Lemmas.Iter
import Verif.Lemmas.Scan
import Verif.Lemmas.DltLaws
import Verif.Props.Parse
import Verif.Props.Header
import Verif.Props.Access
import Verif.Props.Dltit
import Verif.Props.Search
import Verif.Props.Contain
import Verif.Props.Partition
import Verif.Props.Grep
import Verif.Props.GrepCapture
import Verif.Model.OrdMap
import Verif.Model.Generator
import Verif.Model.Pull
import Verif.Model.Ripdlt
import Verif.Spec.Generator
import Verif.Props.Generator
import Verif.Props.Merge
import Verif.Spec.Histogram
import Verif.Spec.Stats
import Verif.Props.Stats
import Verif.Lemmas.Total
import Verif.Props.Lifecycle
import Verif.Props.Payload
import Verif.Props.Utf8
import Verif.Spec.Table
import Verif.Lemmas.Slices
import Verif.Lemmas.Par
import Verif.Props.Parallel
import Verif.Props.ParallelCount
import Verif.Model.Stdout
import Verif.Model.DdDlt
import Verif.Spec.DdDlt
import Verif.Lemmas.DdDlt
import Verif.Props.DdDlt
import Verif.Props.DdPartition
import Verif.Props.Bytes
import Verif.Model.Buffer
import Verif.Spec.Buffer
import Verif.Props.Buffer
import Verif.Model.Hello
import Verif.Spec.Hello
import Verif.Lemmas.Hello
import Verif.Props.Hello
import Verif.Model.Main
import Verif.Spec.Main
import Verif.Props.Main
import Verif.Spec.Cuts
import Verif.Props.PartitionExact
import Verif.Props.ParallelPrefix
import Verif.Model.TestStruct
import Verif.Props.Conformance
import Verif.Model.Cost
import Verif.Lemmas.Cost
import Verif.Props.Cost
import Verif.Props.Depth
import Verif.Props.Codes
import Verif.Props.Markers
import Verif.Model.FoldMut
import Verif.Props.FoldMut
import Verif.Spec.Contained
import Verif.Props.ContainExact
import Verif.Spec.GrepExact
import Verif.Props.GrepExact
import Verif.Model.Program
import Verif.Spec.Pipeline
import Verif.Props.Program
import Verif.Tools.RunFiles
import Verif.Props.Witness
import Verif.Props.DdExact
import Verif.Props.HelloExact
import Verif.Props.PartitionLoss
import Verif.Spec.Generic
import Verif.Props.GenericContain
import Verif.Props.GenericGrep
import Verif.Props.Generic
import Verif.Model.Print
import Verif.Spec.Text
import Verif.Lemmas.Text
import Verif.Props.Text
import Verif.Props.Truncate
import Verif.Spec.Alike
import Verif.Lemmas.Alike
import Verif.Spec.Footprint
import Verif.Props.Footprint
import Verif.Spec.EndToEnd
import Verif.Props.EndToEnd
import Verif.Model.Work
import Verif.Lemmas.Work
import Verif.Props.Work
import Verif.Props.RevAgain
import Verif.Lemmas.Effect
import Verif.Lemmas.EffectErase
import Verif.Spec.Effect
import Verif.Props.Effect
import Verif.Props.EffectMerge
import Verif.Props.PullLazy
import Verif.Props.Refuse
import Verif.Props.RefuseRip
import Verif.Props.Anywhere
import Verif.Props.Contract
import Verif.Props.Order
import Verif.Props.Consistent
import Verif.Props.Concat
import Verif.Props.ParallelGap
import Verif.Props.GroupbyExact
import Verif.Props.ParallelIff
import Verif.Props.GrepEnds
import Verif.Props.Follow
import Verif.Props.Extract
import Verif.Props.TestType
import Verif.Props.Pattern
import Verif.Props.PatternUse
import Verif.Props.PatternOrder
import Verif.Model.Build
import Verif.Spec.Build
import Verif.Lemmas.BuildIter
import Verif.Lemmas.BuildRun
import Verif.Lemmas.BuildText
import Verif.Props.Build
import Verif.Spec.Build32
import Verif.Props.Build32
import Verif.Model.BuildRev
import Verif.Props.BuildRev
import Verif.Spec.TestGen
import Verif.Props.TestGen
import Verif.Props.Listing
import Verif.Model.Process
import Verif.Lemmas.Process
import Verif.Spec.Listing
import Verif.Props.Process
import Verif.Model.Stack
import Verif.Lemmas.Stack
import Verif.Props.Stack
import Verif.Props.Exhausted
import Verif.Props.ProcessOn
import Verif.Spec.Spans
import Verif.Lemmas.Spans
import Verif.Props.MergeExact
import Verif.Spec.Equal
import Verif.Lemmas.Equal
import Verif.Props.Equal
import Verif.Spec.DdParallel
import Verif.Props.DdParallel
import Verif.Props.OneCore
import Verif.Props.MergeTwice
import Verif.Props.Laws
import Verif.Props.Damage
import Verif.Props.Restart
import Verif.Props.RefuseExact
import Verif.Props.RefuseProc
import Verif.Props.Oversized
import Verif.Props.ConcatList
import Verif.Props.OversizedPar
import Verif.Props.RawCount
import Verif.Model.PullEffect
import Verif.Lemmas.PullEffect
import Verif.Lemmas.PullErase
import Verif.Spec.PullEffect
import Verif.Props.PullEffect
import Verif.Model.AnyMarker
import Verif.Lemmas.AnyMarker
import Verif.Props.AnyMarker
import Verif.Model.AnyMarkerGrep
import Verif.Spec.AnyMarker
import Verif.Props.AnyMarkerGrep
import Verif.Props.Success
import Verif.Props.Periods
import Verif.Spec.AddUp
import Verif.Props.Sums
import Verif.Props.OversizedSums
import Verif.Model.RefusePar
import Verif.Lemmas.RefusePar
import Verif.Props.RefusePar
import Verif.Spec.Stdin
import Verif.Model.Stdin
import Verif.Lemmas.Stdin
import Verif.Props.Stdin
import Verif.Props.Mapped
import Verif.Props.MappedSearch
import Verif.Props.Held
import Verif.Props.ReportSize
import Verif.Props.PerEcu
import Verif.Props.Clock
import Verif.Props.Rename
import Verif.Props.ClockText
