import Verif.Lemmas.AABB
import Verif.Lemmas.Appr
import Verif.Lemmas.BitSet
import Verif.Lemmas.BitSetIter
import Verif.Lemmas.BlockedArray2
import Verif.Lemmas.BulkMerge
import Verif.Lemmas.CircumFP
import Verif.Lemmas.CircumFP3
import Verif.Lemmas.Conc
import Verif.Lemmas.ConcBitSet
import Verif.Lemmas.ConcMap
import Verif.Lemmas.ConcMultiMap
import Verif.Lemmas.ConcSet
import Verif.Lemmas.DCFaces
import Verif.Lemmas.DelaunayMerge
import Verif.Lemmas.Diff4
import Verif.Lemmas.EFT
import Verif.Lemmas.EdgeLoop
import Verif.Lemmas.EdgeSolo
import Verif.Lemmas.Estimate
import Verif.Lemmas.Expansion
import Verif.Lemmas.FP
import Verif.Lemmas.Filter
import Verif.Lemmas.Growing
import Verif.Lemmas.GrowingItems
import Verif.Lemmas.GrowingLen
import Verif.Lemmas.GrowingMM
import Verif.Lemmas.GrowingMap
import Verif.Lemmas.GrowingSerial
import Verif.Lemmas.GrowingSolo
import Verif.Lemmas.GrowingStep
import Verif.Lemmas.GrowingTables
import Verif.Lemmas.GrowingTimely
import Verif.Lemmas.IEEE
import Verif.Lemmas.InSimplexFP
import Verif.Lemmas.InSimplexFP3
import Verif.Lemmas.Insphere2
import Verif.Lemmas.Insphere2Exact
import Verif.Lemmas.Insphere3
import Verif.Lemmas.Insphere3Exact
import Verif.Lemmas.Insphere3Sign
import Verif.Lemmas.Json
import Verif.Lemmas.KernelRfl
import Verif.Lemmas.LocalDelaunay
import Verif.Lemmas.LpMap
import Verif.Lemmas.LpMultiMap
import Verif.Lemmas.LpSet
import Verif.Lemmas.MachineLen
import Verif.Lemmas.Migrate
import Verif.Lemmas.MigrateMM
import Verif.Lemmas.MigrateMap
import Verif.Lemmas.MustGrow
import Verif.Lemmas.MustGrowSet
import Verif.Lemmas.Orient2
import Verif.Lemmas.Orient3
import Verif.Lemmas.Orient3Exact
import Verif.Lemmas.Perturb
import Verif.Lemmas.Popcount32
import Verif.Lemmas.Probe
import Verif.Lemmas.Range
import Verif.Lemmas.RangeExp
import Verif.Lemmas.RangeInsphere2
import Verif.Lemmas.RangeInsphere3
import Verif.Lemmas.RangeOrient2
import Verif.Lemmas.RangeOrient3
import Verif.Lemmas.Scale
import Verif.Lemmas.Tight
import Verif.Lemmas.Wedge
import Verif.Lemmas.Work
import Verif.Model.AccurateLife
import Verif.Model.Bench
import Verif.Model.BitSet
import Verif.Model.BitSetBack
import Verif.Model.BlockedArray2
import Verif.Model.BoundsRace
import Verif.Model.Box
import Verif.Model.BoxEst
import Verif.Model.BulkMerge
import Verif.Model.CircumFP
import Verif.Model.Classify
import Verif.Model.Collect
import Verif.Model.Compress
import Verif.Model.Conc
import Verif.Model.ConcBitSet
import Verif.Model.ConcMap
import Verif.Model.ConcMultiMap
import Verif.Model.ConcSet
import Verif.Model.Container
import Verif.Model.Convert
import Verif.Model.ConvertEdges
import Verif.Model.Copy
import Verif.Model.Counter
import Verif.Model.DC
import Verif.Model.DCTri
import Verif.Model.Distribute
import Verif.Model.Draw
import Verif.Model.Dump
import Verif.Model.EdgeLoop
import Verif.Model.ExactTests
import Verif.Model.Expansion
import Verif.Model.ExpansionSums
import Verif.Model.FP
import Verif.Model.FesArr
import Verif.Model.Gen
import Verif.Model.GeomCore
import Verif.Model.GraphFile
import Verif.Model.Grid
import Verif.Model.Growing
import Verif.Model.GrowingMM
import Verif.Model.GrowingMap
import Verif.Model.GrowingSize
import Verif.Model.HashIter
import Verif.Model.IEEE
import Verif.Model.InSimplexFP
import Verif.Model.IndexHandler
import Verif.Model.Insphere2
import Verif.Model.Insphere3
import Verif.Model.LB
import Verif.Model.Leaf
import Verif.Model.LinearSum
import Verif.Model.Load
import Verif.Model.Locate
import Verif.Model.LogIndent
import Verif.Model.LogLevel
import Verif.Model.LpMap
import Verif.Model.LpMultiMap
import Verif.Model.LpSet
import Verif.Model.Machine
import Verif.Model.MakeIds
import Verif.Model.MapMerge
import Verif.Model.MapRaw
import Verif.Model.Migrate
import Verif.Model.MigrateMM
import Verif.Model.MigrateMap
import Verif.Model.Misc
import Verif.Model.MultiMapMerge
import Verif.Model.Options
import Verif.Model.Orient2
import Verif.Model.Orient3
import Verif.Model.PTree
import Verif.Model.Paint
import Verif.Model.Partitioner
import Verif.Model.Profiler
import Verif.Model.Progress
import Verif.Model.Provenance
import Verif.Model.Report
import Verif.Model.Res
import Verif.Model.Run
import Verif.Model.Sample
import Verif.Model.SampleLoop
import Verif.Model.Sampler
import Verif.Model.Simplex
import Verif.Model.SimplexQuery
import Verif.Model.SlowTests
import Verif.Model.TreeCopy
import Verif.Model.Verify
import Verif.Model.Work
import Verif.Props.AccurateLife
import Verif.Props.Arrays
import Verif.Props.Bench
import Verif.Props.BenchRun
import Verif.Props.BitSet
import Verif.Props.BitSetBack
import Verif.Props.BlockedArray2
import Verif.Props.BoundsRace
import Verif.Props.Box
import Verif.Props.BoxEst
import Verif.Props.BulkMerge
import Verif.Props.CircumFP
import Verif.Props.Classify
import Verif.Props.Collect
import Verif.Props.Compress
import Verif.Props.ConcBitSet
import Verif.Props.ConcMap
import Verif.Props.ConcMultiMap
import Verif.Props.ConcSet
import Verif.Props.Construct
import Verif.Props.Container
import Verif.Props.Convert
import Verif.Props.ConvertEdges
import Verif.Props.Copy
import Verif.Props.Count
import Verif.Props.Counter
import Verif.Props.CrossCheck
import Verif.Props.DCSplit
import Verif.Props.Delaunay
import Verif.Props.Distribute
import Verif.Props.DivideConquer
import Verif.Props.Draw
import Verif.Props.Dump
import Verif.Props.EFT
import Verif.Props.Edge
import Verif.Props.EdgeExists
import Verif.Props.EdgeLoop
import Verif.Props.EdgeMapSize
import Verif.Props.EdgeTriangulate
import Verif.Props.ExactTests
import Verif.Props.Expansion
import Verif.Props.ExpansionSums
import Verif.Props.FesArr
import Verif.Props.Fingerprint
import Verif.Props.Gen
import Verif.Props.GenBubble
import Verif.Props.GenCenter
import Verif.Props.GenLB
import Verif.Props.GeomCore
import Verif.Props.GraphFile
import Verif.Props.Grid
import Verif.Props.Growing
import Verif.Props.GrowingMM
import Verif.Props.GrowingMap
import Verif.Props.GrowingSize
import Verif.Props.GrowingSolo
import Verif.Props.GrowingTimely
import Verif.Props.HashIter
import Verif.Props.HashMap
import Verif.Props.HashMultiMap
import Verif.Props.HashSet
import Verif.Props.Hidden
import Verif.Props.HiddenSample
import Verif.Props.IEEE
import Verif.Props.InSimplexFP
import Verif.Props.IndexHandler
import Verif.Props.IndexSize
import Verif.Props.Insphere2
import Verif.Props.Insphere3
import Verif.Props.KWay
import Verif.Props.LB
import Verif.Props.LBBuild
import Verif.Props.LBRun
import Verif.Props.LBTree
import Verif.Props.Leaf
import Verif.Props.LinearSum
import Verif.Props.Load
import Verif.Props.Locate
import Verif.Props.LogIndent
import Verif.Props.LogLevel
import Verif.Props.MakeIds
import Verif.Props.MapMerge
import Verif.Props.MapRaw
import Verif.Props.Mapper
import Verif.Props.Merge
import Verif.Props.Migrate
import Verif.Props.MigrateMM
import Verif.Props.MigrateMap
import Verif.Props.Misc
import Verif.Props.MultiMapMerge
import Verif.Props.Neighbors
import Verif.Props.Options
import Verif.Props.Orient2
import Verif.Props.Orient3
import Verif.Props.PTree
import Verif.Props.PTreeBuild
import Verif.Props.Paint
import Verif.Props.Partitioner
import Verif.Props.Profiler
import Verif.Props.Progress
import Verif.Props.Provenance
import Verif.Props.Report
import Verif.Props.Run
import Verif.Props.Sample
import Verif.Props.SampleGraph
import Verif.Props.SampleGraphAll
import Verif.Props.SampleGraphPar
import Verif.Props.SampleGraphSort
import Verif.Props.SampleLoop
import Verif.Props.SampleTree
import Verif.Props.ScaleGap
import Verif.Props.Simplex
import Verif.Props.SimplexQuery
import Verif.Props.SlowTests
import Verif.Props.TreeChk
import Verif.Props.TreeCopy
import Verif.Props.Triangulate
import Verif.Props.Verify
import Verif.Props.WhereUsed
import Verif.Spec.ConcSet
import Verif.Spec.Delaunay
import Verif.Spec.Euclid
import Verif.Spec.Growing
import Verif.Spec.Json
