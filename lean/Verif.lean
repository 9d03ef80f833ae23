import Verif.Cells.CellProps
import Verif.Cells.ConvertLemmas
import Verif.Cells.ConvertProps
import Verif.Cells.Lemmas
import Verif.Cells.Model
import Verif.Cells.ObstructionProps
import Verif.Clocking.Lemmas
import Verif.Clocking.Model
import Verif.Clocking.MoreProps
import Verif.Clocking.Props
import Verif.Clocking.Sync
import Verif.Clocking.SyncProps
import Verif.Coordinates.Iteration
import Verif.Coordinates.Lemmas
import Verif.Coordinates.Model
import Verif.Coordinates.Props
import Verif.Coordinates.Span
import Verif.Defects.Analysis
import Verif.Defects.AnalysisFacts
import Verif.Defects.AnalysisProps
import Verif.Defects.Reader
import Verif.Defects.ReaderFacts
import Verif.Defects.ReaderProps
import Verif.Defects.ReaderSpec
import Verif.Defects.Surface
import Verif.Defects.SurfaceProps
import Verif.GateLevel.ConstFn
import Verif.GateLevel.CrossingProps
import Verif.GateLevel.EnumProps
import Verif.GateLevel.FlowProps
import Verif.GateLevel.IoProps
import Verif.GateLevel.Lemmas
import Verif.GateLevel.Model
import Verif.GateLevel.Props
import Verif.Graphs.Coloring
import Verif.Graphs.ColoringFacts
import Verif.Graphs.ColoringProps
import Verif.Graphs.ColoringSpec
import Verif.Graphs.SearchFacts
import Verif.Io.Csv
import Verif.Io.CsvProps
import Verif.Io.DomainCsv
import Verif.Io.DomainCsvProps
import Verif.Io.Fgl
import Verif.Io.FglClock
import Verif.Io.FglLemmas
import Verif.Io.FglLoop
import Verif.Io.FglProps
import Verif.Io.FglSpec
import Verif.Io.FglWitness
import Verif.Io.Fqca
import Verif.Io.FqcaLemmas
import Verif.Io.FqcaProps
import Verif.Io.FqcaSpec
import Verif.Io.GroundText
import Verif.Io.GroundTextProps
import Verif.Io.Magnets
import Verif.Io.MagnetsProps
import Verif.Io.NetReader
import Verif.Io.NetReaderProps
import Verif.Io.Qcc
import Verif.Io.QccProps
import Verif.Io.Qll
import Verif.Io.QllInml
import Verif.Io.QllInmlProps
import Verif.Io.QllProps
import Verif.Io.Sqd
import Verif.Io.SqdEffect
import Verif.Io.SqdFacts
import Verif.Io.SqdParse
import Verif.Io.SqdProps
import Verif.Io.SqdResult
import Verif.Io.SqdResultProps
import Verif.Io.SqdSpec
import Verif.Io.TtReader
import Verif.Io.TtReaderProps
import Verif.Iter.AspectProps
import Verif.Iter.BdlProps
import Verif.Iter.CombProps
import Verif.Iter.GrayProps
import Verif.Iter.Model
import Verif.Layouts.BoundingBox
import Verif.Layouts.BoundingBoxProps
import Verif.Layouts.CartesianProps
import Verif.Layouts.HexLemmas
import Verif.Layouts.HexProps
import Verif.Layouts.Model
import Verif.Library.Apply
import Verif.Library.ApplyLemmas
import Verif.Library.ApplyProps
import Verif.Library.ApplyQcaProps
import Verif.Library.Bestagon
import Verif.Library.BestagonProps
import Verif.Library.Model
import Verif.Library.Props
import Verif.Library.QcaOne
import Verif.Library.QcaOneLemmas
import Verif.Library.QcaOneProps
import Verif.Library.Sim7
import Verif.Library.Sim7Lemmas
import Verif.Library.Sim7Props
import Verif.Library.Tile
import Verif.Library.TileLemmas
import Verif.Networks.BalanceLemmas
import Verif.Networks.BalanceProps
import Verif.Networks.BfsProps
import Verif.Networks.Check
import Verif.Networks.ConvertProps
import Verif.Networks.CopyLemmas
import Verif.Networks.DepthProps
import Verif.Networks.DepthSpec
import Verif.Networks.FanoutBound
import Verif.Networks.FanoutCap
import Verif.Networks.FanoutFun
import Verif.Networks.FanoutOrigin
import Verif.Networks.FanoutProps
import Verif.Networks.FanoutTree
import Verif.Networks.FanoutWF
import Verif.Networks.GateCount
import Verif.Networks.GateCountProps
import Verif.Networks.InvLevelProps
import Verif.Networks.Lemmas
import Verif.Networks.Mincross
import Verif.Networks.MincrossCount
import Verif.Networks.MincrossFacts
import Verif.Networks.MincrossProps
import Verif.Networks.MincrossSpec
import Verif.Networks.Model
import Verif.Networks.Names
import Verif.Networks.NamesProps
import Verif.Networks.RankProps
import Verif.Networks.SubstitutePo
import Verif.Networks.TechLibrary
import Verif.Networks.TechLibraryProps
import Verif.Networks.Views
import Verif.Networks.VirtualPiProps
import Verif.OpDomain.Contour
import Verif.OpDomain.ContourLemmas
import Verif.OpDomain.ContourProps
import Verif.OpDomain.ContourSpec
import Verif.OpDomain.Curve
import Verif.OpDomain.CurveRun
import Verif.OpDomain.Flood
import Verif.OpDomain.FloodRun
import Verif.OpDomain.Grid
import Verif.OpDomain.Model
import Verif.OpDomain.Parallel
import Verif.OpDomain.Props
import Verif.OpDomain.Spec
import Verif.OpDomain.Surface
import Verif.OpDomain.SurfaceRun
import Verif.Optimization.Annealing
import Verif.Optimization.AnnealingProps
import Verif.Optimization.Relocate
import Verif.Optimization.RelocateProps
import Verif.Optimization.Wiring
import Verif.Optimization.WiringCross
import Verif.Optimization.WiringCrossProps
import Verif.Optimization.WiringLemmas
import Verif.Optimization.WiringProps
import Verif.Optimization.WiringSignals
import Verif.Paths.DistMap
import Verif.Paths.DistMapProps
import Verif.Paths.DistanceProps
import Verif.Paths.EnumProps
import Verif.Paths.Heap
import Verif.Paths.Lemmas
import Verif.Paths.Model
import Verif.Paths.Optimal
import Verif.Paths.OptimalProps
import Verif.Paths.Props
import Verif.Paths.Yen
import Verif.Paths.YenLemmas
import Verif.Paths.YenProps
import Verif.Paths.YenSpec
import Verif.PhysicalDesign.ColorRouting
import Verif.PhysicalDesign.ColorRoutingFacts
import Verif.PhysicalDesign.ColorRoutingProps
import Verif.PhysicalDesign.ColorRoutingRun
import Verif.PhysicalDesign.ColorRoutingSelect
import Verif.PhysicalDesign.ColorRoutingSpec
import Verif.PhysicalDesign.ColorRoutingWire
import Verif.PhysicalDesign.Exact
import Verif.PhysicalDesign.ExactClocked
import Verif.PhysicalDesign.ExactFacts
import Verif.PhysicalDesign.ExactInv
import Verif.PhysicalDesign.ExactMain
import Verif.PhysicalDesign.ExactProps
import Verif.PhysicalDesign.ExactSearch
import Verif.PhysicalDesign.ExactSearchFacts
import Verif.PhysicalDesign.ExactSearchProps
import Verif.PhysicalDesign.ExactSem
import Verif.PhysicalDesign.Gold
import Verif.PhysicalDesign.GoldCompose
import Verif.PhysicalDesign.GoldCongr
import Verif.PhysicalDesign.GoldInv
import Verif.PhysicalDesign.GoldOrder
import Verif.PhysicalDesign.GoldPath
import Verif.PhysicalDesign.GoldProps
import Verif.PhysicalDesign.GoldStep
import Verif.PhysicalDesign.GoldWire
import Verif.PhysicalDesign.HexaBuild
import Verif.PhysicalDesign.HexaGeo
import Verif.PhysicalDesign.HexaProps
import Verif.PhysicalDesign.HexaSem
import Verif.PhysicalDesign.HexaSpec
import Verif.PhysicalDesign.Hexagonalization
import Verif.PhysicalDesign.LayoutFn
import Verif.PhysicalDesign.OrthoColor
import Verif.PhysicalDesign.OrthoCompose
import Verif.PhysicalDesign.OrthoGeo
import Verif.PhysicalDesign.OrthoHexa
import Verif.PhysicalDesign.OrthoInv
import Verif.PhysicalDesign.OrthoMain
import Verif.PhysicalDesign.OrthoPi
import Verif.PhysicalDesign.OrthoProps
import Verif.PhysicalDesign.OrthoSem
import Verif.PhysicalDesign.OrthoSpec
import Verif.PhysicalDesign.OrthoStep
import Verif.PhysicalDesign.OrthoWire
import Verif.PhysicalDesign.Orthogonal
import Verif.Properties.CritPath
import Verif.Properties.CritPathLemmas
import Verif.Properties.CritPathProps
import Verif.Properties.DetClock
import Verif.Properties.DetClockProps
import Verif.Properties.Drv
import Verif.Properties.DrvProps
import Verif.Properties.Equiv
import Verif.Properties.EquivProps
import Verif.Sidb.AgreeProps
import Verif.Sidb.ChargeText
import Verif.Sidb.ChargeTextProps
import Verif.Sidb.ClusterCompleteProps
import Verif.Sidb.Energy
import Verif.Sidb.EnergyDistProps
import Verif.Sidb.ExgsLemmas
import Verif.Sidb.ExgsProps
import Verif.Sidb.ForcedProps
import Verif.Sidb.GrayLemmas
import Verif.Sidb.Gss
import Verif.Sidb.GssInv
import Verif.Sidb.GssMerge
import Verif.Sidb.GssOrder
import Verif.Sidb.GssProps
import Verif.Sidb.GssPrune
import Verif.Sidb.GssResults
import Verif.Sidb.GssRun
import Verif.Sidb.GssTree
import Verif.Sidb.GssUnfold
import Verif.Sidb.GssWitness
import Verif.Sidb.IncrementalProps
import Verif.Sidb.IndexLemmas
import Verif.Sidb.IndexProps
import Verif.Sidb.Model
import Verif.Sidb.PotLemmas
import Verif.Sidb.QuickLemmas
import Verif.Sidb.QuickProps
import Verif.Sidb.QuickSimProps
import Verif.Sidb.ReduceLemmas
import Verif.Sidb.Spec
import Verif.Sidb.Steal
import Verif.Sidb.StealInv
import Verif.Sidb.StealProps
import Verif.Sidb.StealRun
import Verif.Sidb.StealVal
import Verif.Sidb.StepLemmas
import Verif.Sidb.ThreeLemmas
import Verif.Sidb.ThreeModel
import Verif.Sidb.ThreeProps
import Verif.SidbAnalysis.Bdl
import Verif.SidbAnalysis.BdlLemmas
import Verif.SidbAnalysis.BdlProps
import Verif.SidbAnalysis.BdlSpec
import Verif.SidbAnalysis.Displacement
import Verif.SidbAnalysis.DisplacementProps
import Verif.SidbAnalysis.Distance
import Verif.SidbAnalysis.DistanceProps
import Verif.SidbAnalysis.Influence
import Verif.SidbAnalysis.InfluenceProps
import Verif.SidbAnalysis.Operational
import Verif.SidbAnalysis.OperationalLemmas
import Verif.SidbAnalysis.OperationalProps
import Verif.SidbAnalysis.OperationalSpec
import Verif.SidbAnalysis.Results
import Verif.SidbAnalysis.ResultsProps
import Verif.SidbAnalysis.Stability
import Verif.SidbAnalysis.StabilityProps
import Verif.SidbAnalysis.Temperature
import Verif.SidbAnalysis.TemperatureLemmas
import Verif.SidbAnalysis.TemperatureProps
import Verif.SidbAnalysis.TimeToSolution
import Verif.SidbAnalysis.TimeToSolutionProps
import Verif.SidbDesign.Design
import Verif.SidbDesign.DesignFacts
import Verif.SidbDesign.DesignProps
import Verif.SidbDesign.DesignSpec
import Verif.SidbDesign.Impossible
import Verif.SidbDesign.ImpossibleProps
import Verif.SidbDesign.OnTheFly
import Verif.SidbDesign.OnTheFlyProps
import Verif.SidbDesign.PoolFacts
import Verif.SidbDesign.Random
import Verif.SidbDesign.RandomFacts
import Verif.SidbDesign.RandomProps
import Verif.Technology.Area
import Verif.Technology.AreaProps
import Verif.TruthTables.Model
import Verif.TruthTables.Props
