import Verif.Model.Time
import Verif.Props.Time
import Verif.Model.Packing
import Verif.Props.Packing
import Verif.Model.Interval
import Verif.Props.Interval
import Verif.Model.ParetoSet
import Verif.Proofs.ParetoSet
import Verif.Props.ParetoSet
import Verif.Model.Dial
import Verif.Proofs.Dial
import Verif.Props.Dial
import Verif.Model.Dijkstra
import Verif.Proofs.Dijkstra
import Verif.Props.Dijkstra
import Verif.Model.StringStore
import Verif.Props.StringStore
import Verif.Model.CachedLookup
import Verif.Props.CachedLookup
import Verif.Model.Misc
import Verif.Props.Misc
import Verif.Model.Query
import Verif.Props.Query
import Verif.Model.TdFootpath
import Verif.Props.TdFootpath
import Verif.Model.Calendar
import Verif.Props.Calendar
import Verif.Model.SeqNumbers
import Verif.Props.SeqNumbers
import Verif.Model.Frequency
import Verif.Props.Frequency
import Verif.Model.Interpolate
import Verif.Props.Interpolate
import Verif.Model.LocalToUtc
import Verif.Props.LocalToUtc
import Verif.Model.Blocks
import Verif.Props.Blocks
import Verif.Model.RouteInsert
import Verif.Props.RouteInsert
import Verif.Model.Raptor
import Verif.Model.RaptorConcrete
import Verif.Spec.Journey
import Verif.Proofs.RaptorSound
import Verif.Proofs.RaptorScan
import Verif.Proofs.RaptorOpt
import Verif.Proofs.Earliest
import Verif.Spec.Network
import Verif.Proofs.NetRide
import Verif.Proofs.NetTame
import Verif.Proofs.NetJourney
import Verif.Props.RaptorDemo
import Verif.Props.Raptor
import Verif.Model.LbGraph
import Verif.Proofs.LbGraph
import Verif.Props.LbGraph
import Verif.Model.StartTimes
import Verif.Props.StartTimes
import Verif.Model.Search
import Verif.Proofs.SearchIv
import Verif.Proofs.SearchLoop
import Verif.Props.Search
import Verif.Model.RaptorAlgo
import Verif.Spec.EndToEnd
import Verif.Proofs.EndToEnd
import Verif.Proofs.EndToEndLoop
import Verif.Props.EndToEnd
import Verif.Model.RtUpdate
import Verif.Model.RtTimetable
import Verif.Proofs.RtPropagate
import Verif.Props.RtUpdate
import Verif.Props.RtPropagate
import Verif.Proofs.RtTimetable
import Verif.Props.RtTimetable
import Verif.Props.RtLocations
import Verif.Model.FastestDirect
import Verif.Props.FastestDirect
import Verif.Model.BuildFootpaths
import Verif.Proofs.BuildFootpaths
import Verif.Proofs.FootpathClosure
import Verif.Props.BuildFootpaths
import Verif.Model.MergeDuplicates
import Verif.Props.MergeDuplicates
import Verif.Model.TbPreprocess
import Verif.Model.TbQuery
import Verif.Spec.TripBased
import Verif.Proofs.TbPreprocess
import Verif.Proofs.TbQuery
import Verif.Props.TbPreprocess
import Verif.Props.TbReached
import Verif.Props.TbQuery
import Verif.Proofs.TbLine
import Verif.Proofs.TbReduce
import Verif.Proofs.TbHist
import Verif.Proofs.TbAfter
import Verif.Proofs.TbComplete
import Verif.Props.TbComplete
import Verif.Model.RaptorVia
import Verif.Spec.Via
import Verif.Proofs.RaptorVia
import Verif.Proofs.NetVia
import Verif.Props.RaptorVia
import Verif.Model.Reconstruct
import Verif.Model.OptimizeFootpaths
import Verif.Spec.Itinerary
import Verif.Proofs.Reconstruct
import Verif.Proofs.ReconstructComplete
import Verif.Proofs.ReconstructNet
import Verif.Proofs.OptimizeFootpaths
import Verif.Props.Reconstruct
import Verif.Proofs.PongDual
import Verif.Proofs.PongBounds
import Verif.Proofs.PongReach
import Verif.Proofs.PongHorizon
import Verif.Proofs.PongRun
import Verif.Proofs.PongSet
import Verif.Proofs.PongTurn
import Verif.Proofs.PongLoop
import Verif.Proofs.PongNet
import Verif.Model.Pong
import Verif.Model.PongQuery
import Verif.Spec.PingPong
import Verif.Props.PingPong
import Verif.Props.OneToAll
import Verif.Props.OptimizeFootpaths
import Verif.Model.Direct
import Verif.Model.LegAlternatives
import Verif.Spec.Direct
import Verif.Proofs.Direct
import Verif.Proofs.DirectOrder
import Verif.Proofs.LegAlternatives
import Verif.Props.Direct
import Verif.Props.SlowDirect
import Verif.Props.LegAlternatives
import Verif.Props.PongImprove
import Verif.Model.Resolve
import Verif.Props.Resolve
import Verif.Props.ResolveLoaded
import Verif.Props.TripWalk
import Verif.Props.RefTransport
import Verif.Model.Fares
import Verif.Spec.Fares
import Verif.Props.Fares
import Verif.Props.FareTransfers
import Verif.Props.FareRules
import Verif.Props.FareJourney
import Verif.Spec.Alerts
import Verif.Model.Alerts
import Verif.Props.Alerts
import Verif.Props.AlertService
import Verif.Model.Shapes
import Verif.Props.ShapeRead
import Verif.Props.ShapeMatch
import Verif.Props.ShapeStore
import Verif.Props.ShapeBoxes
import Verif.Props.ShapePoints
import Verif.Model.Seated
import Verif.Spec.Seated
import Verif.Props.SeatedComponent
import Verif.Props.Seated
import Verif.Props.SeatedEnd
import Verif.Props.SeatedExamples
import Verif.Model.GpuKernel
import Verif.Model.GpuRaptor
import Verif.Model.GpuPacking
import Verif.Model.GpuWarp
import Verif.Proofs.GpuKernel
import Verif.Proofs.GpuSound
import Verif.Proofs.GpuOpt
import Verif.Props.GpuPacking
import Verif.Props.GpuWarp
import Verif.Props.GpuSearch
import Verif.Proofs.GpuTrace
import Verif.Model.GpuReconstruct
import Verif.Proofs.GpuReconstruct
import Verif.Props.GpuReconstruct
import Verif.Props.HrdDays
import Verif.Props.HrdTimes
import Verif.Props.HrdService
import Verif.Model.VdvAus
import Verif.Model.VdvMatch
import Verif.Spec.VdvAus
import Verif.Spec.VdvMatch
import Verif.Spec.VdvHistory
import Verif.Proofs.VdvMono
import Verif.Proofs.VdvAssign
import Verif.Proofs.VdvStops
import Verif.Proofs.VdvMatch
import Verif.Proofs.VdvHistory
import Verif.Props.VdvAus
import Verif.Props.VdvMatch
import Verif.Props.VdvHistory
import Verif.Model.Netex
import Verif.Model.NetexTrips
import Verif.Spec.Netex
import Verif.Proofs.NetexTz
import Verif.Proofs.NetexExpand
import Verif.Proofs.NetexCal
import Verif.Props.NetexDays
import Verif.Props.NetexTimes
import Verif.Props.NetexTrips
import Verif.Props.NetexStops
import Verif.Proofs.RtResend
import Verif.Props.RtResend
import Verif.Model.RtMessage
import Verif.Props.RtAdded
import Verif.Props.RtMessage
import Verif.Props.RtIds
import Verif.Model.GtfsStops
import Verif.Props.GtfsStops
import Verif.Props.GtfsFootpaths
import Verif.Model.Ontrip
import Verif.Props.Ontrip
import Verif.Model.Translations
import Verif.Props.Translations
import Verif.Props.StopTimes
import Verif.Props.Flex
import Verif.Props.GtfsRoutes
import Verif.Props.GtfsTrips
import Verif.Props.Ticketing
import Verif.Props.WriteTrips
import Verif.Props.Assistance
import Verif.Props.FreqBlock
import Verif.Props.TdNet
import Verif.Model.FeedNet
import Verif.Spec.FeedNet
import Verif.Props.FeedNet
import Verif.Model.FeedServices
import Verif.Spec.FeedServices
import Verif.Props.FeedServices
import Verif.Props.FeedQuery
import Verif.Model.HrdParse
import Verif.Spec.HrdParse
import Verif.Proofs.HrdParse
import Verif.Props.HrdParse
import Verif.Props.HrdFile
import Verif.Props.HrdExamples
import Verif.Props.RouteDays
import Verif.Props.HrdWrite
import Verif.Props.HrdWriteExamples
import Verif.Props.Importance
import Verif.Props.Metrics
import Verif.Props.HrdStations
import Verif.Props.HrdTracks
