import Verif.Model.Basic
import Verif.Model.Rounding
import Verif.Model.Util
import Verif.Model.Device
import Verif.Model.Workload
import Verif.Proofs.Workload
import Verif.Proofs.Binary
import Verif.Spec.Workload
import Verif.Props.Workload
import Verif.Spec.Route
import Verif.Proofs.Device
import Verif.Proofs.Route
import Verif.Proofs.Multicast
import Verif.Props.Route
import Verif.Model.DepTracker
import Verif.Model.GenDeps
import Verif.Model.Congestion
import Verif.Model.Stats
import Verif.Model.Engine
import Verif.Proofs.Scan
import Verif.Proofs.Update
import Verif.Proofs.Engine
import Verif.Spec.Engine
import Verif.Proofs.Sort
import Verif.Proofs.Crowd
import Verif.Proofs.Deps
import Verif.Proofs.Init
import Verif.Proofs.Step
import Verif.Proofs.Member
import Verif.Proofs.Rates
import Verif.Props.Engine
import Verif.Props.Sample
import Verif.Proofs.Timing
import Verif.Props.Timing
import Verif.Spec.Deps
import Verif.Proofs.Edges
import Verif.Proofs.Group
import Verif.Proofs.NoExit
import Verif.Proofs.Numeral
import Verif.Proofs.Waits
import Verif.Props.Crowd
import Verif.Props.Deps
import Verif.Spec.Congestion
import Verif.Spec.Table
import Verif.Proofs.Congestion
import Verif.Proofs.Capacity
import Verif.Proofs.Table
import Verif.Proofs.Load
import Verif.Proofs.Independent
import Verif.Proofs.Separate
import Verif.Props.Congestion
import Verif.Model.Summary
import Verif.Model.Api
import Verif.Spec.Stats
import Verif.Proofs.Stats
import Verif.Proofs.Percent
import Verif.Proofs.Finish
import Verif.Props.Stats
import Verif.Proofs.Total
import Verif.Proofs.TotalRates
import Verif.Spec.Api
import Verif.Proofs.TotalRun
import Verif.Proofs.TotalApi
import Verif.Proofs.Preprocess
import Verif.Proofs.CongFree
import Verif.Proofs.NoDiverge
import Verif.Props.Api
import Verif.Model.Timeline
import Verif.Spec.Timeline
import Verif.Proofs.Timeline
import Verif.Proofs.TimelineRun
import Verif.Props.Timeline
import Verif.Model.ZoneTree
import Verif.Spec.Zones
import Verif.Proofs.Zones
import Verif.Props.Zones
import Verif.Proofs.Offered
import Verif.Proofs.DemandError
import Verif.Model.Json
import Verif.Model.Example
import Verif.Model.Fabric
import Verif.Model.Ingest
import Verif.Spec.Ingest
import Verif.Spec.File
import Verif.Proofs.Ingest
import Verif.Proofs.Trace
import Verif.Proofs.File
import Verif.Props.Ingest
import Verif.Props.File
import Verif.Spec.Summary
import Verif.Proofs.Summary
import Verif.Props.Summary
import Verif.Spec.Fabric
import Verif.Proofs.Fabric
import Verif.Props.Example
import Verif.Props.Fabric
import Verif.Props.Script
import Verif.Model.Pickle
import Verif.Spec.Pickle
import Verif.Props.Pickle
import Verif.Model.Analyze
import Verif.Spec.Analyze
import Verif.Proofs.Analyze
import Verif.Props.Analyze
import Verif.Spec.Liveness
import Verif.Spec.Timetable
import Verif.Proofs.Timetable
import Verif.Proofs.Liveness
import Verif.Props.Liveness
import Verif.Model.Document
import Verif.Spec.Document
import Verif.Proofs.Document
import Verif.Props.Document
import Verif.Model.Topology
import Verif.Spec.Topology
import Verif.Proofs.Topology
import Verif.Props.Topology
import Verif.Props.FabricTotal
import Verif.Model.Cli
import Verif.Props.Cli
import Verif.Model.Generate
import Verif.Spec.Generate
import Verif.Props.Generate
import Verif.Model.Hash
import Verif.Spec.Hash
import Verif.Proofs.Hash
import Verif.Proofs.HashScan
import Verif.Props.Hash
import Verif.Model.RandomTest
import Verif.Proofs.Sized
import Verif.Props.RandomTest
import Verif.Spec.Credit
import Verif.Proofs.Credit
import Verif.Props.Limit
import Verif.Props.Mcast
import Verif.Model.Format
import Verif.Spec.Format
import Verif.Proofs.Format
import Verif.Props.Format
import Verif.Proofs.HashTests
import Verif.Props.HashTests
import Verif.Props.Conformance
import Verif.Proofs.Blend
import Verif.Spec.Convert
import Verif.Proofs.Convert
import Verif.Props.SmallTrace
import Verif.Props.Convert
import Verif.Props.ConformanceTrace
import Verif.Spec.Fluid
import Verif.Spec.More
import Verif.Spec.Deadline
import Verif.Proofs.Fluid
import Verif.Proofs.FluidShared
import Verif.Proofs.FluidFrame
import Verif.Proofs.FluidEmbed
import Verif.Proofs.FluidShift
import Verif.Proofs.FluidRounded
import Verif.Proofs.FluidOrder
import Verif.Props.Fluid
import Verif.Proofs.FluidMono
import Verif.Proofs.FluidMonoRounded
import Verif.Proofs.FluidQueue
import Verif.Proofs.FluidCrowd
import Verif.Proofs.FluidApart
import Verif.Proofs.FluidShiftRounded
import Verif.Proofs.FluidQueueLater
import Verif.Props.Mono
import Verif.Props.More
import Verif.Proofs.FluidDeadline
import Verif.Props.Deadline
import Verif.Proofs.FluidGrain
import Verif.Props.Grain
import Verif.Proofs.FluidFair
import Verif.Props.Fair
import Verif.Spec.Layout
import Verif.Props.Layout
import Verif.Model.Write
import Verif.Spec.Write
import Verif.Props.Write
import Verif.Model.Text
import Verif.Spec.Text
import Verif.Proofs.Text
import Verif.Props.Text
import Verif.Proofs.Double
import Verif.Model.TableText
import Verif.Spec.TableText
import Verif.Proofs.TableText
import Verif.Props.TableText
import Verif.Model.Grid
import Verif.Spec.Grid
import Verif.Proofs.Grid
import Verif.Props.Grid
import Verif.Model.Prompt
import Verif.Props.Prompt
import Verif.Spec.Turn
import Verif.Proofs.FluidMove
import Verif.Proofs.Turn
import Verif.Props.Torus
import Verif.Props.Chips
import Verif.Spec.Schema
import Verif.Props.Schema
import Verif.Model.Directory
import Verif.Proofs.Directory
import Verif.Props.Directory
import Verif.Spec.Later
import Verif.Proofs.Later
import Verif.Props.Later
import Verif.Spec.Bottleneck
import Verif.Proofs.Bottleneck
import Verif.Proofs.BottleneckRounded
import Verif.Props.Bottleneck
import Verif.Model.Bindings
import Verif.Spec.Bindings
import Verif.Proofs.Bindings
import Verif.Props.Bindings
import Verif.Model.GenerateSummary
import Verif.Spec.GenerateSummary
import Verif.Props.GenerateSummary
import Verif.Proofs.Account
import Verif.Spec.Account
import Verif.Props.Account
import Verif.Proofs.AccountRounded
import Verif.Props.AccountRounded
import Verif.Model.Chart
import Verif.Spec.Chart
import Verif.Proofs.Chart
import Verif.Props.Chart
import Verif.Props.McastRange
import Verif.Props.McastReach
import Verif.Proofs.Roof
import Verif.Proofs.RoofRounded
import Verif.Props.Roof
import Verif.Props.RoofRounded
import Verif.Model.Timer
import Verif.Props.Timer
import Verif.Proofs.OrderFree
import Verif.Proofs.OrderOutput
import Verif.Props.OrderFree
import Verif.Proofs.GroupOrder
import Verif.Props.GroupOrder
import Verif.Proofs.Keys
import Verif.Props.Arrival
import Verif.Proofs.Phases
import Verif.Proofs.PhasesOutput
import Verif.Props.Phases
import Verif.Spec.Measured
import Verif.Proofs.Measured
import Verif.Props.Measured
import Verif.Spec.Continue
import Verif.Proofs.Continue
import Verif.Props.Continue
import Verif.Spec.Pause
import Verif.Proofs.Pause
import Verif.Props.Pause
import Verif.Spec.Interleave
import Verif.Proofs.Interleave
import Verif.Props.Interleave
import Verif.Spec.Calm
import Verif.Proofs.Calm
import Verif.Props.Calm
import Verif.Spec.Serial
import Verif.Proofs.Serial
import Verif.Proofs.SerialRounded
import Verif.Props.Serial
import Verif.Props.SerialRounded
import Verif.Props.Slowdown
import Verif.Spec.Chain
import Verif.Props.Chain
import Verif.Model.EndCheck
import Verif.Props.Satisfied
import Verif.Props.DepCheck
import Verif.Proofs.CriticalPath
import Verif.Props.CriticalPath
import Verif.Spec.Overload
import Verif.Props.Overload
import Verif.Props.AloneChains
import Verif.Spec.TraceDoc
import Verif.Props.TraceDoc
import Verif.Model.Argv
import Verif.Spec.CommandLine
import Verif.Proofs.CommandLine
import Verif.Props.CommandLine
import Verif.Props.TransferDoc
import Verif.Props.Readme
