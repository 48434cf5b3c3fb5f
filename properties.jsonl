{"id": "C01", "title": "Adding phases assigns dense, ordered identifiers", "statement": "After any sequence of addPhase calls on a fresh workload, the phases carry ids 0,1,2,... in insertion order, every transfer carries the id of its phase, and reading the transfer ids phase by phase yields exactly 0,1,...,n-1 where n is the total number of transfers, whatever ids the caller had put in the phases beforehand.", "quantifier": "for every finite sequence of phases with any number of transfers and any pre-existing ids", "why_tests_cant": "A test fixes one sequence of calls; the claim is over all sequences and all (possibly stale) incoming ids.", "anchors": ["tt_npe/cpp/src/npeWorkload.cpp:npeWorkload::addPhase", "tt_npe/cpp/include/npeWorkload.hpp:npeWorkload::getPhases"]}
{"id": "C02", "title": "Workload validation accepts exactly the well-formed unicast workloads", "statement": "For a workload built with addPhase whose destinations are unicast, validation answers true if and only if every transfer has at least one packet, a non-empty packet, a source on the device grid, a destination on the device grid, a source device known to the device model, and a destination on the same device as the source.", "quantifier": "for every built workload and every supported device", "why_tests_cant": "Tests reject one bad field at a time; they cannot show that no bad combination slips through nor that no good workload is refused.", "anchors": ["tt_npe/cpp/src/npeWorkload.cpp:npeWorkload::validate", "tt_npe/cpp/src/npeWorkload.cpp:npeWorkloadTransfer::validate"]}
{"id": "C03", "title": "Validation checks every multicast destination rectangle", "statement": "If validation accepts a workload then every corner of every multicast destination rectangle of every transfer is on the device grid and on the source's device.", "quantifier": "for every workload with multicast destinations of any number of rectangles", "why_tests_cant": "The rectangle list is unbounded; tests only use single rectangles.", "anchors": ["tt_npe/cpp/src/npeWorkload.cpp:npeWorkloadTransfer::validate", "tt_npe/cpp/include/npeUtil.hpp:MulticastCoordSet"]}
{"id": "C04", "title": "A transfer's byte count is packet size times packet count", "statement": "The total number of bytes a transfer must move equals packet size multiplied by the number of packets.", "quantifier": "for every packet size and packet count representable in the API (unsigned 32 bit)", "why_tests_cant": "The product only goes wrong in the overflow region, which example-based tests do not visit.", "anchors": ["tt_npe/cpp/include/npeWorkload.hpp:npeWorkloadTransfer::npeWorkloadTransfer"]}
{"id": "C05", "title": "Unicast routes are connected paths from source to destination in dimension order", "statement": "For every pair of grid coordinates, the route of a unicast transfer is a sequence of links in which the first link leaves the source, each link starts where the previous one ends on the torus, and the last one ends at the destination; NOC0 goes east then south, NOC1 goes north then west, and no other link type appears; the empty route occurs exactly when source equals destination.", "quantifier": "for every grid size with at least one row and column (hence both devices), both NoCs, and every source and destination on the grid", "why_tests_cant": "There are 14400 wormhole and 41616 blackhole pairs per NoC and the unit test only checks that a route call returns on 100 random pairs.", "anchors": ["tt_npe/cpp/include/device_models/wormhole_b0.hpp:unicastRoute", "tt_npe/cpp/include/device_models/blackhole.hpp:unicastRoute", "tt_npe/cpp/include/npeUtil.hpp:wrapToRange"]}
{"id": "C06", "title": "Route length equals the advertised hop count and never repeats a link", "statement": "The number of links of a unicast route equals the hop count used for write latency, is at most rows+columns-2, and no link occurs twice.", "quantifier": "for every grid, both NoCs and every pair of coordinates on the grid", "why_tests_cant": "The unit test spot-checks hop counts of a few pairs and never compares them with the route itself.", "anchors": ["tt_npe/cpp/include/device_models/wormhole_b0.hpp:unicastRoute", "tt_npe/cpp/include/device_models/wormhole_b0.hpp:route_hops", "tt_npe/cpp/include/device_models/blackhole.hpp:route_hops"]}
{"id": "C07", "title": "Link and NIU identifiers are in one-to-one correspondence with their attributes", "statement": "Looking up the id of an attribute and the attribute of an id are mutually inverse on the populated tables, ids are exactly 0..n-1, and for every device the tool can create they fit the 16-bit identifier type.", "quantifier": "for every grid size and chip count (in particular every device name accepted by the factory)", "why_tests_cant": "Tests cover two chips; larger systems (8, 32, 36 chips) come close to the 16-bit limit.", "anchors": ["tt_npe/cpp/include/device_models/wormhole_b0.hpp:populateNoCLinkLookups", "tt_npe/cpp/include/device_models/wormhole_b0.hpp:populateNoCNIULookups", "tt_npe/cpp/include/device_models/wormhole_multichip.hpp:populateNoCLinkLookups", "tt_npe/cpp/include/device_models/wormhole_multichip.hpp:populateNoCNIULookups", "tt_npe/cpp/include/device_models/blackhole.hpp:populateNoCLinkLookups"]}
{"id": "C08", "title": "Multicast routes reach every destination core", "statement": "The set of links of a multicast route contains, for every core of the destination rectangle, a path leading from the source to that core.", "quantifier": "for every source and every well-formed destination rectangle on the grid and both NoCs", "why_tests_cant": "The set of rectangles is combinatorial and no unit test looks at multicast routes.", "anchors": ["tt_npe/cpp/include/device_models/wormhole_b0.hpp:route", "tt_npe/cpp/include/device_models/blackhole.hpp:route"]}
{"id": "C09", "title": "Multicast routes are duplicate-free unions of unicast routes", "statement": "The links of a multicast route are exactly the links of the unicast routes from the source to the far edge of the destination rectangle (far row for NOC0, far column for NOC1), each listed once; more than one rectangle is refused with an error.", "quantifier": "for every grid, source, rectangle and NoC", "why_tests_cant": "Requires reasoning about all rectangles; no test inspects the produced links.", "anchors": ["tt_npe/cpp/include/device_models/wormhole_b0.hpp:route", "tt_npe/cpp/include/device_models/blackhole.hpp:route"]}
{"id": "C10", "title": "Multichip routes stay on the source chip", "statement": "On a multichip device the route of a transfer is the single-chip route with every link moved to the source's chip; a destination on another chip is refused with an error.", "quantifier": "for every chip count, chip, source, destination and NoC", "why_tests_cant": "Tests only route on chip 0.", "anchors": ["tt_npe/cpp/include/device_models/wormhole_multichip.hpp:route", "tt_npe/cpp/include/device_models/wormhole_multichip.hpp:changeRouteDeviceID"]}
{"id": "C11", "title": "Multicast destination enumeration visits every core exactly once", "statement": "Iterating over a multicast destination yields each core of each rectangle exactly once, rectangle by rectangle in row-major order, terminates, and the reported size equals the number of cores visited, provided every rectangle has its start at or above and at or left of its end and its last row is below 32767, the largest 16-bit number; with such a last row the iteration never ends.", "quantifier": "for every list of rectangles", "why_tests_cant": "Unit tests iterate a few fixed rectangles.", "anchors": ["tt_npe/cpp/include/npeUtil.hpp:MulticastCoordSet::iterator", "tt_npe/cpp/include/npeUtil.hpp:MulticastCoordSet::grid_size"]}
{"id": "C12", "title": "Constructing a multicast destination rejects inverted rectangles", "statement": "Building a multicast destination from two corners succeeds only if the first corner is at or above and at or left of the second.", "quantifier": "for every pair of corners on one device", "why_tests_cant": "Only a quarter-plane of corner pairs is affected; tests use ordered corners.", "anchors": ["tt_npe/cpp/include/npeUtil.hpp:MulticastCoordSet::MulticastCoordSet"]}
{"id": "C13", "title": "Every simulation terminates", "statement": "For every accepted configuration, running the estimator on any workload either returns statistics or an error after finitely many timesteps; the number of timesteps is at most 50,000,000 / cycles_per_timestep + 2, and the simulated clock never wraps around.", "quantifier": "for every workload, device, congestion mode and every positive timestep length", "why_tests_cant": "Non-termination cannot be observed by tests; clock wrap only happens for extreme timestep lengths.", "anchors": ["tt_npe/cpp/src/npeEngine.cpp:npeEngine::runSinglePerfSim", "tt_npe/cpp/include/npeEngine.hpp:MAX_CYCLE_LIMIT", "tt_npe/cpp/src/npeAPI.cpp:npeAPI::validateConfig"]}
{"id": "C14", "title": "Statistics are returned only when every transfer has delivered all its bytes", "statement": "If the simulation returns statistics, every transfer of the workload has been started, has moved exactly its total number of bytes, and has left the active set.", "quantifier": "for every workload, timestep length, and every possible sequence of bandwidths produced by the congestion model", "why_tests_cant": "The claim is over all schedules and all bandwidth histories.", "anchors": ["tt_npe/cpp/src/npeEngine.cpp:npeEngine::runSinglePerfSim"]}
{"id": "C15", "title": "Transferred bytes never decrease and never exceed the total", "statement": "At every timestep of every run the number of bytes moved by each transfer is at least what it was before and at most the transfer's total; transfers that are not active do not move bytes.", "quantifier": "for every reachable simulator state of every workload and every bandwidth history", "why_tests_cant": "An invariant of all reachable states; tests only look at final statistics.", "anchors": ["tt_npe/cpp/src/npeEngine.cpp:npeEngine::runSinglePerfSim"]}
{"id": "C16", "title": "No transfer starts before its scheduled cycle or before its dependency allows", "statement": "When a transfer becomes active its start cycle equals the maximum of its scheduled offset and, if it has a dependency, the completion cycle of that dependency plus the dependency's delay; the start cycle is never later than the current cycle.", "quantifier": "for every workload, every timestep and every bandwidth history", "why_tests_cant": "Ordering violations only show up for particular interleavings.", "anchors": ["tt_npe/cpp/src/npeEngine.cpp:npeEngine::runSinglePerfSim", "tt_npe/cpp/include/npeDependencyTracker.hpp:npeTransferDependencyTracker::done"]}
{"id": "C17", "title": "Activation is exact: every ready transfer is activated, none is lost or duplicated", "statement": "In each timestep the set of newly active transfers is exactly the set of waiting transfers whose scheduled offset has been reached and whose dependency is satisfied; every transfer is at all times in exactly one of the states waiting, active, completed.", "quantifier": "for every workload (including empty ones), every timestep and every bandwidth history", "why_tests_cant": "The in-place scan-and-swap over the waiting queue is only correct because of an ordering invariant that no test exercises systematically.", "anchors": ["tt_npe/cpp/src/npeEngine.cpp:npeEngine::createTransferQueue", "tt_npe/cpp/src/npeEngine.cpp:npeEngine::runSinglePerfSim"]}
{"id": "C18", "title": "A completed transfer ends no earlier than it starts and within the current timestep", "statement": "When a transfer completes, its end cycle is at least its start cycle and at most the end of the current timestep.", "quantifier": "for every completion in every run", "why_tests_cant": "Depends on floating-point rounding of large cycle counts and on the late-dependency adjustment; tests run short workloads.", "anchors": ["tt_npe/cpp/src/npeEngine.cpp:npeEngine::runSinglePerfSim"]}
{"id": "C19", "title": "Transfers injected at the same NIU port are serialised two deep", "statement": "Among ungrouped transfers that leave the same source core of the same chip on the same NoC over the same kind of first link, ordered by scheduled start, each transfer waits for the completion of the one two positions before it and for no other transfer.", "quantifier": "for every workload", "why_tests_cant": "Dependency structure of arbitrary workloads.", "anchors": ["tt_npe/cpp/src/npeEngine.cpp:npeEngine::genDependencies"]}
{"id": "C20", "title": "Generated dependencies are consistent", "statement": "Dependency generation never trips its own consistency check: every dependency has exactly one provider, every provider index is in range, and each transfer waits for at most one dependency.", "quantifier": "for every workload on a wormhole device whose group parents refer to existing group members", "why_tests_cant": "The check exits the process on failure, so a single bad workload would kill a host application; tests cannot cover all workloads.", "anchors": ["tt_npe/cpp/src/npeEngine.cpp:npeEngine::genDependencies", "tt_npe/cpp/include/npeDependencyTracker.hpp:npeTransferDependencyTracker"]}
{"id": "C21", "title": "Dependencies never deadlock", "statement": "For a workload without transfer groups the dependency relation is acyclic: every dependency points to a transfer that is strictly earlier in the order of scheduled start and id, so there is always an incomplete transfer that is not waiting for anything.", "quantifier": "for every ungrouped workload", "why_tests_cant": "Cycles only appear for particular workloads.", "anchors": ["tt_npe/cpp/src/npeEngine.cpp:npeEngine::genDependencies"]}
{"id": "C22", "title": "Every run with positive bandwidth completes when given enough cycles", "statement": "If every active transfer can move at least one byte in each full timestep and dependencies are acyclic, then the simulation reaches completion after a bounded number of timesteps if the cycle limit is large enough.", "quantifier": "for every workload without transfer groups and every bandwidth history bounded below", "why_tests_cant": "Liveness over all workloads.", "anchors": ["tt_npe/cpp/src/npeEngine.cpp:npeEngine::runSinglePerfSim"]}
{"id": "C23", "title": "Fabric route segments run in order", "statement": "A transfer that is part of a transfer group and names a parent starts no earlier than the parent's completion plus the write latency of its own segment, plus the ethernet hop delay if it is on another chip than the parent.", "quantifier": "for every workload on a wormhole device with well-formed groups", "why_tests_cant": "Needs all group shapes and timings.", "anchors": ["tt_npe/cpp/src/npeEngine.cpp:npeEngine::genDependencies"]}
{"id": "C24", "title": "A group parent that does not exist is not silently replaced", "statement": "If a transfer names a parent index that no member of its group has, the tool does not make it depend on an unrelated transfer.", "quantifier": "for every workload with transfer groups", "why_tests_cant": "Only malformed or partially skipped fabric paths expose it.", "anchors": ["tt_npe/cpp/src/npeEngine.cpp:npeEngine::genDependencies", "tt_npe/cpp/src/npeWorkloadIngest.cpp:convertNocTracesToNpeWorkload"]}
{"id": "C25", "title": "Transfer groups are supported on every device", "statement": "Dependency generation for a valid workload with grouped transfers succeeds on every supported device architecture.", "quantifier": "for every workload with at least one grouped transfer with a parent and every device", "why_tests_cant": "No blackhole test has groups.", "anchors": ["tt_npe/cpp/src/npeEngine.cpp:npeEngine::genDependencies", "tt_npe/cpp/include/device_models/blackhole.hpp:get_write_latency"]}
{"id": "C26", "title": "Congestion can only slow transfers down", "statement": "The congestion model never raises the bandwidth of a transfer and never makes it negative.", "quantifier": "for every set of active transfers with non-negative injection rates, every timestep, every device and every rounding of intermediate results that is monotone", "why_tests_cant": "Holds over all traffic patterns.", "anchors": ["tt_npe/cpp/include/device_models/wormhole_b0.hpp:modelCongestion", "tt_npe/cpp/include/device_models/wormhole_multichip.hpp:modelCongestion", "tt_npe/cpp/include/device_models/blackhole.hpp:modelCongestion"]}
{"id": "C27", "title": "No link carries more than its capacity", "statement": "After congestion derating, the summed effective demand of the active transfers through each link is at most the link bandwidth.", "quantifier": "for every set of active transfers (exact arithmetic)", "why_tests_cant": "Holds over all traffic patterns.", "anchors": ["tt_npe/cpp/include/device_models/wormhole_b0.hpp:modelCongestion", "tt_npe/cpp/include/device_models/wormhole_multichip.hpp:modelCongestion", "tt_npe/cpp/include/device_models/blackhole.hpp:modelCongestion"]}
{"id": "C28", "title": "No source injects and no sink absorbs more than its rate", "statement": "After congestion derating, the summed effective demand leaving each source NIU is at most its injection rate and the summed effective demand entering each sink NIU is at most its absorption rate.", "quantifier": "for every set of active transfers, unicast and multicast (exact arithmetic)", "why_tests_cant": "Holds over all traffic patterns; multicast sinks are not checked by any test.", "anchors": ["tt_npe/cpp/include/device_models/wormhole_b0.hpp:modelCongestion", "tt_npe/cpp/include/device_models/wormhole_multichip.hpp:modelCongestion", "tt_npe/cpp/include/device_models/blackhole.hpp:modelCongestion"]}
{"id": "C29", "title": "Congestion results do not depend on the order of active transfers", "statement": "Permuting the list of active transfers changes neither the resulting bandwidths nor the demand grids.", "quantifier": "for every set of active transfers and every permutation (exact arithmetic)", "why_tests_cant": "Permutations are factorial.", "anchors": ["tt_npe/cpp/include/device_models/wormhole_b0.hpp:modelCongestion"]}
{"id": "C30", "title": "Transfers on disjoint resources do not interact", "statement": "Adding an active transfer that shares no link, source NIU or sink NIU with a given transfer does not change the bandwidth computed for the given transfer.", "quantifier": "for every set of active transfers", "why_tests_cant": "A non-interference statement over all traffic patterns.", "anchors": ["tt_npe/cpp/include/device_models/wormhole_b0.hpp:modelCongestion"]}
{"id": "C31", "title": "Without congestion modelling bandwidth depends only on the transfer itself", "statement": "With the congestion model 'none' the bandwidth of each active transfer is the minimum of its injection rate and the table bandwidth for its packet size and count, independent of all other transfers, and all demand grids stay zero.", "quantifier": "for every set of active transfers", "why_tests_cant": "Non-interference over all workloads.", "anchors": ["tt_npe/cpp/include/npeDeviceModelUtils.hpp:updateTransferBandwidth", "tt_npe/cpp/include/device_models/wormhole_b0.hpp:computeCurrentTransferRate"]}
{"id": "C32", "title": "Bandwidth interpolation is total and bounded", "statement": "For every packet size of at least one byte and every packet count of at least one, the interpolated bandwidth is defined, positive, and at most the table maximum; for fixed packet count it is monotone in packet size; a single packet no larger than the table range always gets the maximum.", "quantifier": "for every packet size and count and every device table", "why_tests_cant": "Four billion packet sizes; tests use one.", "anchors": ["tt_npe/cpp/include/npeDeviceModelUtils.hpp:interpolateBW"]}
{"id": "C33", "title": "Utilisation is a percentage and never exceeds demand", "statement": "Reported average link utilisation lies between 0 and 100 percent, never exceeds average link demand, and multicast write utilisation never exceeds total utilisation, per timestep and overall.", "quantifier": "for every run of every workload", "why_tests_cant": "Holds over all demand grids.", "anchors": ["tt_npe/cpp/include/npeDeviceModelUtils.hpp:updateSimulationStats", "tt_npe/cpp/src/npeStats.cpp:computeSummaryStats"]}
{"id": "C34", "title": "Mesh statistics are the average of device statistics", "statement": "In every timestep the mesh-wide average link demand, link utilisation and NIU demand equal the mean of the corresponding per-device values.", "quantifier": "for every chip count and every demand grid", "why_tests_cant": "Needs multichip runs over all demand grids.", "anchors": ["tt_npe/cpp/include/npeDeviceModelUtils.hpp:updateSimulationStats"]}
{"id": "C35", "title": "Estimated cycles measure the last relevant completion", "statement": "The estimated cycle count of a device is the largest end cycle among its transfers scheduled within the golden window minus the window start, or zero if there is none or it does not exceed the window start; it never underflows, and for the whole mesh it covers every device.", "quantifier": "for every run of every workload", "why_tests_cant": "Aggregation over all completions in any order.", "anchors": ["tt_npe/cpp/src/npeStats.cpp:updateWorstCaseTransferEndCycle", "tt_npe/cpp/src/npeStats.cpp:finishSimulation"]}
{"id": "C36", "title": "Congestion impact compares the congested with the congestion-free run", "statement": "When congestion impact estimation is on and both runs succeed, the reported congestion-free cycle count is that of a run with congestion modelling off.", "quantifier": "for every workload for which both runs succeed", "why_tests_cant": "Tests only check that a result is returned.", "anchors": ["tt_npe/cpp/src/npeEngine.cpp:npeEngine::runPerfEstimation", "tt_npe/cpp/src/npeStats.cpp:getCongestionImpact"]}
{"id": "C37", "title": "A failing congestion-free run does not hide the congested result", "statement": "If the congested run succeeds, the estimator returns its statistics whether or not the congestion-free run succeeds; if the congested run fails, its error is returned.", "quantifier": "for every workload and configuration", "why_tests_cant": "Needs pairs of runs with different outcomes.", "anchors": ["tt_npe/cpp/src/npeEngine.cpp:npeEngine::runPerfEstimation"]}
{"id": "C38", "title": "The API never lets a foreign exception or undefined behaviour escape", "statement": "Running the estimator on any workload returns statistics or an error value; it does not terminate with an uncaught exception and does not invoke undefined behaviour.", "quantifier": "for every workload and accepted configuration", "why_tests_cant": "Only particular inputs trigger the escaping paths.", "anchors": ["tt_npe/cpp/src/npeAPI.cpp:npeAPI::runNPE", "tt_npe/cpp/src/npeAPI.cpp:npeAPI::preprocessWorkload", "tt_npe/cpp/include/npeWorkload.hpp:npeWorkload::getGoldenResultCycles"]}
{"id": "C39", "title": "Removing local unicast transfers keeps everything else", "statement": "With local-transfer removal on, the simulated workload contains exactly the transfers that are not unicast transfers within one two-by-two tile, in the original order and phase, renumbered densely, with all other workload data unchanged.", "quantifier": "for every workload", "why_tests_cant": "Needs workloads mixing unicast, multicast and groups.", "anchors": ["tt_npe/cpp/src/npeWorkload.cpp:npeWorkload::removeLocalUnicastTransfers", "tt_npe/cpp/src/npeAPI.cpp:npeAPI::preprocessWorkload"]}
{"id": "C40", "title": "Schedule scaling preserves order and scaling by one changes nothing", "statement": "Scaling the schedule by a non-negative factor never reorders the scheduled offsets of two transfers, and a factor of one leaves every offset unchanged.", "quantifier": "for every workload and every non-negative factor", "why_tests_cant": "Loss of precision only appears for offsets beyond 2^24 cycles.", "anchors": ["tt_npe/cpp/src/npeWorkload.cpp:npeWorkload::scaleWorkloadSchedule"]}
{"id": "C41", "title": "Mesh golden window spans the device windows", "statement": "After setting golden windows for a non-empty set of devices, the mesh window starts at the earliest device start and ends at the latest device end, each device window is unchanged, and setting the retrieved windows again changes nothing.", "quantifier": "for every non-empty map from devices to windows", "why_tests_cant": "Arbitrary maps; the empty map behaves differently.", "anchors": ["tt_npe/cpp/include/npeWorkload.hpp:npeWorkload::setGoldenResultCycles"]}
{"id": "C42", "title": "Timestep records are contiguous", "statement": "At every point of a run, the timestep records of every device form a gap-free sequence of intervals of the timestep length ending at the current cycle, starting with the first interval that reaches the device's golden window start.", "quantifier": "for every run, timestep length and golden windows", "why_tests_cant": "Invariant over all reachable states.", "anchors": ["tt_npe/cpp/src/npeStats.cpp:insertTimestep", "tt_npe/cpp/src/npeEngine.cpp:npeEngine::runSinglePerfSim"]}
{"id": "C43", "title": "Finishing a simulation keeps exactly the relevant timesteps", "statement": "After the simulation, the timestep records of a device are exactly those recorded up to the last relevant completion; no record is invented.", "quantifier": "for every run that returns statistics", "why_tests_cant": "Off-by-one only visible by comparing with recorded data.", "anchors": ["tt_npe/cpp/src/npeStats.cpp:finishSimulation"]}
{"id": "C44", "title": "Timeline split files partition the timesteps", "statement": "When the number of timesteps exceeds the split threshold, the split regions are consecutive, non-empty, at most threshold long and together cover each timestep exactly once.", "quantifier": "for every number of timesteps and every positive threshold", "why_tests_cant": "Arithmetic over all sizes.", "anchors": ["tt_npe/cpp/src/npeStats.cpp:emitSimTimelineToFile"]}
{"id": "C45", "title": "Every transfer active in a split region is listed in that split file", "statement": "A transfer whose active interval intersects a split region appears among the transfers of that split file, and a transfer listed there intersects it.", "quantifier": "for every region and every transfer interval", "why_tests_cant": "Interval-overlap corner cases.", "anchors": ["tt_npe/cpp/src/npeStats.cpp:TimelineRegion::partiallyContainedInRegion"]}
{"id": "C46", "title": "Timeline output lists every transfer in exactly one group", "statement": "In the timeline each transfer belongs to exactly one logical transfer, ungrouped transfers are alone in theirs, and the consistency checks of the serializer never fail for workloads whose group ids were registered.", "quantifier": "for every workload", "why_tests_cant": "Arbitrary mixtures of grouped and ungrouped transfers.", "anchors": ["tt_npe/cpp/src/npeStats.cpp:v1TimelineSerialization"]}
{"id": "C47", "title": "Zone tracking yields the true nesting", "statement": "Walking over a zone event list, the enclosing-zone stack after any prefix consists of exactly the starts not yet closed, outermost first, each with the number of earlier starts of the same name; a list is walked without error exactly when its ends match its starts.", "quantifier": "for every list of zone events and every prefix", "why_tests_cant": "Unbounded nesting and repetition.", "anchors": ["tt_npe/cpp/include/npeUtil.hpp:ZoneIterator", "tt_npe/cpp/src/npeWorkloadIngest.cpp:flattenEnclosingZones"]}
{"id": "C48", "title": "Stateful trace events use the latest saved state of their own kind", "statement": "When converting a trace, a read (write) event that uses saved state takes endpoints, and size if set, from the most recent preceding set-state event of the read (write) kind, regardless of interleaved events of the other kind; read events have source and destination exchanged.", "quantifier": "for every trace", "why_tests_cant": "All interleavings of event kinds.", "anchors": ["tt_npe/cpp/src/npeWorkloadIngest.cpp:convertNocTracesToNpeWorkload"]}
{"id": "C49", "title": "Trace conversion drops only events it should", "statement": "Converting a trace without fabric metadata yields one transfer for each supported non-state-setting event that has a NoC, and a size when required, in trace order, and nothing else.", "quantifier": "for every trace without fabric events", "why_tests_cant": "All traces.", "anchors": ["tt_npe/cpp/src/npeWorkloadIngest.cpp:convertNocTracesToNpeWorkload"]}
{"id": "C50", "title": "Trace offsets are relative to the first event", "statement": "The time origin of a converted trace is the smallest timestamp of all events, so that every converted transfer has a non-negative scheduled offset of at least its startup latency.", "quantifier": "for every trace", "why_tests_cant": "All traces.", "anchors": ["tt_npe/cpp/src/npeWorkloadIngest.cpp:computeGoldenCyclesAndT0", "tt_npe/cpp/src/npeWorkloadIngest.cpp:convertNocTracesToNpeWorkload"]}
{"id": "C51", "title": "Golden windows from a trace cover every event of the device", "statement": "For each device with events the golden window computed from a trace starts at the device's first event and ends no earlier than 20 cycles before its last event, relative to the trace origin, and is well formed for every device of the model.", "quantifier": "for every trace and device", "why_tests_cant": "All traces, devices without events, and short traces.", "anchors": ["tt_npe/cpp/src/npeWorkloadIngest.cpp:computeGoldenCyclesAndT0"]}
{"id": "C52", "title": "Fabric segments refer to the segment they continue", "statement": "In a converted fabric event each segment's parent index designates the transfer that forwards data to that segment.", "quantifier": "for every fabric path produced by the post-processing script", "why_tests_cant": "Only paths that both write locally and forward expose the index drift.", "anchors": ["tt_npe/cpp/src/npeWorkloadIngest.cpp:convertNocTracesToNpeWorkload", "tt_npe/py/util/fabric_post_process.py:add_hops"]}
{"id": "C53", "title": "Sorting and deduplicating keeps exactly the distinct elements", "statement": "The helper that makes a list unique returns a strictly increasing list with the same set of elements.", "quantifier": "for every list", "why_tests_cant": "All lists.", "anchors": ["tt_npe/cpp/include/npeUtil.hpp:uniquify"]}
{"id": "C54", "title": "Wrap-around arithmetic is a true modulus", "statement": "Both modulus helpers return, for every integer and positive range, a value in [0, range) congruent to the argument.", "quantifier": "for every integer and every positive range", "why_tests_cant": "All integers including negatives.", "anchors": ["tt_npe/cpp/include/npeUtil.hpp:wrapToRange", "tt_npe/cpp/include/npeUtil.hpp:modulo"]}
{"id": "C55", "title": "Device names are resolved or refused", "statement": "Creating a device model succeeds exactly for the documented names, with the documented architecture and chip count, and raises the device-model error for every other string; a configuration is accepted exactly if the timestep length is positive and the congestion model is 'none' or 'fast'.", "quantifier": "for every string and configuration", "why_tests_cant": "All strings.", "anchors": ["tt_npe/cpp/include/npeDeviceModelFactory.hpp:createDeviceModel", "tt_npe/cpp/src/npeAPI.cpp:npeAPI::validateConfig"]}
{"id": "C56", "title": "Pickling statistics preserves every reported number", "statement": "Pickling and unpickling device statistics preserves every field that the Python API exposes.", "quantifier": "for every statistics value", "why_tests_cant": "22 positional fields; a swapped index is only visible if values differ.", "anchors": ["tt_npe/cpp/pybind/bindings.cpp:PYBIND11_MODULE"]}
{"id": "C57", "title": "Fabric path expansion moves one chip per hop and back again", "statement": "Moving from a chip in a direction and then in the inverse direction returns to the same chip, whenever the first move is possible and no corner turn applies; a move is refused exactly when it would leave a mesh without wrap-around.", "quantifier": "for every mesh shape, chip and direction", "why_tests_cant": "All mesh shapes.", "anchors": ["tt_npe/py/util/fabric_post_process.py:get_next_device_in_dir"]}
{"id": "C58", "title": "Desynchronised-event filtering keeps a prefix", "statement": "The filter returns a prefix of the time-sorted events, keeps everything if no timestamp jumps, and no kept pair of neighbours shows a jump.", "quantifier": "for every list of timestamps", "why_tests_cant": "All lists.", "anchors": ["tt_npe/py/util/fabric_post_process.py:process_traces"]}
{"id": "C59", "title": "A transfer never moves bytes faster than its bandwidth", "statement": "Between its start and its end a transfer is credited at most one cycle of bandwidth per elapsed cycle: transferred bytes never exceed bandwidth times the cycles since the start.", "quantifier": "for every workload, dependency structure and timestep length", "why_tests_cant": "Needs every alignment of dependency ends with timestep boundaries.", "anchors": ["tt_npe/cpp/src/npeEngine.cpp:npeEngine::runSinglePerfSim"]}
{"id": "C60", "title": "Routing a transfer terminates exactly for destinations on the grid", "statement": "From a core of the grid, route computation returns if the destination is on the grid and otherwise never returns.", "quantifier": "for every grid, source on the grid, NoC and destination coordinate", "why_tests_cant": "Non-termination cannot be observed by a test; all destinations.", "anchors": ["tt_npe/cpp/include/device_models/wormhole_b0.hpp:WormholeB0DeviceModel::unicastRoute"]}
{"id": "C61", "title": "Coordinates from workload files are taken as written", "statement": "The source and destination coordinates of a loaded transfer are the numbers in the file, so that validation judges what the user wrote.", "quantifier": "for every integer coordinate in the file", "why_tests_cant": "All integers, beyond the 16-bit coordinate type.", "anchors": ["tt_npe/cpp/src/npeWorkloadIngest.cpp:loadJSONWorkloadFormat"]}
{"id": "C62", "title": "The two NoCs do not interact", "statement": "Activating a transfer on one NoC never changes the bandwidth that the congestion model computes for a transfer on the other NoC.", "quantifier": "for every device, every set of active transfers, every timestep and every rounding", "why_tests_cant": "A non-interference statement over all traffic patterns.", "anchors": ["tt_npe/cpp/include/device_models/wormhole_b0.hpp:WormholeB0DeviceModel::modelCongestion", "tt_npe/cpp/include/device_models/wormhole_b0.hpp:WormholeB0DeviceModel::route"]}
{"id": "C63", "title": "Timeline links trace the real path", "statement": "In the timeline file, every segment of every logical transfer lists an entry at the source core, then the links of the route in order, then an exit at every destination core; for a unicast the links form a connected dimension-ordered path from source to destination, for a multicast they are the links of the routes to the far edge of the rectangle, each once.", "quantifier": "for every completed run, every hash order, the full file and every split file", "why_tests_cant": "Connectivity of all emitted paths on all device models.", "anchors": ["tt_npe/cpp/src/npeStats.cpp:v1TimelineSerialization"]}
{"id": "C64", "title": "Timeline demands are exactly the significant ones", "statement": "A timestep of the timeline lists exactly the links and network interfaces whose demand exceeds the significance threshold, each with its own core, direction and NoC.", "quantifier": "for every timestep record that fits the device", "why_tests_cant": "All demand grids; a swapped terminal name only shows for particular traffic.", "anchors": ["tt_npe/cpp/src/npeStats.cpp:v1TimelineSerialization"]}
{"id": "C65", "title": "The zones of a timeline file are the nesting of the trace", "statement": "The timeline file lists every zone of a core and processor once, with its start and end, inside of the zone it was in, in the order of the starts, labelled with its name and the number of earlier zones of the same name; the file of a region lists the zones inside of the region.", "quantifier": "for every properly nested list of zone events and every region", "why_tests_cant": "Unbounded nesting; the code finds a zone again by name and start, which only clashes for particular traces.", "anchors": ["tt_npe/cpp/src/npeStats.cpp:v1TimelineSerialization"]}
{"id": "C66", "title": "Demand grids hold the offered load", "statement": "After the demand loop of a timestep each link, multicast-link, source-interface and sink-interface entry equals the summed bandwidth of exactly the active transfers that use it, weighted by the part of the timestep in which they are active; multicasts count at the worker cores they cover.", "quantifier": "for every device, every set of active transfers and every timestep, in exact arithmetic", "why_tests_cant": "A wrong interface or a wrong core type only shows for particular traffic, and for multicasts it never changes a bandwidth.", "anchors": ["tt_npe/cpp/include/device_models/wormhole_b0.hpp:modelCongestion", "tt_npe/cpp/include/device_models/wormhole_multichip.hpp:modelCongestion"]}
{"id": "C67", "title": "The zone of a converted transfer is where its event happened", "statement": "The zone path of a converted transfer names the zones of its core and processor that are open at the time of the event, outermost first; an event outside of all zones of its core has an empty path.", "quantifier": "for every trace whose events are in the order of time for each core", "why_tests_cant": "A single iterator per core is advanced lazily while the events of all cores interleave.", "anchors": ["tt_npe/cpp/src/npeWorkloadIngest.cpp:convertNocTracesToNpeWorkload"]}
{"id": "C68", "title": "Every fabric event has a transfer group of its own", "statement": "The transfers of a fabric event, and no others, form one group and are numbered densely from zero in order; the workload reports as many groups as there are converted fabric events; other transfers are in no group.", "quantifier": "for every trace with complete fabric paths", "why_tests_cant": "Group and index counters run over all interleavings of fabric and plain events.", "anchors": ["tt_npe/cpp/src/npeWorkloadIngest.cpp:convertNocTracesToNpeWorkload"]}
{"id": "C69", "title": "Fabric events can be converted on every device", "statement": "A trace with fabric events is converted on every device for which traces without fabric events are converted.", "quantifier": "for every device name and every trace", "why_tests_cant": "All devices and all paths; the repository tests fabric conversion on Wormhole only.", "anchors": ["tt_npe/cpp/src/npeWorkloadIngest.cpp:convertNocTracesToNpeWorkload"]}
{"id": "C70", "title": "A loaded workload file holds exactly the complete entries", "statement": "If loading a workload file succeeds, the workload has one phase per list of transfers in the file, holding a transfer with the written contents for each complete entry, in order and numbered densely; incomplete entries are left out; the golden cycle count is the one in the file.", "quantifier": "for every workload file", "why_tests_cant": "All files: every combination of missing and present fields.", "anchors": ["tt_npe/cpp/src/npeWorkloadIngest.cpp:loadJSONWorkloadFormat"]}
{"id": "C71", "title": "Failure to read an input is reported by an empty result", "statement": "Reading a workload or trace file gives a workload or an empty result; it never throws and never causes undefined behaviour.", "quantifier": "for every file content, device name and format flag", "why_tests_cant": "All malformed contents.", "anchors": ["tt_npe/cpp/src/npeWorkloadIngest.cpp:createWorkloadFromJSON"]}
{"id": "C72", "title": "DRAM and ethernet utilisation account for the traffic", "statement": "The DRAM utilisation of a device is the bytes of the transfers starting on it that are read from or written to DRAM, in percent of what the DRAM banks of the device can move in the window; the ethernet table lists exactly the ethernet cores that are sent to, each once, with its own bytes in percent of one link.", "quantifier": "for every workload whose endpoints are on the grid, every device and the whole mesh", "why_tests_cant": "All placements of DRAM and ethernet cores; found necessary by seeded faults that no other theorem noticed.", "anchors": ["tt_npe/cpp/src/npeStats.cpp:computeSummaryStats", "tt_npe/cpp/include/device_models/wormhole_multichip.hpp:getAggregateDRAMBandwidth"]}
{"id": "C73", "title": "Overall figures are means and peaks of the timesteps; the prediction error is relative to golden", "statement": "The overall averages and maxima of a device are the means and peaks of the corresponding figures of its timestep records; the golden cycles increased by the prediction error give the estimate.", "quantifier": "for every report with at least one record / non-empty golden window", "why_tests_cant": "Thirteen similar fields; a swapped field is only visible if values differ.", "anchors": ["tt_npe/cpp/src/npeStats.cpp:computeSummaryStats"]}
{"id": "C74", "title": "One-dimensional fabric paths visit every chip on the way", "statement": "A path for a one-dimensional fabric leads from the sender to its ethernet core and then over start+range-1 neighbouring chips, each segment starting where the one before arrives, with the segment before as its parent; exactly the last range chips write locally; the destination is the last chip.", "quantifier": "for every proper topology, sender, channel, start distance, range and mux", "why_tests_cant": "All mesh shapes and distances; the repository has no test of this script.", "anchors": ["tt_npe/py/util/fabric_post_process.py:find_path_and_destination_1d"]}
{"id": "C75", "title": "The first receiver is on the routing plane of the sending channel", "statement": "The first remote chip of a path receives the data on the ethernet core that belongs to the routing plane of the sending channel.", "quantifier": "for every topology and channel", "why_tests_cant": "Visible only with several routing planes.", "anchors": ["tt_npe/py/util/fabric_post_process.py:find_path_and_destination_1d", "tt_npe/py/util/fabric_post_process.py:add_first_hop"]}
{"id": "C76", "title": "Two-dimensional fabric paths reach the requested chips", "statement": "A unicast leads along the trunk and then along the branch to the chip at the requested distance, the only one that writes; a multicast writes exactly once on each chip of the requested rectangle, with the previous chip as the parent.", "quantifier": "for every proper topology, sender, channel and numbers of hops", "why_tests_cant": "All mesh shapes and hop counts.", "anchors": ["tt_npe/py/util/fabric_post_process.py:find_path_and_destination_2d"]}
{"id": "C77", "title": "The fabric script keeps every event and adds only paths", "statement": "The output of the script holds each input event up to the first timestamp jump exactly once; events without fabric metadata are unchanged; in the others only the destination chip and the path are set.", "quantifier": "for every topology and list of events", "why_tests_cant": "All traces.", "anchors": ["tt_npe/py/util/fabric_post_process.py:process_traces"]}
{"id": "C78", "title": "Program runtime ids separate operation and device", "statement": "Composing a runtime id from an operation id and a device id below 1024 and decomposing it gives both back, and every runtime id is composed in this way; the combination of trace id and replay session is injective.", "quantifier": "for every operation, device, trace and 32-bit session", "why_tests_cant": "All ids.", "anchors": ["tt_npe/py/util/npe_analyze_noc_trace_dir.py:get_program_runtime_id", "tt_npe/py/util/npe_analyze_noc_trace_dir.py:get_ttnn_op_id", "tt_npe/py/util/npe_analyze_noc_trace_dir.py:getDatapointByID"]}
{"id": "C79", "title": "Trace file names are read unambiguously", "statement": "A file name is accepted exactly if it has the documented form, and then device, operation name, runtime id and trace id are the written ones; no name can be read in two ways, although operation names may contain any of the separators.", "quantifier": "for every file name that does not end in a newline", "why_tests_cant": "The regular expression backtracks over operation names like \"ID3_traceID4\".", "anchors": ["tt_npe/py/util/npe_analyze_noc_trace_dir.py:extractDataFromFilename"]}
{"id": "C80", "title": "Trace files are grouped by operation and trace", "statement": "Each readable trace file is in exactly one group, the one of its operation and trace, in the order of the directory listing; other files are in none, and no group is empty.", "quantifier": "for every directory listing", "why_tests_cant": "All file name sets.", "anchors": ["tt_npe/py/util/npe_analyze_noc_trace_dir.py:group_traces_ttnn"]}
{"id": "C81", "title": "Different operations have different output files", "statement": "Merged trace files and timeline files of different operations and traces have different names.", "quantifier": "for every pair of operations", "why_tests_cant": "A collision needs particular ids.", "anchors": ["tt_npe/py/util/npe_analyze_noc_trace_dir.py:OpUID.__str__"]}
{"id": "C82", "title": "Traces can be grouped without operation ids", "statement": "With --group_as_metal_traces the script groups traces by their position on each device and continues.", "quantifier": "for every directory listing", "why_tests_cant": "The option has no test.", "anchors": ["tt_npe/py/util/npe_analyze_noc_trace_dir.py:group_traces_metal"]}
{"id": "C83", "title": "The figures below the table are weighted means; shares add up; rows are sorted", "statement": "The cycle-weighted figures are the means over all golden cycles; the shares of all rows add up to 100 percent; rows are ordered by decreasing golden cycles and hold every datapoint once; at least 25/50/75 percent of the errors are at or below the respective percentile, and the worst error is the maximum.", "quantifier": "for every set of datapoints with golden cycles", "why_tests_cant": "All values.", "anchors": ["tt_npe/py/util/npe_analyze_noc_trace_dir.py:Stats", "tt_npe/py/util/npe_analyze_noc_trace_dir.py:print_stats_summary_table"]}
{"id": "C84", "title": "The analysis does not depend on the order in which workers finish", "statement": "There is one datapoint for each chip of each successful run and none for the whole mesh; in whichever order the results arrive, the figures are the same; a datapoint is found under its runtime id, trace and session.", "quantifier": "for every permutation of results of different operations", "why_tests_cant": "Orders of completion of a process pool.", "anchors": ["tt_npe/py/util/npe_analyze_noc_trace_dir.py:analyze_noc_traces_in_dir"]}
{"id": "C85", "title": "The summary table is printed after every analysis", "statement": "The script prints the table whatever the results of the runs are.", "quantifier": "for every set of results", "why_tests_cant": "Needs all runs to fail, or a device without golden cycles.", "anchors": ["tt_npe/py/util/npe_analyze_noc_trace_dir.py:print_stats_summary_table"]}
{"id": "C86", "title": "Timeline files have names of their own next to the given one", "statement": "The files of a run have pairwise different names: the full document has the given name or the one derived from the workload file, in a directory that the user named, and the i-th split document has the same name with _split_i before the extension, in the same directory.", "quantifier": "for every configuration, workload and number of splits", "why_tests_cant": "Needs paths with particular texts in directory names.", "anchors": ["tt_npe/cpp/src/npeStats.cpp:emitSimTimelineToFile", "tt_npe/cpp/src/npeStats.cpp:writeTimelineToFile"]}
{"id": "C87", "title": "A reader recovers the timeline from the file", "statement": "A reader that takes the fields of a document by their names gets back every transfer with its route, every timestep with its demands and figures, the zones of every core and the figures of the run; a split document also names its region; the format is the published one.", "quantifier": "for every run whose files are written", "why_tests_cant": "All runs; a swapped or misnamed field is visible only to a reader.", "anchors": ["tt_npe/cpp/src/npeStats.cpp:v1TimelineSerialization", "tt_npe/scripts/timeline_schema_v1.json"]}
{"id": "C88", "title": "Documents give the place of every chip", "statement": "The document of a board with several chips names the column and row of each chip of the topology file; the document of a single chip has it at the origin.", "quantifier": "for every board, topology file and run", "why_tests_cant": "Needs all mesh shapes and malformed topology files.", "anchors": ["tt_npe/cpp/src/npeStats.cpp:v1TimelineSerialization"]}
{"id": "C89", "title": "Legacy documents can be read back", "statement": "A reader recovers from a document of the legacy format every transfer with id, bytes, kind, tiles and route and every timestep with its demands and averages.", "quantifier": "for every run whose files are written", "why_tests_cant": "All runs.", "anchors": ["tt_npe/cpp/src/npeStats.cpp:v0TimelineSerialization"]}
{"id": "C90", "title": "Writing a timeline does not change the estimate", "statement": "An estimate that writes timeline files returns the same statistics as the estimate without, and never fails because of the files.", "quantifier": "for every workload, configuration and topology file", "why_tests_cant": "Needs workloads that simulate but cannot be written.", "anchors": ["tt_npe/cpp/src/npeStats.cpp:emitSimTimelineToFile", "tt_npe/cpp/src/npeEngine.cpp:runSinglePerfSim", "tt_npe/cpp/src/npeAPI.cpp:runNPE"]}
{"id": "C91", "title": "Topology files are loaded as written", "statement": "The tables of the loader are those of the file: mesh shape, fabric, cluster, the channel of each chip, plane and direction, the places of the chips and of the ethernet cores; the last of several entries counts; the table from fabric nodes to chips is the inverse of the table of chips; unknown fabrics, several meshes and missing entries are refused.", "quantifier": "for every topology file", "why_tests_cant": "All files; a swapped field is only visible in later paths.", "anchors": ["tt_npe/py/util/fabric_post_process.py:TopologyGraph"]}
{"id": "C92", "title": "The script and the timeline agree about the places of chips", "statement": "A chip has the same column and row in the path expansion of the script and in every timeline document.", "quantifier": "for every topology file, chip and document", "why_tests_cant": "Two programs in two languages read the same file.", "anchors": ["tt_npe/py/util/fabric_post_process.py:TopologyGraph", "tt_npe/cpp/src/npeStats.cpp:v1TimelineSerialization"]}
{"id": "C93", "title": "Comments are removed and nothing else", "statement": "From a topology file with line and block comments, the comments are removed and all other text is kept.", "quantifier": "for every text with comments", "why_tests_cant": "All placements of comments.", "anchors": ["tt_npe/py/util/fabric_post_process.py:strip_comments"]}
{"id": "C94", "title": "The exit status of the command line tool tells whether the estimate succeeded", "statement": "The command line tool ends with status 0 if the simulation succeeded and with another status otherwise.", "quantifier": "for every set of options, workload file and outcome of the simulation", "why_tests_cant": "Needs workloads that fail in the simulation, and all combinations of options.", "anchors": ["tt_npe/py/pycli/tt_npe.py:main", "tt_npe/cpp/pybind/bindings.cpp:Stats"]}
{"id": "C95", "title": "Generated sample routes are those of the device model", "statement": "The route that the sample generator draws between two cores is the one that the device model computes; every drawn pair of cores gets a route.", "quantifier": "for every grid size, NoC and pair of drawn cores", "why_tests_cant": "Two programs in two languages; all grid sizes given on the command line.", "anchors": ["tt_npe/scripts/generate_multichip_data.py:generate_route_segment", "tt_npe/cpp/include/device_models/wormhole_b0.hpp:unicastRoute"]}
{"id": "C96", "title": "Generated timesteps list what is active in them", "statement": "A transfer is listed in a timestep exactly if it uses a link during one of its cycles; a link's demand is the sum over the transfers on it; transfers take long enough for their bytes; the timesteps cover all transfers.", "quantifier": "for every list of generated transfers and timestep length", "why_tests_cant": "Boundaries of timesteps for all intervals.", "anchors": ["tt_npe/scripts/generate_multichip_data.py:timestep_link_bins", "tt_npe/scripts/generate_multichip_data.py:estimate_transfer_time"]}
{"id": "C97", "title": "Generated demands and averages are to scale", "statement": "The demand of a transfer over its cycles is its bytes, and the average figures of a timestep are means over all links of the board.", "quantifier": "for every list of generated transfers, grid and number of devices", "why_tests_cant": "Needs comparison with the real number of links.", "anchors": ["tt_npe/scripts/generate_multichip_data.py:approx_demand_per_link", "tt_npe/scripts/generate_multichip_data.py:num_links"]}
{"id": "C98", "title": "The sample generator finds paths between devices", "statement": "For two different devices of a topology the generator finds a path between them.", "quantifier": "for every topology and pair of devices", "why_tests_cant": "All topologies.", "anchors": ["tt_npe/scripts/generate_multichip_data.py", "tt_npe/py/util/fabric_post_process.py:find_optimal_path"]}
{"id": "C99", "title": "The example program simulates the workload that it builds", "statement": "Whatever the random choices of the example program are, the simulation of the workload that it builds through the Python bindings returns statistics, and the program ends with status 0.", "quantifier": "for every sequence of possible draws, every rounding of floating-point numbers and every iteration order of the hash containers", "why_tests_cant": "About (9*9*2*2*2*513*4)^30 different workloads; a run shows one of them.", "anchors": ["tt_npe/py/examples/programmatic_workload_generation.py:genWorkload", "tt_npe/py/examples/programmatic_workload_generation.py:main", "tt_npe/cpp/include/npeWorkload.hpp:getGoldenResultCycles"]}
{"id": "C100", "title": "Equal keys have equal hashes", "statement": "Two coordinates, rectangles, multicast sets, links, interfaces or zones that compare equal have the same hash, so that a hash container finds what an association list finds.", "quantifier": "for all pairs of keys, every number of buckets and every device", "why_tests_cant": "All pairs of keys.", "anchors": ["tt_npe/cpp/include/npeUtil.hpp:CoordGrid::operator==", "tt_npe/cpp/include/npeUtil.hpp:hash<tt_npe::MulticastCoordSet>", "tt_npe/cpp/include/npeDeviceTypes.hpp:hash<tt_npe::nocLinkAttr>"]}
{"id": "C101", "title": "Mixing of hashes loses nothing", "statement": "Sequences that differ in exactly one element have different hashes, different seeds give different hashes, and every result of a mixing step comes from exactly one value.", "quantifier": "for all seeds, sequences of any length and pairs of 64-bit values", "why_tests_cant": "2^64 values in each place.", "anchors": ["tt_npe/cpp/include/npeUtil.hpp:hash_combine", "tt_npe/cpp/include/npeUtil.hpp:distribute", "tt_npe/cpp/include/npeUtil.hpp:hash_container"]}
{"id": "C102", "title": "The hash of a sequence depends on its order", "statement": "Exchanging two different neighbouring elements changes the hash.", "quantifier": "for all seeds, sequences and pairs of 64-bit values", "why_tests_cant": "Each value has one partner among 2^64 for which it fails.", "anchors": ["tt_npe/cpp/include/npeUtil.hpp:hash_combine"]}
{"id": "C103", "title": "Keys of a device have different hashes", "statement": "On every device of the factory no two links, interfaces or coordinates have the same hash.", "quantifier": "for every device name and all pairs of its keys", "why_tests_cant": "29376 links of the largest board, in pairs.", "anchors": ["tt_npe/cpp/include/npeDeviceTypes.hpp:hash<tt_npe::nocLinkAttr>", "tt_npe/cpp/include/npeUtil.hpp:hash<tt_npe::Coord>", "tt_npe/cpp/include/device_models/wormhole_multichip.hpp:populateNoCLinkLookups"]}
{"id": "C104", "title": "The random test of the bindings passes for every draw", "statement": "Whatever the random choices of the test test_npe_create_and_run_larger_synthetic_workload are, the simulation of its 64 transfers returns statistics, not the cycle limit error and no exception.", "quantifier": "for every sequence of at most 64 possible draws, every rounding of floating-point numbers and every iteration order of the hash containers", "why_tests_cant": "The test itself runs one of about (14*8*7^4*2)^64 workloads each time.", "anchors": ["tt_npe/py/pytest/test_bindings.py:test_npe_create_and_run_larger_synthetic_workload", "tt_npe/cpp/src/npeEngine.cpp:runSinglePerfSim", "tt_npe/cpp/src/npeAPI.cpp:runNPE"]}
{"id": "C105", "title": "A workload that cannot be transferred within the cycle limit is reported", "statement": "If a transfer has more bytes than its bandwidth can move between its offset and the cycle limit, the run returns the cycle limit error, not statistics.", "quantifier": "for every device, configuration, rounding, hash order and workload of executable transfers that contains such a transfer", "why_tests_cant": "Runs of 50,000,000 cycles; the two tests use one workload each, whose byte count moreover wraps around and exceeds the limit by 0.3 percent only.", "anchors": ["tt_npe/cpp/src/npeEngine.cpp:runSinglePerfSim", "tt_npe/py/pytest/test_bindings.py:test_npe_max_cycle_limit", "tt_npe/cpp/test/test_npe_engine.cpp:CanTimeoutOnMaxCycles"]}
{"id": "C106", "title": "No estimate is below the time that the data needs", "statement": "The estimated cycles of a device leave every transfer that counts for it enough time, from its offset on, to move its bytes with the bandwidth that it would have alone.", "quantifier": "for every device, workload, timestep, rounding, congestion model and hash order", "why_tests_cant": "All interleavings of transfers and timesteps; the violation needs a dependency that ends exactly at the start of a timestep.", "anchors": ["tt_npe/cpp/src/npeEngine.cpp:runSinglePerfSim", "tt_npe/cpp/src/npeStats.cpp:computeSummaryStats"]}
{"id": "C107", "title": "Multicast utilisation is the part of the link utilisation due to multicasts", "statement": "If every transfer is a multicast, the reported multicast utilisation of every device equals its link utilisation; if none is, it is zero.", "quantifier": "for every device, configuration, workload, rounding and hash order, and every timestep and device of the report", "why_tests_cant": "The test ValidatesMulticastUtilizationFromTrace checks the share of one trace within 0.001; the demand of multicasts and of all transfers is accumulated in separate grids over all timesteps.", "anchors": ["tt_npe/cpp/include/device_models/wormhole_b0.hpp:modelCongestion", "tt_npe/cpp/include/npeDeviceModelUtils.hpp:updateSimulationStats", "tt_npe/cpp/src/npeWorkloadIngest.cpp:convertNocTracesToNpeWorkload", "tt_npe/cpp/test/test_npe_api.cpp:ValidatesMulticastUtilizationFromTrace"]}
{"id": "C108", "title": "The text of a destination determines it", "statement": "A reader of the printed form of a coordinate or of a set of rectangles gets back what was printed.", "quantifier": "for all destinations, with any integers as coordinates and any number of rectangles", "why_tests_cant": "All integers; the test compares one text, with corners on the same chip.", "anchors": ["tt_npe/cpp/include/npeUtil.hpp:formatter<tt_npe::Coord>", "tt_npe/cpp/include/npeUtil.hpp:formatter<tt_npe::MulticastCoordSet>"]}
{"id": "C109", "title": "The tests of hash quality pass for every draw", "statement": "The coordinates of the test are spread evenly over its buckets, and whatever 10000 different links and interfaces are drawn, these are spread evenly and hardly collide.", "quantifier": "for every possible draw of links and interfaces", "why_tests_cant": "The test takes one draw out of 19404 over 10000.", "anchors": ["tt_npe/cpp/include/npeUtil.hpp:hash_combine", "tt_npe/cpp/include/npeDeviceTypes.hpp:hash<tt_npe::nocLinkAttr>", "tt_npe/cpp/test/test_npe_util.cpp:HashFunctionQuality"]}
{"id": "C110", "title": "Well-formed traces can be read and simulated", "statement": "A trace file whose zones are nested and whose movements lie on the device is read as a workload, and the run of that workload returns statistics or the cycle limit error; it returns statistics if the movements are few and small enough.", "quantifier": "for every device, configuration, rounding and hash order, and every list of events that is well formed", "why_tests_cant": "All traces; the tests convert one file of seven events.", "anchors": ["tt_npe/cpp/src/npeWorkloadIngest.cpp:convertNocTracesToNpeWorkload", "tt_npe/cpp/src/npeWorkloadIngest.cpp:createWorkloadFromJSON", "tt_npe/cpp/src/npeAPI.cpp:runNPE"]}
{"id": "C111", "title": "A simulation computes what a short description says", "statement": "In every timestep the transfers that may begin do so, every active one moves what its share of the links and interfaces allows, and those that are complete record their end; the run ends at the first timestep after which all are complete. The order of queue and active list has no influence.", "quantifier": "for every device, workload, timestep, hash order and state of a run", "why_tests_cant": "All states of all runs, against an independent description without queue, swaps and checkpoints.", "anchors": ["tt_npe/cpp/src/npeEngine.cpp:runSinglePerfSim", "tt_npe/cpp/src/npeEngine.cpp:genDependencies", "tt_npe/cpp/include/device_models/wormhole_b0.hpp:modelCongestion", "tt_npe/cpp/include/npeDeviceModelUtils.hpp:updateTransferBandwidth"]}
{"id": "C112", "title": "Results do not depend on the order of hash tables", "statement": "Two runs whose hash containers are iterated in different orders give every transfer the same start and end and end at the same clock.", "quantifier": "for every device, workload and timestep, and all pairs of iteration orders", "why_tests_cant": "The order of a hash container is unspecified; a test sees one.", "anchors": ["tt_npe/cpp/src/npeEngine.cpp:genDependencies", "tt_npe/cpp/include/device_models/wormhole_b0.hpp:route", "tt_npe/cpp/src/npeEngine.cpp:runSinglePerfSim"]}
{"id": "C113", "title": "Traffic that shares nothing has no influence", "statement": "Adding transfers that share no link, source, sink, queue or group with the others (such as those on the other NoC or on another chip) changes no start and no end of the others.", "quantifier": "for every device, every pair of workloads of which one is contained in the other, every timestep and hash order", "why_tests_cant": "All pairs of workloads and all interleavings of their transfers.", "anchors": ["tt_npe/cpp/src/npeEngine.cpp:runSinglePerfSim", "tt_npe/cpp/src/npeEngine.cpp:genDependencies", "tt_npe/cpp/include/device_models/wormhole_b0.hpp:modelCongestion"]}
{"id": "C114", "title": "A later schedule gives later results", "statement": "If all offsets are increased by the same amount, all starts, all ends and the final clock increase by that amount.", "quantifier": "for every device, workload, hash order, timestep and delay", "why_tests_cant": "All delays and all states of the two runs.", "anchors": ["tt_npe/cpp/src/npeEngine.cpp:runSinglePerfSim", "tt_npe/cpp/src/npeEngine.cpp:genDependencies", "tt_npe/cpp/include/device_models/wormhole_b0.hpp:modelCongestion"]}
{"id": "C115", "title": "Congestion never makes a transfer end earlier", "statement": "If a workload is simulated with and without the congestion model, every transfer starts at the same cycle or later with congestion and ends no earlier; so the estimated cycles are not smaller, and the congestion impact is not negative.", "quantifier": "for every device, workload, timestep and hash order", "why_tests_cant": "All workloads and all states of the two runs.", "anchors": ["tt_npe/cpp/src/npeEngine.cpp:runSinglePerfSim", "tt_npe/cpp/include/device_models/wormhole_b0.hpp:modelCongestion", "tt_npe/cpp/src/npeEngine.cpp:runPerfEstimation"]}
{"id": "C116", "title": "Further traffic never makes a transfer end earlier", "statement": "Adding transfers to a workload makes no transfer of the smaller workload end earlier.", "quantifier": "for every device, every pair of workloads of which one is contained in the other, every timestep and hash order", "why_tests_cant": "All pairs of workloads; the influence goes through loads, speeds and ends of all others.", "anchors": ["tt_npe/cpp/src/npeEngine.cpp:runSinglePerfSim", "tt_npe/cpp/include/device_models/wormhole_b0.hpp:modelCongestion", "tt_npe/cpp/src/npeEngine.cpp:genDependencies"]}
{"id": "C117", "title": "Slower links or sinks never make a transfer end earlier", "statement": "On a device with less link bandwidth or lower absorption rates, no transfer of a workload ends earlier.", "quantifier": "for every device, all smaller bandwidths, every workload, timestep and hash order", "why_tests_cant": "All devices, all bandwidths and all states of the two runs.", "anchors": ["tt_npe/cpp/src/npeEngine.cpp:runSinglePerfSim", "tt_npe/cpp/include/device_models/wormhole_b0.hpp:modelCongestion", "tt_npe/cpp/include/device_models/wormhole_b0.hpp:getLinkBandwidth", "tt_npe/cpp/include/device_models/wormhole_b0.hpp:getSinkAbsorptionRate"]}
{"id": "C118", "title": "The order of transfers in the workload does not matter", "statement": "If the transfers of a workload are listed in another order, every transfer starts and ends at the same cycles and the final clock is the same.", "quantifier": "for every device, workload, rearrangement, timestep and hash order", "why_tests_cant": "All rearrangements of all workloads.", "anchors": ["tt_npe/cpp/src/npeEngine.cpp:runSinglePerfSim", "tt_npe/cpp/src/npeEngine.cpp:genDependencies", "tt_npe/cpp/src/npeEngine.cpp:createTransferQueue", "tt_npe/cpp/include/device_models/wormhole_b0.hpp:modelCongestion"]}
{"id": "C119", "title": "Timeline files that are written without complaint hold the timeline", "statement": "A timeline file, compressed or not, about which no error was reported can be read back and holds the document of the run; other files are not touched, and writing never changes the result of the estimate.", "quantifier": "for every run, every behaviour of the disk, and all lossless libraries for JSON text and compression", "why_tests_cant": "All points at which a disk can fail, and all documents.", "anchors": ["tt_npe/cpp/src/npeCompressionUtil.cpp:compressToFile", "tt_npe/cpp/src/npeStats.cpp:writeTimelineToFile", "tt_npe/cpp/src/npeStats.cpp:emitSimTimelineToFile"]}
{"id": "C120", "title": "The figures can be read from the text of statistics", "statement": "From the printed text of statistics a reader gets the estimated and golden cycles as they are and every percentage up to half a tenth; the prediction error is there exactly if golden cycles are known, the run time exactly if asked for.", "quantifier": "for all statistics and every way of rounding to the nearest tenth", "why_tests_cant": "All values, all widths of numbers, infinities and missing values.", "anchors": ["tt_npe/cpp/src/npeStats.cpp:to_string"]}
{"id": "C121", "title": "The text of ethernet cores lists every core once, in order", "statement": "The text lists each core with traffic exactly once, in ascending order, with its utilisation up to half a tenth, and does not depend on the order of the hash map.", "quantifier": "for all sets of cores and all orders of the hash map", "why_tests_cant": "All orders of a hash map; a test sees one.", "anchors": ["tt_npe/cpp/src/npeStats.cpp:getEthBwUtilPerCoreStr"]}
{"id": "C122", "title": "The text of a configuration determines it", "statement": "Two configurations with the same text are the same.", "quantifier": "for all configurations", "why_tests_cant": "All names of files and devices.", "anchors": ["tt_npe/cpp/include/npeConfig.hpp:to_string", "tt_npe/cpp/include/npeConfig.hpp:setVerbosityLevel"]}
{"id": "C123", "title": "Without congestion, the length of the timestep does not matter", "statement": "Without the congestion model, a transfer starts and ends at the same cycles whatever the number of cycles per timestep.", "quantifier": "for every device, workload, hash order and all lengths of the timestep", "why_tests_cant": "All lengths of the timestep, all bandwidths and sizes.", "anchors": ["tt_npe/cpp/src/npeEngine.cpp:runSinglePerfSim", "tt_npe/cpp/include/npeDeviceModelUtils.hpp:updateTransferBandwidth"]}
{"id": "C124", "title": "Equal transfers are treated equally", "statement": "Two transfers with the same source, destination, size, rate, NoC and offset are equally far in every state of a run: both wait, both have moved the same bytes since the same cycle, or both have the same start and end.", "quantifier": "for every device, workload, hash order, timestep, every pair of equal transfers and every state of the run", "why_tests_cant": "All states of all runs; the engine handles transfers one after the other in an order that changes.", "anchors": ["tt_npe/cpp/src/npeEngine.cpp:runSinglePerfSim", "tt_npe/cpp/src/npeEngine.cpp:genDependencies", "tt_npe/cpp/include/device_models/wormhole_b0.hpp:modelCongestion"]}
{"id": "C125", "title": "How transfers are divided into phases has no influence", "statement": "Two workloads whose phases hold the same transfers in the same order give the same starts, ends and final clock, and complete runs (preprocessing, validation, simulations) give the same statistics, error codes, failures and timeline files, although phases are documented to express dependencies and offsets to be relative to the start of the phase.", "quantifier": "for every device, timestep, hash order and all divisions into phases", "why_tests_cant": "All divisions of all workloads.", "anchors": ["tt_npe/cpp/src/npeEngine.cpp:runSinglePerfSim", "tt_npe/cpp/src/npeEngine.cpp:initTransferState", "tt_npe/cpp/src/npeEngine.cpp:createTransferQueue", "tt_npe/cpp/src/npeWorkload.cpp:addPhase"]}
{"id": "C126", "title": "The device models have the cores of the layout files", "statement": "A position of the grid has a core type in the device model exactly if the layout file of the architecture lists it so; every position is listed exactly once and no other one is.", "quantifier": "for both architectures, any number of chips and all coordinates", "why_tests_cant": "All positions; two independent sources have to agree.", "anchors": ["tt_npe/cpp/include/device_models/wormhole_b0.hpp:coord_to_core_type_map", "tt_npe/cpp/include/device_models/blackhole.hpp:coord_to_core_type_map", "tt_npe/data/device/layout/arch-wormhole.yaml", "tt_npe/data/device/layout/arch-blackhole.yaml"]}
{"id": "C127", "title": "Grids hold what was written to them", "statement": "Every read of a grid returns the value of the last write to the same place or of a later reset, else the first value; going through a grid meets the values row by row; places outside of the bounds are refused; the grid of core types of a device gives what the device model says, whatever the order of the table it is filled from.", "quantifier": "for all sizes, programs of reads, writes and resets, values and kinds of build", "why_tests_cant": "All programs and sizes; the bounds are checked by an assertion that release builds leave out.", "anchors": ["tt_npe/cpp/include/grid.hpp:Grid2D", "tt_npe/cpp/include/grid.hpp:Grid3D", "tt_npe/cpp/include/device_models/wormhole_b0.hpp:WormholeB0DeviceModel"]}
{"id": "C128", "title": "A file with another extension is read only if the user agrees", "statement": "Before a workload file without the extension .json is read the user is asked, and it is read exactly if the first thing typed is y or Y; without an answer it is not read.", "quantifier": "for all files, paths and texts on the standard input", "why_tests_cant": "All inputs, also none; tests do not type anything.", "anchors": ["tt_npe/cpp/include/npeUtil.hpp:promptUser", "tt_npe/cpp/src/npeWorkloadIngest.cpp:loadJSONWorkloadFormat"]}
{"id": "C129", "title": "Where on the grid transfers take place does not matter", "statement": "If all transfers are moved by the same number of rows and columns around the torus, and the receiving cores absorb data at the same rates as before, all starts, all ends and the final clock stay the same; routes consist of the moved links.", "quantifier": "for every device, workload of unicasts within chips, displacement, timestep, hash orders, rounding, with and without congestion model", "why_tests_cant": "All displacements of all workloads; grid edges and corners are crossed in many ways.", "anchors": ["tt_npe/cpp/src/npeEngine.cpp:runSinglePerfSim", "tt_npe/cpp/include/device_models/wormhole_b0.hpp:unicastRoute", "tt_npe/cpp/include/device_models/wormhole_b0.hpp:modelCongestion", "tt_npe/cpp/src/npeEngine.cpp:genDependencies"]}
{"id": "C130", "title": "The two NoCs are mirror images", "statement": "The route back on the other NoC runs over the opposite links of the route in reverse order; a workload mirrored at the diagonal with the NoCs exchanged has, on the device with rows and columns exchanged, the same starts, ends and final clock.", "quantifier": "for every device, all pairs of cores, and every workload of unicasts within chips without groups, timestep, hash orders, rounding, with and without congestion model", "why_tests_cant": "All workloads; the code for the two NoCs is written separately in routing, bandwidth modelling and statistics.", "anchors": ["tt_npe/cpp/include/device_models/wormhole_b0.hpp:unicastRoute", "tt_npe/cpp/include/device_models/wormhole_b0.hpp:modelCongestion", "tt_npe/cpp/include/device_models/wormhole_b0.hpp:updateTransferBandwidth", "tt_npe/cpp/src/npeEngine.cpp:runSinglePerfSim"]}
{"id": "C131", "title": "The numbers of the chips do not matter", "statement": "If the chips of a board get other numbers, or the same transfers take place on a board with more or fewer of the same chips, all routes, starts, ends and the final clock stay the same, and every chip keeps its estimate under its new number.", "quantifier": "for every multichip device, renumbering of its chips, workload of unicasts within chips (with groups across chips), timestep, hash orders, rounding, with and without congestion model", "why_tests_cant": "All renumberings of all workloads; the code computes link and core numbers from chip numbers and treats chip 0 specially in several places.", "anchors": ["tt_npe/cpp/include/device_models/wormhole_b0.hpp:unicastRoute", "tt_npe/cpp/include/device_models/wormhole_b0.hpp:modelCongestion", "tt_npe/cpp/src/npeEngine.cpp:runSinglePerfSim", "tt_npe/cpp/src/npeEngine.cpp:genDependencies", "tt_npe/cpp/src/npeStats.cpp:computeSummaryStats"]}
{"id": "C132", "title": "Timeline files have the published format", "statement": "The documents that an estimate writes have the shape of the format published with the code: for the current format tt_npe/scripts/timeline_schema_v1.json (keys, tuples and names of common_info, chips, noc_transfers with their route segments, and timestep_data), for the legacy format tt_npe/scripts/stats_schema.json, with the names given there for keys, NoCs and links, and with numbers for all figures.", "quantifier": "all workloads, devices, estimator settings, topology files, split thresholds, orders of iteration and rounding modes for which files are written", "why_tests_cant": "A schema check of sample files covers the transfers, routes and figures that occur in them; figures that disappear depend on golden cycles, and every element of every list must have the shape. Here the shape is checked for all documents at once, and the deviations from the published file are listed completely.", "anchors": ["tt_npe/scripts/timeline_schema_v1.json:timeline_schema_v1", "tt_npe/scripts/stats_schema.json:stats_schema", "tt_npe/cpp/src/npeStats.cpp:v1TimelineSerialization", "tt_npe/cpp/src/npeStats.cpp:v0TimelineSerialization", "tt_npe/cpp/src/npeStats.cpp:emitSimTimelineToFile"]}
{"id": "C133", "title": "The summary table says what each row is about and how many are left out", "statement": "From the summary table that the analysis script prints one can read, for each listed result, the operation, its trace, the chip and the figures (up to half of the last printed place); listed are the results with the most cycles, as many as asked for, in descending order; the number given as left out is the number of the others; the means below are those of all results.", "quantifier": "for all sets of results with golden cycles, numbers of rows asked for, and double precision rounding of the sort key", "why_tests_cant": "All names, ids, figures and numbers of rows; a test looks at one output, and text that can be misread does not show.", "anchors": ["tt_npe/py/util/npe_analyze_noc_trace_dir.py:print_stats_summary_table", "tt_npe/py/util/npe_analyze_noc_trace_dir.py:getSortedEvents", "tt_npe/py/util/npe_analyze_noc_trace_dir.py:extractDataFromFilename", "tt_npe/cpp/src/npeStats.cpp:getEthBwUtilPerCoreStr"]}
{"id": "C134", "title": "The manifest of the analysis lists exactly the timelines written", "statement": "After the analysis of a directory with timelines, the manifest names one file for every operation whose estimate succeeded and no others, no two entries name the same file, every named file was written and holds the complete timeline of its operation, all other files written are parts of these timelines, and the results collected are those of the successful estimates. Entries are found by their number.", "quantifier": "for all directories of traces, contents of traces, names of operations, orders of completion, devices, topology files, options for compression and split thresholds", "why_tests_cant": "All combinations of operations, traces and failures; a file that is overwritten by that of another operation leaves no mark.", "anchors": ["tt_npe/py/util/npe_analyze_noc_trace_dir.py:analyze_noc_traces_in_dir", "tt_npe/py/util/npe_analyze_noc_trace_dir.py:run_npe", "tt_npe/py/util/npe_analyze_noc_trace_dir.py:process_trace", "tt_npe/cpp/src/npeStats.cpp:emitSimTimelineToFile"]}
{"id": "C135", "title": "More packets never make a transfer end earlier", "statement": "If some transfers of a workload get more packets of the same size, and further transfers may be added, then no transfer of the original workload ends earlier, and the simulation does not end earlier.", "quantifier": "for all workloads, devices, numbers of packets, further transfers, timestep sizes, hash orders and roundings, with and without congestion", "why_tests_cant": "All workloads and all ways to enlarge them; a test compares a few pairs of runs.", "anchors": ["tt_npe/cpp/include/npeDeviceModelUtils.hpp:interpolateBW", "tt_npe/cpp/include/npeDeviceModelUtils.hpp:updateTransferBandwidth", "tt_npe/cpp/src/npeEngine.cpp:runSinglePerfSim", "tt_npe/cpp/include/npeWorkload.hpp:npeWorkloadTransfer"]}
{"id": "C136", "title": "No transfer starves: its end can be bounded before the run", "statement": "A transfer never moves slower than it would if all transfers of the workload were active all the time. So deadlines computed from these speeds, the bytes, the offsets and the transfers waited for hold: if all of them are within the limit of cycles, the simulation finishes by the last one, and no transfer ends more than one timestep (and, with rounding, one cycle below cycle 2^24 and 26 cycles above) after its own.", "quantifier": "for all workloads (with groups and queues), devices, deadlines, timestep sizes, hash orders and roundings, with and without congestion", "why_tests_cant": "All workloads and all states of a run; a test sees that some runs end.", "anchors": ["tt_npe/cpp/src/npeEngine.cpp:runSinglePerfSim", "tt_npe/cpp/include/npeDeviceModelUtils.hpp:updateTransferBandwidth", "tt_npe/cpp/include/device_models/wormhole_b0.hpp:modelCongestion"]}
{"id": "C137", "title": "The workload of a trace does not depend on when the trace was recorded", "statement": "Two traces whose events agree in the fields that mean something, and whose timestamps differ by the same number of cycles for all events, are converted to the same workload (transfers, zones, groups and golden windows), or fail in the same way; other fields and the order of the fields have no influence.", "quantifier": "for all traces, devices, numbers of cycles (also negative) and roundings", "why_tests_cant": "All traces and all times of recording; tests use a few recorded traces.", "anchors": ["tt_npe/cpp/src/npeWorkloadIngest.cpp:convertNocTracesToNpeWorkload", "tt_npe/cpp/src/npeWorkloadIngest.cpp:computeGoldenCyclesAndT0", "tt_npe/cpp/src/npeWorkloadIngest.cpp:extractZones"]}
{"id": "C138", "title": "Only an overloaded point slows a transfer, by the factor of the worst one", "statement": "A transfer keeps its bandwidth if no link of its route, nor its source, nor (for unicasts) its sink is asked for more than its capacity. Otherwise its bandwidth is multiplied by capacity/load of the worst of these points. Transfers that pass the same points are slowed by the same factor.", "quantifier": "for every device, timestep and set of active transfers (and for every rounding, up to small margins)", "why_tests_cant": "The factor depends on every other active transfer; tests compare a few totals and would not notice a transfer slowed by a point it does not use, or by the second worst point.", "anchors": ["tt_npe/cpp/include/device_models/wormhole_b0.hpp:modelCongestion", "tt_npe/cpp/include/device_models/wormhole_multichip.hpp:modelCongestion", "tt_npe/cpp/include/device_models/blackhole.hpp:modelCongestion"]}
{"id": "C139", "title": "No capacity is left unused while a transfer is slowed down", "statement": "A transfer that is slowed down passes some link or interface whose capacity is used up after derating.", "quantifier": "for every device, timestep and set of active transfers", "why_tests_cant": "Unused capacity does not show in any output; finding it needs the loads after derating of every point that a transfer passes.", "anchors": ["tt_npe/cpp/include/device_models/wormhole_b0.hpp:modelCongestion", "tt_npe/cpp/include/device_models/wormhole_multichip.hpp:modelCongestion", "tt_npe/cpp/include/device_models/blackhole.hpp:modelCongestion"]}
{"id": "C140", "title": "Building a workload in Python and loading it from a file give the same", "statement": "If a workload file says the same as the calls of a Python program that builds a workload through the bindings, then loading the file gives the same workload (apart from the path), and all simulations of it give the same results. Arguments that Python accepts are taken as given.", "quantifier": "for every list of phases of transfers, every file that says the same, all golden cycles, and every API", "why_tests_cant": "The tests build a few workloads in Python and load other ones from files; none compares the two ways, and none uses numbers at the limits of the types.", "anchors": ["tt_npe/cpp/pybind/bindings.cpp:PYBIND11_MODULE", "tt_npe/cpp/src/npeWorkloadIngest.cpp:loadJSONWorkloadFormat", "tt_npe/cpp/include/npeUtil.hpp:Coord"]}
{"id": "C141", "title": "The figures of sample data for each NoC and for the run agree with each other", "statement": "In generated sample data, the figures of a NoC are means over its links, those for both NoCs lie in the middle between the two, the overall figures are the means of those of the timesteps, and the maximum is the largest demand on a link; all up to the rounding to two digits.", "quantifier": "for every list of generated transfers, grid, number of devices and rounding", "why_tests_cant": "There is no test of the generator, and its random output has no reference.", "anchors": ["tt_npe/scripts/generate_multichip_data.py:noc_0_avg_link_demand", "tt_npe/scripts/generate_multichip_data.py:overall_link_demand", "tt_npe/scripts/generate_multichip_data.py:max_link_demand"]}
{"id": "C142", "title": "The recorded utilisation of the links accounts for all data", "statement": "In a run with congestion whose transfers lie in the window of the mesh (from cycle 0), the data that a link has carried according to the records (demand, at most the bandwidth, times the cycles of the records) are at least the data that the transfers have sent over it; and the reported average utilisation times the bandwidth of all links times the simulated time is at least the data times the links that they pass.", "quantifier": "for every device, workload, timestep length, hash order and link, in exact arithmetic and (with explicit allowances) in arithmetic with rounding", "why_tests_cant": "No test compares the utilisation in the statistics with the data that were moved; a test would see a few workloads only.", "anchors": ["tt_npe/cpp/include/npeDeviceModelUtils.hpp:updateSimulationStats", "tt_npe/cpp/src/npeEngine.cpp:runSinglePerfSim", "tt_npe/cpp/include/device_models/wormhole_b0.hpp:modelCongestion", "tt_npe/cpp/src/npeStats.cpp:computeSummaryStats"]}
{"id": "C143", "title": "A bar chart shows every value by a bar", "statement": "In the chart that displayBarChart draws, a cell belongs to a bar exactly if the value of its row lies between zero and the value of a point whose abscissa belongs to the column; the axis is drawn at zero; nothing is written outside of the grid.", "quantifier": "for all lists of numbers and all sizes of the chart, exact arithmetic", "why_tests_cant": "There is no test of the chart, and what it looks like depends on the numbers; a test would compare a few pictures only.", "anchors": ["tt_npe/cpp/include/npeChart.hpp:displayBarChart"]}
{"id": "C144", "title": "No estimate is below the time that the busiest link, source or sink needs", "statement": "The estimated cycles of a device, counted from the start of the timestep in which its window begins, are enough to send the data over every link at the bandwidth of the link, to send the data from every core at the largest injection rate of its transfers, and to receive the unicast data at every core at its absorption rate.", "quantifier": "for every device, workload, timestep and hash order, with the congestion model, exact arithmetic", "why_tests_cant": "A test compares single estimates with expected values; it cannot show that no combination of transfers, starts and timesteps gets more through a link than the link can carry.", "anchors": ["tt_npe/cpp/src/npeEngine.cpp:runSinglePerfSim", "tt_npe/cpp/include/device_models/wormhole_b0.hpp:modelCongestion", "tt_npe/cpp/src/npeStats.cpp:finishSimulation"]}
{"id": "C145", "title": "A timer measures the time to its first use and prints at most once on its own", "statement": "All numbers that a timer gives are about the same time, that from its construction to the first call (or to its destruction); milliseconds are the whole thousands of the microseconds. A timer prints a line for every call of printDelta, and one at the end exactly if nothing was called and it is not silent, also if it was moved. A divider line has the same width for every title.", "quantifier": "for every sequence of calls, every reading of the clock, every name and title", "why_tests_cant": "Readings of the clock differ from run to run, so a test cannot compare them; the orders of calls are unbounded.", "anchors": ["tt_npe/cpp/include/ScopedTimer.hpp:ScopedTimer", "tt_npe/cpp/include/npeUtil.hpp:printDiv"]}
{"id": "C146", "title": "The order of the table of issue queues shows nowhere", "statement": "Two runs that iterate over the hash table of issue queues in different orders return the same: the same statistics, timestep by timestep, or the same error, exception or undefined behaviour; they write the same timelines, and the command line program and the analysis of a directory end in the same way. Without multicasts the same holds for the order of the sets of links.", "quantifier": "for every device, configuration, workload, rounding of floating point numbers, and all pairs of iteration orders; no assumption that the run succeeds", "why_tests_cant": "A test sees the one order of its standard library; another library or version iterates differently.", "anchors": ["tt_npe/cpp/src/npeEngine.cpp:genDependencies", "tt_npe/cpp/src/npeEngine.cpp:runSinglePerfSim", "tt_npe/cpp/src/npeAPI.cpp:runNPE", "tt_npe/cpp/src/npeStats.cpp:emitSimTimelineToFile"]}
{"id": "C147", "title": "The order of the table of transfer groups shows only in the order of the listed transfers", "statement": "A run that returns statistics returns the same ones whatever the order in which the hash table of transfer groups is iterated, and it writes files with the same names in the same order. The files differ at most in the order in which noc_transfers lists the transfers; every other field, and everything within a listed transfer, is the same.", "quantifier": "for every device, configuration, workload, rounding, timeline option and all pairs of iteration orders", "why_tests_cant": "A test sees the one order of its standard library, and a comparison of files would fail or pass by accident.", "anchors": ["tt_npe/cpp/src/npeStats.cpp:v1TimelineSerialization", "tt_npe/cpp/src/npeStats.cpp:emitSimTimelineToFile", "tt_npe/cpp/src/npeAPI.cpp:runNPE"]}
{"id": "C148", "title": "Which operation is estimated first shows only among equally long operations", "statement": "The analysis of a directory runs its operations in a pool and takes the results in the order of completion. For any two orders: if it ends in one, it ends in the other and leaves the same statistics for each operation and chip, the same entries of the manifest and the same files, with equal totals, means and percentiles. The summary table is printed for both orders or for neither, with the same figures and the same columns of lengths and shares; the whole table is the same unless two rows have the same length, in which case the one finished first comes first and may be the only one shown.", "quantifier": "for every list of different operations with their traces, all options, every rounding of the simulation and every pair of orders; golden cycles up to 2^52 for the table", "why_tests_cant": "The order of completion depends on the load of the machine; a test sees one of them, and rarely equal lengths.", "anchors": ["tt_npe/py/util/npe_analyze_noc_trace_dir.py:analyze_noc_traces_in_dir", "tt_npe/py/util/npe_analyze_noc_trace_dir.py:print_stats_summary_table", "tt_npe/py/util/npe_analyze_noc_trace_dir.py:Stats"]}
{"id": "C149", "title": "Event types and zones are labels", "statement": "The event type of a transfer (apart from whether it is that of multicast writes), its zone, the zones of the cores, the number of transfer groups and the path of the source have no influence on the estimates, statistics, error codes and failures of a complete run. The exception is needed: the event type alone, not the kind of destination, decides what counts for the multicast utilisation.", "quantifier": "for every workload (valid or not), configuration, device, rounding and order of the hash tables, and all labels", "why_tests_cant": "All pairs of labels for all workloads.", "anchors": ["tt_npe/cpp/src/npeEngine.cpp:runSinglePerfSim", "tt_npe/cpp/src/npeAPI.cpp:runNPE", "tt_npe/cpp/include/device_models/wormhole_b0.hpp:modelCongestion"]}
{"id": "C150", "title": "The measured result does not influence the estimate", "statement": "How long the hardware took (the ends of the golden windows) serves the comparison only: apart from the measured cycles, the prediction error and the utilisations over the measured time, the result of a complete run is the same whatever the ends are. What happens to the transfers does not depend on the windows at all.", "quantifier": "for every workload, configuration, device, rounding and order of the hash tables, and all pairs of windows", "why_tests_cant": "All pairs of measured results for all workloads; tests have one golden result per workload.", "anchors": ["tt_npe/cpp/src/npeStats.cpp:updateWorstCaseTransferEndCycle", "tt_npe/cpp/src/npeStats.cpp:finishSimulation", "tt_npe/cpp/src/npeStats.cpp:insertTimestep", "tt_npe/cpp/src/npeEngine.cpp:runSinglePerfSim"]}
{"id": "C151", "title": "Later traffic has no influence on what happened before", "statement": "If a workload is extended by transfers that are all scheduled later than its own ones, then everything that happens before the first of them is scheduled is the same: at every clock reached before that cycle each of the original transfers waits, is active with the same start and the same bytes moved, or has completed with the same start and end; and transfers that have ended by then keep their starts and ends in the final result.", "quantifier": "for all workloads, all extensions by later transfers (that no original transfer names as parent), all devices, timestep lengths, hash orders and roundings", "why_tests_cant": "The estimate of a timestep is computed from all transfers that are active in it, so whether later traffic leaks backwards depends on the order of queue, scan, demands and timestep; tests compare totals of single workloads and never pairs of workloads that share a prefix.", "anchors": ["tt_npe/cpp/src/npeEngine.cpp:createTransferQueue", "tt_npe/cpp/src/npeEngine.cpp:runSinglePerfSim", "tt_npe/cpp/include/device_models/wormhole_b0.hpp:computeCurrentTransferRate"]}
{"id": "C152", "title": "A pause separates two parts of a workload", "statement": "If a workload consists of two parts and the run of the first part alone finishes before the first transfer of the second part is scheduled, then the run of the whole is one run after the other: every transfer starts and ends at the same cycles as in the run of its own part, and the clock of the whole stops at the later of the two clocks.", "quantifier": "for all workloads that consist of two parts (in any order of ids, without parents across the parts), all devices, timestep lengths, hash orders and roundings, with and without congestion model", "why_tests_cant": "Queues, dependencies and demands are global to a run, so what an ended transfer leaves behind is only seen by comparing three runs; tests run one workload at a time.", "anchors": ["tt_npe/cpp/src/npeEngine.cpp:genDependencies", "tt_npe/cpp/src/npeEngine.cpp:runSinglePerfSim", "tt_npe/cpp/include/device_models/wormhole_b0.hpp:computeCurrentTransferRate"]}
{"id": "C153", "title": "The interleaving of cores in a trace does not matter", "statement": "If two traces hold the same events, those of each core and processor in the same order, then their conversions give the same golden windows, the same zones of each core and the same transfers in the same zones, apart from the order of transfers and the numbers of transfer groups.", "quantifier": "for all devices and all pairs of traces with the same events of each core and processor", "why_tests_cant": "Saved state, the zone iterator and the group counter are variables of one loop over the events of all cores; only a comparison of two orders of the same events shows which of them leak from one core to another.", "anchors": ["tt_npe/cpp/src/npeWorkloadIngest.cpp:convertNocTracesToNpeWorkload", "tt_npe/cpp/src/npeWorkloadIngest.cpp:computeGoldenCyclesAndT0", "tt_npe/cpp/src/npeWorkloadIngest.cpp:extractZones"]}
{"id": "C154", "title": "A workload that overloads nothing is not slowed down by congestion", "statement": "If no link, source or sink is asked for more than its capacity in any timestep of the run without congestion model (for example because there is capacity for all transfers of the workload at once), then the run with congestion model is the same: every transfer starts and ends at the same cycles, the clock stops at the same time and the estimates agree.", "quantifier": "for every device, workload, timestep and hash order, also with transfers that wait for others (and for every rounding, with a small margin)", "why_tests_cant": "A test compares both runs for the workloads at hand; it does not cover all workloads below the limits, nor the rounding of sums close to them.", "anchors": ["tt_npe/cpp/include/device_models/wormhole_b0.hpp:modelCongestion", "tt_npe/cpp/include/device_models/wormhole_multichip.hpp:modelCongestion", "tt_npe/cpp/include/device_models/blackhole.hpp:modelCongestion"]}
{"id": "C155", "title": "Congestion is never worse than one transfer at a time", "statement": "If no link, source or sink is overloaded by a single transfer, then running transfers together is never slower than running them one at a time: in every timestep a transfer has at least its own bandwidth divided by the number of transfers under way, and in a workload without transfer groups the simulation ends, after the last scheduled offset, within the sum of the times that all transfers need at their own bandwidths, plus two timesteps for each transfer and a small part for whole bytes.", "quantifier": "for every device, workload, timestep and hash order, also when transfers wait for earlier ones of their lane", "why_tests_cant": "Tests run a few workloads and compare estimates with recorded ones; they cannot show that no set of transfers, with any overlap of routes, makes the model lose bandwidth.", "anchors": ["tt_npe/cpp/include/device_models/wormhole_b0.hpp:modelCongestion", "tt_npe/cpp/include/device_models/wormhole_multichip.hpp:modelCongestion", "tt_npe/cpp/include/device_models/blackhole.hpp:modelCongestion"]}
{"id": "C156", "title": "Congestion slows a workload down at most by the number of its transfers", "statement": "If no link, source or sink is overloaded by a single transfer and there are no transfer groups, then the estimate with the congestion model is at most the number of transfers times the estimate without it (counted from the last scheduled offset, with a few timesteps for each transfer and a small part for rounding).", "quantifier": "for every device, workload of up to 16384 transfers, timestep, hash order and rounding", "why_tests_cant": "Tests compare the two estimates for recorded workloads; a larger slowdown in another workload would go unnoticed.", "anchors": ["tt_npe/cpp/src/npeEngine.cpp:npeEngine::runPerfEstimation", "tt_npe/cpp/src/npeStats.cpp:getCongestionImpact"]}
{"id": "C157", "title": "No estimate is below the time of a chain of transfers that wait for each other", "statement": "If a chain of transfers wait for each other, then the last one ends, and the estimate of its device lies, no earlier than the offset of the first one, the delays and the times that all transfers of the chain need alone. Because two transfers of an issue queue are under way at a time, the estimate is also at least half of the time that all transfers of the queue need one at a time.", "quantifier": "for every device, workload, chain, issue queue, timestep, hash order and rounding, with and without the congestion model", "why_tests_cant": "Tests look at recorded workloads; a run that starts a waiting transfer too early changes the estimate by an amount that looks plausible.", "anchors": ["tt_npe/cpp/src/npeEngine.cpp:npeEngine::genDependencies", "tt_npe/cpp/src/npeEngine.cpp:npeEngine::runSinglePerfSim"]}
{"id": "C158", "title": "Every dependency is satisfied when a simulation ends", "statement": "At any time of a simulation each dependency belongs to exactly one transfer and counts one completion exactly if this transfer has completed, with its end. When the simulation ends all dependencies are satisfied, so the error about unsatisfied dependencies is never logged.", "quantifier": "for every workload, device, timestep, hash order, rounding and congestion model, and every reachable state", "why_tests_cant": "The check at the end only logs an error, which no test looks for, and it covers only the workloads that are run.", "anchors": ["tt_npe/cpp/src/npeEngine.cpp:npeEngine::runSinglePerfSim", "tt_npe/cpp/include/npeDependencyTracker.hpp:npeTransferDependencyTracker"]}
{"id": "C159", "title": "Without congestion the longest chain of waiting transfers determines the estimate", "statement": "Without the congestion model each transfer ends not later than some chain of transfers that wait for each other and end with it: the offset of the first one, the delays and the times that all transfers of the chain need alone, with a few timesteps for each of them. So the estimate is the length of the longest chain, up to these timesteps.", "quantifier": "for every device, workload whose transfers move at least a byte in a timestep, timestep, hash order and rounding", "why_tests_cant": "A simulation that lets transfers idle for a while still gives a plausible estimate; which chain is critical differs from workload to workload.", "anchors": ["tt_npe/cpp/src/npeEngine.cpp:npeEngine::genDependencies", "tt_npe/cpp/src/npeEngine.cpp:npeEngine::runSinglePerfSim"]}
{"id": "C160", "title": "Congestion lengthens the estimate at most by the factor by which points are overloaded", "statement": "If all transfers of a workload at once ask no link, source or sink for more than A times its capacity, then with the congestion model each transfer ends not later than some chain of waiting transfers that ends with it and whose transfers have one part in A of their bandwidth. So the estimate with congestion is at most A times the estimate without, up to rounding and a few timesteps for each transfer.", "quantifier": "for every device, workload whose transfers move at least a byte in a timestep with one part in A of their bandwidth, timestep, hash order, factor A up to 16384 and rounding", "why_tests_cant": "A congestion model that slows transfers too much gives plausible numbers; the factor of overload depends on all transfers and routes of a workload.", "anchors": ["tt_npe/cpp/include/device_models/wormhole_b0.hpp:modelCongestion", "tt_npe/cpp/src/npeEngine.cpp:npeEngine::runSinglePerfSim"]}
{"id": "C161", "title": "Traces of the documented format are converted as documented", "statement": "A trace with the fields, types and order of doc/noc_trace_format.md becomes a workload with one transfer for each event that moves data and none for the others; stateful reads and writes start from the state that their own core saved.", "quantifier": "for every device, trace and rounding", "why_tests_cant": "Tests use traces recorded with zones and with the names of types that the code knows; the documentation lists 27 types and no zones.", "anchors": ["tt_npe/cpp/src/npeWorkloadIngest.cpp:convertNocTracesToNpeWorkload", "tt_npe/doc/noc_trace_format.md:NoC Event Object Details"]}
{"id": "C162", "title": "The command line selects the options that the user asks for", "statement": "The words of any list of requests, in any spelling and order, are read as what is asked for: the last request for an option counts and the others keep their defaults. Every combination of options can be asked for. Devices, models and numbers that are not allowed are refused, and so are unknown long names, texts after options that take none, and options whose text is missing; the beginning of several names is taken for none of them.", "quantifier": "for every list of requests with any spelling, and every conversion of texts to numbers", "why_tests_cant": "No test calls the command line parser; there are infinitely many lists of words.", "anchors": ["tt_npe/py/pycli/tt_npe.py:parse_cli_args", "tt_npe/py/pycli/tt_npe.py:main"]}
{"id": "C163", "title": "Without options, the command line tool uses the default configuration of the library", "statement": "With no options, the configuration that the command line tool builds is the default one of npeConfig.", "quantifier": "for every conversion of texts to numbers", "why_tests_cant": "Tests of the library use its own defaults, and no test runs the tool without options.", "anchors": ["tt_npe/py/pycli/tt_npe.py:parse_cli_args", "tt_npe/cpp/include/npeConfig.hpp:npeConfig"]}
{"id": "C164", "title": "Accepted workloads have the numbers that the documentation of transfers asks for", "statement": "If validation accepts a workload, then every transfer has packets of more than one byte and at least one packet, as the documentation of npe.Transfer demands.", "quantifier": "for every device and workload", "why_tests_cant": "Tests use packets of realistic sizes; the documented bound is not tested at its edge.", "anchors": ["tt_npe/cpp/pybind/bindings.cpp:Transfer", "tt_npe/cpp/src/npeWorkload.cpp:npeWorkloadTransfer::validate"]}
{"id": "C165", "title": "The options of the command line do what the README says", "statement": "Without -w the program fails with status 1 whatever else is asked for. Without -e no timeline is written; with -e it is written to npe_timeline.json unless another name is asked for. Congestion is simulated unless the last model asked for is none.", "quantifier": "for every list of requests in any spelling, every workload, device and rounding", "why_tests_cant": "The command line tool has no tests; the options can be combined, repeated and spelled in unboundedly many ways.", "anchors": ["tt_npe/py/pycli/tt_npe.py:main", "tt_npe/cpp/src/npeStats.cpp:emitSimTimelineToFile", "tt_npe/cpp/src/npeEngine.cpp:runPerfEstimation", "README.md:Other Important Options"]}
