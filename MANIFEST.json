{
 "claims": [
  {
   "property": "C01",
   "status": "proved",
   "theorems": [
    "NPE.Props.C01_dense_ids"
   ],
   "note": "For every list of phases."
  },
  {
   "property": "C02",
   "status": "proved",
   "theorems": [
    "NPE.Props.C02_validate_iff"
   ],
   "note": "Iff, for workloads built with addPhase whose destinations are unicast."
  },
  {
   "property": "C03",
   "status": "partial",
   "theorems": [
    "NPE.Props.C03_violated",
    "NPE.Props.C03_violated_chip",
    "NPE.Props.C03_partial",
    "NPE.Props.C03_empty_multicast_ub"
   ],
   "note": "The code violates the property (a valid rectangle hides invalid ones; only the first chip is compared): negations proved on the real device; C03_partial states what is checked (full claim for one rectangle)."
  },
  {
   "property": "C04",
   "status": "partial",
   "theorems": [
    "NPE.Props.C04_violated",
    "NPE.Props.C04_partial"
   ],
   "note": "Violated by 32-bit wrap; the count is right exactly when the product fits 32 bits."
  },
  {
   "property": "C05",
   "status": "proved",
   "theorems": [
    "NPE.Props.C05_unicast_path",
    "NPE.Props.factory_devices_ok"
   ],
   "note": "For every sane device record (every factory device is one), including multichip."
  },
  {
   "property": "C06",
   "status": "proved",
   "theorems": [
    "NPE.Props.C06_route_length",
    "NPE.Props.C06_write_latency_hops",
    "NPE.Props.C06_shortest"
   ],
   "note": "Length, hop count of the latency model, no repetition; additionally no path of the same NoC is shorter."
  },
  {
   "property": "C07",
   "status": "proved",
   "theorems": [
    "NPE.Props.C07_link_ids",
    "NPE.Props.C07_niu_ids",
    "NPE.Props.C07_refused",
    "NPE.Props.factory_devices_ok"
   ],
   "note": "Links and NIUs; every factory device fits 16 bits (limit 68 Wormhole chips)."
  },
  {
   "property": "C08",
   "status": "partial",
   "theorems": [
    "NPE.Props.C08_violated_noc1",
    "NPE.Props.C08_violated_noc0",
    "NPE.Props.C08_partial",
    "NPE.Props.C08_reached",
    "NPE.Props.C08_complete"
   ],
   "note": "Violated on NoC 1 (columns left of the far column) and on NoC 0 for sources inside the row range; holds on NoC 0 otherwise. C08_reached says exactly which cores are reached on both NoCs, C08_complete for which sources and rectangles these are all."
  },
  {
   "property": "C09",
   "status": "proved",
   "theorems": [
    "NPE.Props.C09_multicast_union",
    "NPE.Props.C09_one_rectangle"
   ],
   "note": "For every hash-set iteration order."
  },
  {
   "property": "C10",
   "status": "proved",
   "theorems": [
    "NPE.Props.C10_multichip_route",
    "NPE.Props.C10_other_chip_refused"
   ],
   "note": ""
  },
  {
   "property": "C100",
   "status": "partial",
   "theorems": [
    "NPE.Props.C100_partial",
    "NPE.Props.C100_violated"
   ],
   "note": "Proved for coordinates, links, interfaces and zones; the tables of links and interfaces answer as the association lists of the model for every number of buckets. Violated for rectangles and multicast sets: their equality ignores the chip, their hash does not, so equal sets on different chips have different hashes and a table can miss one."
  },
  {
   "property": "C101",
   "status": "proved",
   "theorems": [
    "NPE.Props.C101",
    "NPE.Props.C101_keys",
    "NPE.Props.C101_composite"
   ],
   "note": "std::hash of an integer is the identity after sign extension."
  },
  {
   "property": "C102",
   "status": "partial",
   "theorems": [
    "NPE.Props.C102_violated",
    "NPE.Props.C102_partial"
   ],
   "note": "Violated: each value has exactly one other value with which it can be exchanged unnoticed, because the rotation leaves the word of all ones alone. C102_partial: in all other cases the order counts."
  },
  {
   "property": "C103",
   "status": "proved",
   "theorems": [
    "NPE.Props.C103",
    "NPE.Props.C103_low_bits"
   ],
   "note": "C103_low_bits: the links of one place differ in the high half of their hashes only."
  },
  {
   "property": "C104",
   "status": "proved",
   "theorems": [
    "NPE.Props.C104",
    "NPE.Props.C104_sized"
   ],
   "note": "C104_sized: any phase of executable transfers without groups, with packets of at least 512 bytes, under an arithmetic condition on their number and sizes."
  },
  {
   "property": "C105",
   "status": "proved",
   "theorems": [
    "NPE.Props.C105",
    "NPE.Props.C105_estimate",
    "NPE.Props.C105_test"
   ],
   "note": "Two timesteps of margin, relative error 2^-22. C105_test: the repository's test of the bindings, for any number of transfers."
  },
  {
   "property": "C106",
   "status": "partial",
   "theorems": [
    "NPE.Props.C106_violated",
    "NPE.Props.C106_partial"
   ],
   "note": "Violated by one timestep: if the dependency of a transfer ends exactly at the start of a timestep, the next timestep is credited twice (cf. C59). C106_partial: with one more timestep for transfers that wait for another one and 24 cycles for rounding, proved in any rounding."
  },
  {
   "property": "C107",
   "status": "partial",
   "theorems": [
    "NPE.Props.C107_all_partial",
    "NPE.Props.C107_none_partial",
    "NPE.Props.C107_share_partial",
    "NPE.Props.C107_no_share_partial",
    "NPE.Props.C107_trace",
    "NPE.Props.C107_violated"
   ],
   "note": "Violated: multicasts are recognised by the event type WRITE_MULTICAST, not by their destination, so a multicast of a workload file or of the API without event type is not counted. Proved for transfers classified by event type (records and summaries, any rounding); C107_trace: in workloads made from traces the event type agrees with the destination."
  },
  {
   "property": "C108",
   "status": "partial",
   "theorems": [
    "NPE.Props.C108_violated",
    "NPE.Props.C108_partial"
   ],
   "note": "Violated: the text names the chip of the first corner of a rectangle only, so a rectangle with corners on two chips is printed like one on a single chip. C108_partial: coordinates and sets of rectangles with both corners on one chip can be read back; for others the text is that of the set moved to the chip of the first corner."
  },
  {
   "property": "C109",
   "status": "partial",
   "theorems": [
    "NPE.Props.C109_violated",
    "NPE.Props.C109_partial",
    "NPE.Props.C109_any_hash"
   ],
   "note": "Violated: whatever the hash function, there is a draw of 10000 links that misses ten of the 107 buckets, for which the check of the spread fails (improbable, but nothing excludes it). C109_partial: the check of the coordinates passes, and no draw has any collision."
  },
  {
   "property": "C11",
   "status": "proved",
   "theorems": [
    "NPE.Props.C11_enumeration",
    "NPE.Props.C11_last_row",
    "NPE.Props.C11_visited",
    "NPE.Props.C11_inverted"
   ],
   "note": "Rectangles with 16-bit corners. `C11_last_row`: a last row of 32767 is never left (the row counter wraps around). `C11_visited` says what is visited for rectangles that are inverted, which the constructor accepts (C12): cores outside of the rows between the corners, and not as many as the reported size (`C11_inverted`)."
  },
  {
   "property": "C110",
   "status": "proved",
   "theorems": [
    "NPE.Props.C110",
    "NPE.Props.C110_returns"
   ],
   "note": "Feasible and WellFormed are stated on the events of the trace. C110: statistics or the cycle limit error. C110_returns: statistics, without fabric paths and with few enough movements. Blackhole: without fabric paths (see C69)."
  },
  {
   "property": "C111",
   "status": "proved",
   "theorems": [
    "NPE.Props.C111_jobs",
    "NPE.Props.C111_alone",
    "NPE.Props.C111_shared",
    "NPE.Props.C111_exact"
   ],
   "note": "A refinement: queue, swaps, live list and checkpoints against a description of twenty lines, for any rounding, without and with congestion model. With rounding, the description is given lists of the active transfers, each once, in whose order demands are added; in exact arithmetic it needs no order."
  },
  {
   "property": "C112",
   "status": "partial",
   "theorems": [
    "NPE.Props.C112_alone_partial",
    "NPE.Props.C112_shared_partial",
    "NPE.Props.C112_violated"
   ],
   "note": "Violated for the sets of links: the issue queue of a multicast is chosen by the first element of a hash set. Proved, for any rounding, for the table of queues, and for both without multicasts."
  },
  {
   "property": "C113",
   "status": "partial",
   "theorems": [
    "NPE.Props.C113_alone",
    "NPE.Props.C113_shared_partial",
    "NPE.Props.C113_rounded_partial",
    "NPE.Props.C113_other_noc",
    "NPE.Props.C113_violated"
   ],
   "note": "Violated for other chips: the issue queues of equal grid positions of different chips are one. Proved for unrelated transfers (no common link, source, sink or queue, no parent), for example on the other NoC; with congestion model in exact arithmetic, and with any rounding if no transfer waits for another one and transfers for the same cycle keep their order."
  },
  {
   "property": "C114",
   "status": "partial",
   "theorems": [
    "NPE.Props.C114_alone_partial",
    "NPE.Props.C114_shared_partial",
    "NPE.Props.C114_alone_rounded_partial",
    "NPE.Props.C114_shared_rounded_partial",
    "NPE.Props.C114_violated",
    "NPE.Props.C114_violated_rounding"
   ],
   "note": "Violated for delays that are not a number of timesteps and, above 2^24 cycles, by rounding. Proved for whole timesteps in exact arithmetic and, for cycles below 2^24, with any rounding."
  },
  {
   "property": "C115",
   "status": "partial",
   "theorems": [
    "NPE.Props.C115_violated",
    "NPE.Props.C115_partial",
    "NPE.Props.C115_estimated_partial",
    "NPE.Props.C115_rounded_partial",
    "NPE.Props.C115_estimated_rounded_partial",
    "NPE.Props.C115_independent",
    "NPE.Props.C115_waiting_partial"
   ],
   "note": "Violated for transfers that wait for others: the end of a transfer is computed from the start of the timestep in which it completes, so a later start can give an earlier end (308 cycles without, 280 with congestion). Proved for workloads in which no transfer waits for another one, also for the reported estimates: in exact arithmetic, and with any rounding for runs of less than 2^24 cycles. C115_waiting_partial: with waiting (and groups, any rounding) a transfer ends earlier at most by a few timesteps for each transfer."
  },
  {
   "property": "C116",
   "status": "partial",
   "theorems": [
    "NPE.Props.C116_violated",
    "NPE.Props.C116_partial",
    "NPE.Props.C116_rounded_partial"
   ],
   "note": "Violated for transfers that wait for others (cause as for C115). Proved for workloads in which no transfer waits for another one (more active transfers, more load, lower speeds, later ends): in exact arithmetic, and with any rounding if transfers for the same cycle keep their order and the run ends before cycle 2^24."
  },
  {
   "property": "C117",
   "status": "partial",
   "theorems": [
    "NPE.Props.C117_violated",
    "NPE.Props.C117_partial",
    "NPE.Props.C117_rounded_partial"
   ],
   "note": "Violated for transfers that wait for others (cause as for C115). Proved for workloads in which no transfer waits for another one: in exact arithmetic, and with any rounding for runs that end before cycle 2^24."
  },
  {
   "property": "C118",
   "status": "partial",
   "theorems": [
    "NPE.Props.C118_violated",
    "NPE.Props.C118_violated_rounding",
    "NPE.Props.C118_alone_partial",
    "NPE.Props.C118_shared_partial",
    "NPE.Props.C118_rounded_partial"
   ],
   "note": "Violated for transfers of the same queue that are scheduled for the same cycle: their order decides who waits for whom. Proved for all rearrangements that keep this order (and that of segments with the same index): any rounding without congestion model, exact arithmetic with it. In float the order of any transfers for the same cycle matters, because sums of demands depend on the order (violated_rounding: 173 or 194 cycles on a Wormhole device); proved with any rounding if it is kept and no transfer waits."
  },
  {
   "property": "C119",
   "status": "partial",
   "theorems": [
    "NPE.Props.C119_violated",
    "NPE.Props.C119_violated_compressed",
    "NPE.Props.C119_violated_result",
    "NPE.Props.C119_partial",
    "NPE.Props.C119_run_partial",
    "NPE.Props.C119_reads_partial",
    "NPE.Props.C119_reported_partial",
    "NPE.Props.C119_total",
    "NPE.Props.C119_unopened",
    "NPE.Props.C119_unprinted",
    "NPE.Props.C119_empty",
    "NPE.Props.C119_tests"
   ],
   "note": "Violated: nobody looks whether an uncompressed text could be written, nor whether a compressed file could be closed, and the result of compressToFile is ignored, so the estimate succeeds without its timeline. Proved for disks that take every file (compressed or not, all split files, up to reading the timeline back with C87), for compressed files longer than the stream buffer, and: files that cannot be opened are reported, writing ends normally, other files are not touched. The libraries are parameters with laws."
  },
  {
   "property": "C12",
   "status": "partial",
   "theorems": [
    "NPE.Props.C12_violated",
    "NPE.Props.C12_partial"
   ],
   "note": "The constructor uses || instead of &&: rectangles inverted in one dimension are accepted. C12_partial characterises the accepted rectangles."
  },
  {
   "property": "C120",
   "status": "proved",
   "theorems": [
    "NPE.Props.C120",
    "NPE.Props.C120_mesh",
    "NPE.Props.C120_same"
   ],
   "note": "Round trip through an independent reader of the text. The sign of NaN and of zero is not modelled; which tenth is taken in the middle between two is a parameter."
  },
  {
   "property": "C121",
   "status": "proved",
   "theorems": [
    "NPE.Props.C121_read",
    "NPE.Props.C121_order"
   ],
   "note": "Round trip through an independent reader; sorting removes the order of the hash map."
  },
  {
   "property": "C122",
   "status": "partial",
   "theorems": [
    "NPE.Props.C122_violated",
    "NPE.Props.C122_partial",
    "NPE.Props.C122_same_partial",
    "NPE.Props.C122_verbosity"
   ],
   "note": "Violated: file names are printed with their quotes and new lines, so two configurations can look the same. Proved for names without new lines: the configuration can be read back."
  },
  {
   "property": "C123",
   "status": "partial",
   "theorems": [
    "NPE.Props.C123_violated",
    "NPE.Props.C123_stuck",
    "NPE.Props.C123_bounds_partial",
    "NPE.Props.C123_partial",
    "NPE.Props.C123_same_partial",
    "NPE.Props.C123_waiting_partial"
   ],
   "note": "Violated: the bytes of a timestep are rounded down, so fractional bandwidths lose up to a byte per timestep (300 bytes at 3/4: 400, 406 or 600 cycles), and a transfer with less than one byte per timestep never ends. Proved in exact arithmetic for transfers that wait for nothing: bounds for every length of the timestep, and equality if nothing is rounded. C123_waiting_partial: with waiting and groups, for any rounding, the ends differ at most by one part in the bytes of a timestep and a few timesteps for each transfer."
  },
  {
   "property": "C124",
   "status": "partial",
   "theorems": [
    "NPE.Props.C124_alone_partial",
    "NPE.Props.C124_shared_partial",
    "NPE.Props.C124_violated"
   ],
   "note": "Violated for three equal transfers of one queue, of which the third waits for the first. Proved for any rounding, with and without congestion model, for transfers that wait for the same."
  },
  {
   "property": "C125",
   "status": "proved",
   "theorems": [
    "NPE.Props.C125_alone",
    "NPE.Props.C125_shared",
    "NPE.Props.C125_results",
    "NPE.Props.C125_files",
    "NPE.Props.C125_valid"
   ],
   "note": "From the refinement C111, for any rounding, with and without congestion model; C125_results and C125_files are equalities of complete outcomes, including failures, for every configuration, order of hash tables and workload (valid or not). It says that the documented purpose of phases is not realised."
  },
  {
   "property": "C126",
   "status": "proved",
   "theorems": [
    "NPE.Props.C126_wormhole",
    "NPE.Props.C126_blackhole",
    "NPE.Props.C126_files"
   ],
   "note": "The lists of the layout files are transcribed (Spec/Layout.lean) and compared with the tables of the device models by a kernel computation over the whole grid."
  },
  {
   "property": "C127",
   "status": "partial",
   "theorems": [
    "NPE.Props.C127_plane",
    "NPE.Props.C127_box",
    "NPE.Props.C127_outside",
    "NPE.Props.C127_huge",
    "NPE.Props.C127_cores"
   ],
   "note": "Violated: in release builds a column that is too large silently means a place of a following row (C127_outside gives the exact result), and the number of places of a huge grid wraps around to zero (C127_huge). Proved within bounds for all programs, both kinds of grids and builds, and for the grid of core types also for coordinates outside of the device."
  },
  {
   "property": "C128",
   "status": "partial",
   "theorems": [
    "NPE.Props.C128_answer",
    "NPE.Props.C128_consent",
    "NPE.Props.C128_unasked",
    "NPE.Props.C128_violated"
   ],
   "note": "Violated: without any answer (closed standard input, as in automatic runs) an uninitialised variable is looked at, which is undefined behaviour. Proved for all answers of ASCII."
  },
  {
   "property": "C129",
   "status": "proved",
   "theorems": [
    "NPE.Props.C129_route",
    "NPE.Props.C129_alone",
    "NPE.Props.C129_shared",
    "NPE.Props.C129_devices",
    "NPE.Props.C129_sinks"
   ],
   "note": "A general lemma (Proofs/FluidMove.lean): runs of transfers that share links, sources, sinks and queues in the same way are the same for any rounding, also on two devices; translations are an instance. C129_sinks shows that the condition on the receiving cores is needed."
  },
  {
   "property": "C13",
   "status": "proved",
   "theorems": [
    "NPE.Props.C13_iterations",
    "NPE.Props.C13_loop_ends",
    "NPE.Props.C13_clock",
    "NPE.Props.C13_run_ends_on_clock",
    "NPE.Props.C13_returns",
    "NPE.Props.C13_terminates"
   ],
   "note": "Termination for every accepted configuration and every workload; loop bound, clock, and a returned result or the cycle limit error for well-formed workloads."
  },
  {
   "property": "C130",
   "status": "proved",
   "theorems": [
    "NPE.Props.C130_back",
    "NPE.Props.C130_alone",
    "NPE.Props.C130_shared"
   ],
   "note": "Instance of the same lemma; the delays of groups use constants of the architecture and are left out."
  },
  {
   "property": "C131",
   "status": "proved",
   "theorems": [
    "NPE.Props.C131_route",
    "NPE.Props.C131_alone",
    "NPE.Props.C131_shared",
    "NPE.Props.C131_estimates",
    "NPE.Props.C131_devices"
   ],
   "note": "Instance of the lemma of C129, where the chip of a core changes; the ethernet delay between segments depends on whether two chips are equal only. C131_devices: the boards that can be created differ in the number of chips only."
  },
  {
   "property": "C132",
   "status": "partial",
   "theorems": [
    "NPE.Props.C132_violated",
    "NPE.Props.C132_violated_legacy",
    "NPE.Props.C132_violated_claim",
    "NPE.Props.C132_partial",
    "NPE.Props.C132_legacy_partial",
    "NPE.Props.make_congestion"
   ],
   "note": "Violated by every file: the names of NoCs and links, the key of a transfer's number and the keys of the averages of a timestep differ from the published ones, terminals are listed as links, and legacy routes are one list, not a list of lists. Proved: with exactly these deviations (Names.written) every file that is not empty has the published shape, and all figures are numbers if and only if there are golden cycles and timesteps (otherwise null)."
  },
  {
   "property": "C133",
   "status": "partial",
   "theorems": [
    "NPE.Props.C133_partial",
    "NPE.Props.C133_same_partial",
    "NPE.Props.C133_names",
    "NPE.Props.C133_violated_negative",
    "NPE.Props.C133_violated_chip"
   ],
   "note": "Violated: a row does not name its chip, so the rows of one operation on several chips cannot be told apart; and for a negative number of rows the number left out is larger than the number of all results. Proved for all other numbers of rows: an independent reader gets the rest."
  },
  {
   "property": "C134",
   "status": "partial",
   "theorems": [
    "NPE.Props.C134_partial",
    "NPE.Props.C134_violated_zero",
    "NPE.Props.C134_violated_count"
   ],
   "note": "Violated: the number of an entry is that of the operation only, so the traces of one operation have the same number; and a trace with id 0 writes to the same file as the operation without a trace. Proved for all other trace ids and for result directories without .npeviz in their path (see C86)."
  },
  {
   "property": "C135",
   "status": "partial",
   "theorems": [
    "NPE.Props.C135_violated",
    "NPE.Props.C135_bandwidth",
    "NPE.Props.C135_limited",
    "NPE.Props.C135_alone_partial",
    "NPE.Props.C135_alone_rounded_partial",
    "NPE.Props.C135_partial",
    "NPE.Props.C135_rounded_partial"
   ],
   "note": "Violated: a second packet lowers the bandwidth of a transfer, which leaves more to the others; and violated for transfers that wait (cause as for C115). Proved, for transfers that wait for nothing: without congestion in exact arithmetic for all workloads; with congestion if no bandwidth changes (as where the injection rate is the limit), in exact arithmetic and with any rounding below cycle 2^24. With rounding and without congestion, that bandwidths do not grow is a hypothesis."
  },
  {
   "property": "C136",
   "status": "proved",
   "theorems": [
    "NPE.Props.C136_speed",
    "NPE.Props.C136_speed_rounded",
    "NPE.Props.C136_exact",
    "NPE.Props.C136_alone",
    "NPE.Props.C136_alone_late",
    "NPE.Props.C136_rounded_near",
    "NPE.Props.C136_rounded",
    "NPE.Props.C136_formula"
   ],
   "note": "In exact arithmetic and with any rounding, for all workloads and all clocks within the limit of cycles. Rounding moves an end by at most one cycle below cycle 2^24 (C136_alone, C136_rounded_near) and by at most 26 above, where a float cannot count cycles (C136_alone_late, C136_rounded). C136_formula: the bound in closed form for transfers that wait for nothing."
  },
  {
   "property": "C137",
   "status": "partial",
   "theorems": [
    "NPE.Props.C137_fields",
    "NPE.Props.C137_partial",
    "NPE.Props.C137_violated"
   ],
   "note": "Violated if a device of the model has no event (cause as for C51): at time 0 the trace is converted, one cycle later the conversion is undefined behaviour. Proved if every device has an event and times are below 2^53; for equal times without any condition."
  },
  {
   "property": "C138",
   "status": "proved",
   "theorems": [
    "NPE.Props.C138_needless",
    "NPE.Props.C138_worst",
    "NPE.Props.C138_equal",
    "NPE.Props.C138_needless_rounded",
    "NPE.Props.C138_worst_rounded",
    "NPE.Props.C138_equal_rounded"
   ],
   "note": "Points are given by their capacity and the transfers counted there (Spec/Bottleneck.lean), loads by the sum `offered` over the active transfers. With rounding the first statement has a margin of 1/128, the other two hold up to a part in 100 and a 2^21-th of the bandwidth asked for, and there are at most 65536 demands per point."
  },
  {
   "property": "C139",
   "status": "partial",
   "theorems": [
    "NPE.Props.C139_partial",
    "NPE.Props.C139_rounded_partial",
    "NPE.Props.C139_violated"
   ],
   "note": "Violated: points are shared in proportion to what is asked for, even if one transfer cannot use its part since another point slows it more; `C139_violated` has a transfer that gets half of its bandwidth although every point it passes has capacity to spare. Proved for points that are the worst one of all their users: these are used up exactly in exact arithmetic and to a part in 100 with rounding."
  },
  {
   "property": "C14",
   "status": "proved",
   "theorems": [
    "NPE.Props.C14_all_delivered",
    "NPE.Props.C14_device_models"
   ],
   "note": "For every rate computation that only writes bandwidths; all device models are instances."
  },
  {
   "property": "C140",
   "status": "partial",
   "theorems": [
    "NPE.Props.C140_partial",
    "NPE.Props.C140_accepted",
    "NPE.Props.C140_violated",
    "NPE.Props.C140_wraps"
   ],
   "note": "Violated for offsets of 2^31 and more, which a file may have and Python refuses since the argument is an `int` (`C140_violated`). Proved for every program that Python accepts. Negative offsets and coordinates outside of 16 bits are accepted and wrap around (`C140_wraps`)."
  },
  {
   "property": "C141",
   "status": "partial",
   "theorems": [
    "NPE.Props.C141_noc",
    "NPE.Props.C141_middle",
    "NPE.Props.C141_overall",
    "NPE.Props.C141_overall_middle",
    "NPE.Props.C141_partial",
    "NPE.Props.C141_violated"
   ],
   "note": "The maximum is that of the averages of the timesteps, not that of the links (`C141_violated`); it is bounded by half the number of devices times any bound for the links (`C141_partial`). The rest is proved for any rounding with a bounded error."
  },
  {
   "property": "C142",
   "status": "partial",
   "theorems": [
    "NPE.Props.C142_partial",
    "NPE.Props.C142_independent",
    "NPE.Props.C142_all_partial",
    "NPE.Props.C142_summary_partial",
    "NPE.Props.C142_violated",
    "NPE.Props.C142_rounded_partial",
    "NPE.Props.C142_rounded_independent",
    "NPE.Props.C142_all_rounded_partial",
    "NPE.Props.C142_summary_rounded_partial",
    "NPE.Props.C142_rounded_violated"
   ],
   "note": "Without dependencies it holds in full for every link (`C142_independent`). With dependencies it fails, because a transfer may be credited a timestep in which it was not active (C59): 639 bytes against 576 in the records (`C142_violated`). The theorems allow for one timestep at full speed for every transfer with a dependency; they hold for each link, for all links together and for the reported average. With any rounding of floating-point numbers (`C142_rounded_partial`, `C142_rounded_independent`, `C142_all_rounded_partial`, `C142_summary_rounded_partial`), for timesteps of at least 25 cycles, at most 65536 transfers and routes that pass no link twice, there is one more part in 127 and a 2^24-th of what the records ask for."
  },
  {
   "property": "C143",
   "status": "partial",
   "theorems": [
    "NPE.Props.C143_partial",
    "NPE.Props.C143_shown",
    "NPE.Props.C143_axis",
    "NPE.Props.C143_height",
    "NPE.Props.C143_negative",
    "NPE.Props.C143_sizes",
    "NPE.Props.C143_violated"
   ],
   "note": "It holds for positive values of floating types (`C143_partial`, with height and axis in `C143_height`, `C143_axis`). Violated in three ways (`C143_violated`): negative values have no bar (in general: `C143_negative`); for ranges of integers the place of zero is computed with an integer division, so that the axis is at the wrong place; and values far from zero, or empty ranges (`C143_sizes`), are undefined behaviour. Missing: rounding."
  },
  {
   "property": "C144",
   "status": "partial",
   "theorems": [
    "NPE.Props.C144_links_partial",
    "NPE.Props.C144_sources_partial",
    "NPE.Props.C144_sinks_partial",
    "NPE.Props.C144_independent",
    "NPE.Props.C144_violated",
    "NPE.Props.C144_close",
    "NPE.Props.C144_links_rounded_partial",
    "NPE.Props.C144_sources_rounded_partial",
    "NPE.Props.C144_sinks_rounded_partial",
    "NPE.Props.C144_close_rounded"
   ],
   "note": "It holds for every link, source and sink whose transfers have no dependency (`C144_independent`). Violated in general (`C144_violated`): a transfer whose dependency ended in the timestep before is credited that timestep again (cf. C59); one timestep at full speed for every transfer with a dependency is enough (the `_partial` theorems). With any rounding the same holds up to 24 cycles, a relative error below 1 percent and the error of the summed demands (the `_rounded_partial` theorems, for up to 65536 transfers). Missing: the claim without these allowances."
  },
  {
   "property": "C145",
   "status": "partial",
   "theorems": [
    "NPE.Props.C145_timer",
    "NPE.Props.C145_units",
    "NPE.Props.C145_violated",
    "NPE.Props.C145_divider"
   ],
   "note": "Proved for timers that are not moved (`C145_timer`, `C145_units`). Violated for moved timers (`C145_violated`): the defaulted move constructor leaves the old timer running, and both destructors print. Dividers are 78 characters wide for titles of up to 74 characters; longer titles end in std::length_error, because the length of the bar wraps (`C145_divider`). No timer of the program is moved, and printDiv is not called."
  },
  {
   "property": "C146",
   "status": "proved",
   "theorems": [
    "NPE.Props.C146",
    "NPE.Props.C146_files",
    "NPE.Props.C146_disk",
    "NPE.Props.C146_program",
    "NPE.Props.C146_analysis",
    "NPE.Props.C146_violated"
   ],
   "note": "Equality of complete outcomes, including failures. `C146_violated` shows that the restriction on the sets of links is needed: with a multicast another order of links changes the estimate."
  },
  {
   "property": "C147",
   "status": "proved",
   "theorems": [
    "NPE.Props.C147",
    "NPE.Props.C147_order"
   ],
   "note": "`C147_order` shows that the order of the list does depend on the table, so that nothing stronger holds."
  },
  {
   "property": "C148",
   "status": "partial",
   "theorems": [
    "NPE.Props.C148",
    "NPE.Props.C148_directory",
    "NPE.Props.C148_table_partial",
    "NPE.Props.C148_violated"
   ],
   "note": "The claim that the table does not depend on the order at all is false (`C148_violated`); the rest is proved. Totals and means in exact arithmetic."
  },
  {
   "property": "C149",
   "status": "proved",
   "theorems": [
    "NPE.Props.C149",
    "NPE.Props.C149_exception"
   ],
   "note": "Equality of complete outcomes, including failures."
  },
  {
   "property": "C15",
   "status": "proved",
   "theorems": [
    "NPE.Props.C15_bytes_monotone"
   ],
   "note": "For every reachable state."
  },
  {
   "property": "C150",
   "status": "partial",
   "theorems": [
    "NPE.Props.C150_violated",
    "NPE.Props.C150_partial",
    "NPE.Props.C150_file_partial",
    "NPE.Props.C150_transfers"
   ],
   "note": "Violated: a transfer that is issued after the measured end is left out of the estimate, so a measurement that is one cycle shorter lowers the estimate (505 to 205 cycles in the witness), and so does scaling the schedule by two (C150_scaled: windows are not scaled). C150_partial: the ends have no other influence (they matter only through which transfers are issued before them); C150_file_partial is the case of workload files. C150_transfers holds without restriction."
  },
  {
   "property": "C151",
   "status": "partial",
   "theorems": [
    "NPE.Props.C151_violated",
    "NPE.Props.C151_alone",
    "NPE.Props.C151_partial",
    "NPE.Props.C151_ended",
    "NPE.Props.C151_finished"
   ],
   "note": "Violated within one timestep: a transfer that ends at cycle 37 is slowed to cycle 46 by one that is scheduled for cycle 100 of the same timestep (C151_violated). C151_alone: without congestion model there is no influence at all. With congestion model and any rounding: C151_partial for all clocks before the first later transfer, C151_ended for transfers that have ended by such a clock, C151_finished if the whole run has."
  },
  {
   "property": "C152",
   "status": "partial",
   "theorems": [
    "NPE.Props.C152_violated",
    "NPE.Props.C152_alone_partial",
    "NPE.Props.C152_partial"
   ],
   "note": "Violated (C152_violated) if a transfer of the first part, for which one of the second part waits, ends exactly at the end of the timestep in whose successor the second part starts: the other one is credited that timestep twice (cf. C59). The _partial theorems exclude only this: transfers that others wait for have to end before the timestep in which the second part is scheduled."
  },
  {
   "property": "C153",
   "status": "partial",
   "theorems": [
    "NPE.Props.C153_violated",
    "NPE.Props.C153_violated_zones",
    "NPE.Props.C153_transfers_partial",
    "NPE.Props.C153_partial",
    "NPE.Props.C153_runs_alone_partial",
    "NPE.Props.C153_runs_partial"
   ],
   "note": "Violated: the state that SET_STATE events save is shared by all cores, so a write of one core uses the endpoints that another core has saved in between (C153_violated); an event of a core without zones at the beginning of the trace is undefined behaviour (C153_violated_zones). Proved for traces in which every event finds the state of its own core; C153_partial also proves that both conversions succeed and that zones agree, for well-formed traces of cores with zones in the order of time. C153_runs_alone_partial (any rounding) and C153_runs_partial (congestion model, exact arithmetic): the runs of both workloads give every transfer the same start and end, without transfer groups and without two transfers of a queue for the same cycle."
  },
  {
   "property": "C154",
   "status": "proved",
   "theorems": [
    "NPE.Props.C154_exact",
    "NPE.Props.C154_rounded",
    "NPE.Props.C154_estimated",
    "NPE.Props.C154_estimated_rounded"
   ],
   "note": "What is asked for in a timestep is given by the short description of runs without congestion (Spec/Calm.lean, Spec/Fluid.lean). With rounding, a part in 128 of the capacity has to be spare and at most 65536 demands are added at each point."
  },
  {
   "property": "C155",
   "status": "proved",
   "theorems": [
    "NPE.Props.C155_share",
    "NPE.Props.C155_exact",
    "NPE.Props.C155_finishes",
    "NPE.Props.C155_rounded",
    "NPE.Props.C155_estimated"
   ],
   "note": "C155_rounded is for any rounding, with at most 16384 transfers, 65536 demands at each point, timesteps of at least 26 cycles, and a slightly larger bound. The bound is not true for a transfer that alone is too much for its sink (example beside the theorem)."
  },
  {
   "property": "C156",
   "status": "proved",
   "theorems": [
    "NPE.Props.C156_slowdown"
   ],
   "note": "The two estimates are those that are reported for a device or the mesh; all transfers have to count for it. Holds for any rounding; the additions are explicit in the statement."
  },
  {
   "property": "C157",
   "status": "partial",
   "theorems": [
    "NPE.Props.C157_partial",
    "NPE.Props.C157_estimated_partial",
    "NPE.Props.C157_queue_partial",
    "NPE.Props.C157_violated"
   ],
   "note": "Missing: one timestep for every transfer with a dependency and 24 cycles for rounding. The natural claim is violated (`C157_violated`): a transfer that starts within a timestep because another one has ended is credited for the whole timestep before it. `lane_exists` shows that every issue queue can be listed as `C157_queue_partial` asks."
  },
  {
   "property": "C158",
   "status": "proved",
   "theorems": [
    "NPE.Props.C158_counts",
    "NPE.Props.C158_satisfied",
    "NPE.Props.C158_exact"
   ],
   "note": "For all rate models that only change bandwidths, which both models do (C14_device_models)."
  },
  {
   "property": "C159",
   "status": "proved",
   "theorems": [
    "NPE.Props.C159_ends",
    "NPE.Props.C159_estimated"
   ],
   "note": "The additions for each transfer of the chain are explicit in `mostTime`: whole bytes (one part in M for transfers that move at least M bytes in a timestep), rounding, three timesteps and 26 cycles. For runs that end within the cycle limit. `C157_partial` is the bound in the other direction."
  },
  {
   "property": "C16",
   "status": "proved",
   "theorems": [
    "NPE.Props.C16_start_cycle",
    "NPE.Props.C16_no_wrap"
   ],
   "note": "C16_start_cycle has the 32-bit sum of the code; C16_no_wrap shows that it is the true sum for timesteps of at most 500,000,000 cycles."
  },
  {
   "property": "C160",
   "status": "proved",
   "theorems": [
    "NPE.Props.C160_ends",
    "NPE.Props.C160_estimated",
    "NPE.Props.C160_slowdown"
   ],
   "note": "The additions for each transfer are explicit in `slowTime` and in the statement of `C160_slowdown`. For runs that end within the cycle limit; `C160_slowdown` is for workloads whose transfers all count for the device; groups are included, since transfers of a run that ends cannot wait for each other in a circle (`finished_rank`). `C156_slowdown` bounds the factor by the number of transfers."
  },
  {
   "property": "C161",
   "status": "partial",
   "theorems": [
    "NPE.Props.C161_violated",
    "NPE.Props.C161_false",
    "NPE.Props.C161_ignored",
    "NPE.Props.C161_partial",
    "NPE.Props.C161_read",
    "NPE.Props.C161_write"
   ],
   "note": "Violated by every trace of the documented format: zones are not documented, and without them a null pointer is dereferenced (C161_violated). With zones, events of the documented types WRITE (the code knows only WRITE_), WRITE_WITH_TRID, WRITE_INLINE and WRITE_WITH_TRID_WITH_STATE are dropped without a message (C161_ignored). Proved for traces with zones and the other 23 types (C161_partial), and for stateful events in the documented order (C161_read, C161_write)."
  },
  {
   "property": "C162",
   "status": "proved",
   "theorems": [
    "NPE.Props.C162_reads",
    "NPE.Props.C162_order",
    "NPE.Props.C162_every",
    "NPE.Props.C162_refused",
    "NPE.Props.C162_stray",
    "NPE.Props.C162_status",
    "NPE.Props.C162_ambiguous",
    "NPE.Props.C162_missing",
    "NPE.Props.C162_program"
   ],
   "note": "Names may be short, long or abbreviated to a clear beginning; texts apart (if they begin with a dash: negative numbers and texts with blanks), joined by an equals sign or right after a short name. Ambiguous abbreviations are never read as an option; how the program ends on them, several short names in one word, and -- are left out. C162_stray covers unknown long names (without blank or equals sign) and texts after options that take none; for unknown short names and other stray words there is no theorem."
  },
  {
   "property": "C163",
   "status": "partial",
   "theorems": [
    "NPE.Props.C163_violated",
    "NPE.Props.C163_violated_claim",
    "NPE.Props.C163_partial"
   ],
   "note": "Violated: timesteps have 32 cycles in the tool and 128 in the library (C163_violated). With 128 cycles asked for, the two agree apart from the name of the timeline file (C163_partial)."
  },
  {
   "property": "C164",
   "status": "partial",
   "theorems": [
    "NPE.Props.C164_violated",
    "NPE.Props.C164_partial",
    "NPE.Props.C164_refused"
   ],
   "note": "Violated: packets of one byte are accepted on every device with two rows (C164_violated). All other numbers of accepted workloads are the documented ones, whatever their ids, phases and destinations (C164_partial); unicast transfers without packets or bytes make a workload refused (C164_refused)."
  },
  {
   "property": "C165",
   "status": "proved",
   "theorems": [
    "NPE.Props.C165_workload",
    "NPE.Props.C165_timeline",
    "NPE.Props.C165_model"
   ],
   "note": "Split parts of a long timeline are named npe_timeline.json_split_0.npeviz and so on. With compression, .zst is added to names (not part of the claim)."
  },
  {
   "property": "C17",
   "status": "proved",
   "theorems": [
    "NPE.Props.C17_activation_exact",
    "NPE.Props.C17_partition"
   ],
   "note": "For every reachable state."
  },
  {
   "property": "C18",
   "status": "partial",
   "theorems": [
    "NPE.Props.C18_violated_end_after_clock",
    "NPE.Props.C18_violated_rounding",
    "NPE.Props.C18_violated_end_before_start",
    "NPE.Props.C18_partial",
    "NPE.Props.C18_exact_partial"
   ],
   "note": "Violated three ways (late activation, rounding, precision above 2^24); the partial theorems give the exact bounds that hold."
  },
  {
   "property": "C19",
   "status": "partial",
   "theorems": [
    "NPE.Props.C19_violated",
    "NPE.Props.C19_partial",
    "NPE.Props.C19_one_chip"
   ],
   "note": "Violated across chips (the chip is not part of the bucket key); exact characterisation without the chip, and the full claim for workloads on one chip."
  },
  {
   "property": "C20",
   "status": "proved",
   "theorems": [
    "NPE.Props.C20_no_exit",
    "NPE.Props.C20_consistent",
    "NPE.Props.C20_check"
   ],
   "note": "For every workload, device and hash order. C20_check: the check accepts exactly the consistent dependencies."
  },
  {
   "property": "C21",
   "status": "proved",
   "theorems": [
    "NPE.Props.C21_waits_for_earlier",
    "NPE.Props.C21_no_deadlock"
   ],
   "note": "For every reachable state of a workload without named parents."
  },
  {
   "property": "C22",
   "status": "proved",
   "theorems": [
    "NPE.Props.C22_completes",
    "NPE.Props.C22_in_time",
    "NPE.Props.C22_lanes",
    "NPE.Props.C22_ends",
    "NPE.Props.C22_without_groups",
    "NPE.Props.C22_congestion_free",
    "NPE.Props.C22_congested",
    "NPE.Props.C22_returns",
    "NPE.Props.C22_stuck",
    "NPE.Props.C22_stuck_error",
    "NPE.Props.C22_only_acyclic"
   ],
   "note": "For every rounding and congestion model; the cycle limit counts as large enough if the explicit deadline (latest offset + (timesteps for the bytes at q bytes each + 2 transfers + 1) * (delay + 2 timesteps + 32)) is at most 50,000,000. C22_in_time allows any timetable (a due time for every transfer that is consistent with what it waits for) and bounds the end of each transfer by its due time; C22_lanes derives from it a second deadline for workloads without groups, by which at most half of the transfers are completed one after the other. C22_congestion_free and C22_congested give conditions on the workload alone under which runs on the device models return statistics (the latter: q bytes per timestep even if all transfers compete for the same resources); C22_returns does so for the whole public interface. C22_stuck and C22_only_acyclic show that both assumptions (at least one byte per timestep, acyclic waits) are needed: bytes per timestep are rounded down, so slow transfers never move."
  },
  {
   "property": "C23",
   "status": "proved",
   "theorems": [
    "NPE.Props.C23_segments_in_order"
   ],
   "note": "For a parent that exists and is unique; up to float rounding of the ethernet delay (relative 2^-21, one cycle)."
  },
  {
   "property": "C24",
   "status": "partial",
   "theorems": [
    "NPE.Props.C24_violated",
    "NPE.Props.C24_partial"
   ],
   "note": "Violated: a missing parent is replaced by transfer 0. An existing parent is found."
  },
  {
   "property": "C25",
   "status": "partial",
   "theorems": [
    "NPE.Props.C25_violated",
    "NPE.Props.C25_violated_blackhole",
    "NPE.Props.C25_violated_multicast",
    "NPE.Props.C25_partial"
   ],
   "note": "Violated: no grouped workload gets through on Blackhole, grouped multicasts fail on Wormhole. C25_partial: succeeds for all workloads of executable transfers (groups: unicast on Wormhole)."
  },
  {
   "property": "C26",
   "status": "proved",
   "theorems": [
    "NPE.Props.C26_slows",
    "NPE.Props.C26_rates",
    "NPE.Props.C26_devices"
   ],
   "note": "Any rounding. C26_devices shows that every factory device satisfies the hypotheses on capacities and table."
  },
  {
   "property": "C27",
   "status": "proved",
   "theorems": [
    "NPE.Props.C27_link_capacity",
    "NPE.Props.C27_link_capacity_rounded"
   ],
   "note": "Exact arithmetic: the full claim. With any rounding: excess of at most 1/128 plus a 2^24-th of the demand."
  },
  {
   "property": "C28",
   "status": "partial",
   "theorems": [
    "NPE.Props.C28_violated",
    "NPE.Props.C28_multicast_unlimited",
    "NPE.Props.C28_sources",
    "NPE.Props.C28_sinks_partial",
    "NPE.Props.C28_sources_rounded",
    "NPE.Props.C28_sinks_rounded_partial"
   ],
   "note": "Sources: proved. Sinks: proved for unicast; violated for multicast (never limited by sinks). The rounded versions hold in float arithmetic up to one part in 128 and a 2^23-th of the offered load."
  },
  {
   "property": "C29",
   "status": "proved",
   "theorems": [
    "NPE.Props.C29_order",
    "NPE.Props.C29_order_uncongested",
    "NPE.Props.C29_violated_float"
   ],
   "note": "Exact arithmetic, as claimed. With IEEE floats the order can matter (witness)."
  },
  {
   "property": "C30",
   "status": "proved",
   "theorems": [
    "NPE.Props.C30_disjoint"
   ],
   "note": "Any rounding."
  },
  {
   "property": "C31",
   "status": "proved",
   "theorems": [
    "NPE.Props.C31_own_bandwidth",
    "NPE.Props.C31_grids_zero"
   ],
   "note": "Any rounding."
  },
  {
   "property": "C32",
   "status": "proved",
   "theorems": [
    "NPE.Props.C32_total",
    "NPE.Props.C32_bounded_monotone",
    "NPE.Props.C32_monotone_rounded",
    "NPE.Props.C32_tight",
    "NPE.Props.C32_devices_monotone",
    "NPE.Props.C32_devices"
   ],
   "note": "C32_devices: all of it in IEEE arithmetic for every device of the factory. C32_bounded_monotone: every table in exact arithmetic. C32_total: every table and rounding, with the upper bound up to 2^-21."
  },
  {
   "property": "C33",
   "status": "partial",
   "theorems": [
    "NPE.Props.C33_devices",
    "NPE.Props.C33_timesteps",
    "NPE.Props.C33_results",
    "NPE.Props.C33_overall_partial",
    "NPE.Props.C33_no_records",
    "NPE.Props.C33_violated"
   ],
   "note": "Every timestep record, and the overall figures of a device with at least one record: proved in any rounding. Violated for a device without records (NaN)."
  },
  {
   "property": "C34",
   "status": "partial",
   "theorems": [
    "NPE.Props.C34_partial",
    "NPE.Props.C34_niu",
    "NPE.Props.C34_violated"
   ],
   "note": "Link demand, utilisation and multicast utilisation: proved. Violated for NIU demand: the mesh figure is the sum, not the mean."
  },
  {
   "property": "C35",
   "status": "proved",
   "theorems": [
    "NPE.Props.C35_estimated",
    "NPE.Props.C35_mesh_covers"
   ],
   "note": "The last end is characterised independently (LastEnd)."
  },
  {
   "property": "C36",
   "status": "partial",
   "theorems": [
    "NPE.Props.C36_violated",
    "NPE.Props.C36_impact_zero",
    "NPE.Props.C36_partial",
    "NPE.Props.C36_percentage"
   ],
   "note": "Violated: the congestion-free count is the congested run's own count, so the reported impact is always zero. Holds for the model 'none'."
  },
  {
   "property": "C37",
   "status": "partial",
   "theorems": [
    "NPE.Props.C37_violated",
    "NPE.Props.C37_returned",
    "NPE.Props.C37_partial"
   ],
   "note": "Errors of the first run: always returned. Statistics: returned for all workloads without negative rates and without empty transfers of rate zero; violated by a negative rate with a byte count that wraps to zero."
  },
  {
   "property": "C38",
   "status": "partial",
   "theorems": [
    "NPE.Props.C38_violated",
    "NPE.Props.C38_violated_golden",
    "NPE.Props.C38_violated_golden_all",
    "NPE.Props.C38_violated_source",
    "NPE.Props.C38_partial"
   ],
   "note": "Violated by missing golden windows (std::out_of_range escapes) and off-grid sources (undefined behaviour before validation). C38_partial: all factory devices and configurations, all workloads of executable transfers with golden windows."
  },
  {
   "property": "C39",
   "status": "partial",
   "theorems": [
    "NPE.Props.C39_violated",
    "NPE.Props.C39_violated_multicast",
    "NPE.Props.C39_violated_metadata",
    "NPE.Props.C39_violated_chips",
    "NPE.Props.C39_partial"
   ],
   "note": "Multicasts, zones and group counts are dropped; holds for same-chip unicast workloads (transfers and device golden windows)."
  },
  {
   "property": "C40",
   "status": "partial",
   "theorems": [
    "NPE.Props.C40_scale_monotone",
    "NPE.Props.C40_violated_identity",
    "NPE.Props.C40_identity_partial"
   ],
   "note": "Order preservation in every rounding mode; scaling by one is the identity only up to 2^24 (IEEE witness 16777217)."
  },
  {
   "property": "C41",
   "status": "proved",
   "theorems": [
    "NPE.Props.C41_mesh_window",
    "NPE.Props.C41_empty_map"
   ],
   "note": "Non-empty maps of 32-bit windows; the empty map gives the inverted window."
  },
  {
   "property": "C42",
   "status": "proved",
   "theorems": [
    "NPE.Props.C42_devices",
    "NPE.Props.C42_records",
    "NPE.Props.C42_gap_free"
   ],
   "note": "For every reachable state."
  },
  {
   "property": "C43",
   "status": "partial",
   "theorems": [
    "NPE.Props.C43_violated",
    "NPE.Props.C43_partial",
    "NPE.Props.C43_aligned_partial",
    "NPE.Props.C43_none"
   ],
   "note": "Violated: one record too many, possibly invented, unless the window starts at a positive multiple of the timestep. C43_partial gives the exact result."
  },
  {
   "property": "C44",
   "status": "partial",
   "theorems": [
    "NPE.Props.C44_regions",
    "NPE.Props.C44_cover",
    "NPE.Props.C44_no_split",
    "NPE.Props.C44_contents_partial",
    "NPE.Props.C44_violated",
    "NPE.Props.C44_violated_zero"
   ],
   "note": "The index ranges are proved. File contents are right for contiguous records; violated by the invented last record of C43, and a threshold of zero divides by zero."
  },
  {
   "property": "C45",
   "status": "partial",
   "theorems": [
    "NPE.Props.C45_partial",
    "NPE.Props.C45_no_span",
    "NPE.Props.C45_file_partial",
    "NPE.Props.C45_violated_spanning",
    "NPE.Props.C45_violated"
   ],
   "note": "Violated: a transfer that begins before and ends after the region is not listed. All others are listed exactly if they intersect, for regions and for whole files."
  },
  {
   "property": "C46",
   "status": "proved",
   "theorems": [
    "NPE.Props.C46_document",
    "NPE.Props.C46_active",
    "NPE.Props.C46_run",
    "NPE.Props.C46_violated_removal"
   ],
   "note": "C46_document for all workloads; C46_run: every completed run of executable transfers with registered groups is written without error. C46_violated_removal: removing local transfers forgets the registration, so writing then fails."
  },
  {
   "property": "C47",
   "status": "proved",
   "theorems": [
    "NPE.Props.C47_stack",
    "NPE.Props.C47_failure",
    "NPE.Props.C47_unique",
    "NPE.Props.C47_closed"
   ],
   "note": "Both directions against an inductive definition of nestings with open zones."
  },
  {
   "property": "C48",
   "status": "proved",
   "theorems": [
    "NPE.Props.C48_read",
    "NPE.Props.C48_write",
    "NPE.Props.C48_own"
   ],
   "note": "At every position of every successfully converted trace, for events without fabric metadata."
  },
  {
   "property": "C49",
   "status": "proved",
   "theorems": [
    "NPE.Props.C49_conversion",
    "NPE.Props.C49_plain",
    "NPE.Props.C49_violated_processor"
   ],
   "note": "C49_conversion covers fabric events, too. Every successful conversion; C49_violated_processor: a trace that begins with an event of an unknown processor is undefined behaviour instead of skipping the event."
  },
  {
   "property": "C50",
   "status": "partial",
   "theorems": [
    "NPE.Props.C50_partial",
    "NPE.Props.C50_violated"
   ],
   "note": "Proved for traces that fit 32 bits; violated beyond (the offset wraps)."
  },
  {
   "property": "C51",
   "status": "partial",
   "theorems": [
    "NPE.Props.C51_partial",
    "NPE.Props.C51_violated_short",
    "NPE.Props.C51_violated_silent",
    "NPE.Props.C51_violated_empty"
   ],
   "note": "Proved for devices with events that are active for 20 cycles after the origin. Violated otherwise: the window wraps, or conversion is undefined behaviour for a silent device."
  },
  {
   "property": "C52",
   "status": "partial",
   "theorems": [
    "NPE.Props.C52_index",
    "NPE.Props.C52_partial",
    "NPE.Props.C52_drift",
    "NPE.Props.C52_violated",
    "NPE.Props.C52_script_partial",
    "NPE.Props.C52_script_violated"
   ],
   "note": "Violated: each local write shifts the indices (C52_drift says by how much). C52_partial: right when no route up to the parent writes locally. The script and the converter together: right for unicasts, violated for a multicast to two chips."
  },
  {
   "property": "C53",
   "status": "proved",
   "theorems": [
    "NPE.Props.C53_uniquify"
   ],
   "note": ""
  },
  {
   "property": "C54",
   "status": "proved",
   "theorems": [
    "NPE.Props.C54_modulus"
   ],
   "note": ""
  },
  {
   "property": "C55",
   "status": "proved",
   "theorems": [
    "NPE.Props.C55_device_names",
    "NPE.Props.C55_config",
    "NPE.Props.C55_make"
   ],
   "note": ""
  },
  {
   "property": "C56",
   "status": "proved",
   "theorems": [
    "NPE.Props.C56_device",
    "NPE.Props.C56_attributes",
    "NPE.Props.C56_report",
    "NPE.Props.C56_run",
    "NPE.Props.C56_refused",
    "NPE.Props.C56_repeated"
   ],
   "note": "Values in the ranges of their C++ types; C56_run: every report of a run qualifies."
  },
  {
   "property": "C57",
   "status": "proved",
   "theorems": [
    "NPE.Props.C57_place",
    "NPE.Props.C57_turn",
    "NPE.Props.C57_back",
    "NPE.Props.C57_refused"
   ],
   "note": "Proper topologies: ids and places are unique and meshes are filled row by row."
  },
  {
   "property": "C58",
   "status": "proved",
   "theorems": [
    "NPE.Props.C58_prefix",
    "NPE.Props.C58_all",
    "NPE.Props.C77_events"
   ],
   "note": ""
  },
  {
   "property": "C59",
   "status": "partial",
   "theorems": [
    "NPE.Props.C59_violated",
    "NPE.Props.C59_partial",
    "NPE.Props.C59_devices",
    "NPE.Props.C59_rounded_partial"
   ],
   "note": "Violated by one timestep for transfers activated right after a timestep boundary; C59_partial bounds the excess by one timestep in exact arithmetic, C59_rounded_partial in any rounding (relative error 2^-22, ends moved by less than 24 cycles)."
  },
  {
   "property": "C60",
   "status": "proved",
   "theorems": [
    "NPE.Props.C60_route_terminates_iff",
    "NPE.Props.C60_fuel_adequate"
   ],
   "note": "Also justifies the iteration bound of the model."
  },
  {
   "property": "C61",
   "status": "partial",
   "theorems": [
    "NPE.Props.C61_partial",
    "NPE.Props.C61_violated"
   ],
   "note": "Violated: the coordinates are truncated to 16 bits before validation. Holds for numbers that fit."
  },
  {
   "property": "C62",
   "status": "proved",
   "theorems": [
    "NPE.Props.C62_nocs_independent"
   ],
   "note": "Any rounding, unicast and multicast, multichip."
  },
  {
   "property": "C63",
   "status": "proved",
   "theorems": [
    "NPE.Props.C63_links"
   ],
   "note": "All runs of executable transfers, full and split files."
  },
  {
   "property": "C64",
   "status": "proved",
   "theorems": [
    "NPE.Props.C64_demands"
   ],
   "note": ""
  },
  {
   "property": "C65",
   "status": "partial",
   "theorems": [
    "NPE.Props.C65_document_partial",
    "NPE.Props.C65_region_partial",
    "NPE.Props.C65_violated",
    "NPE.Props.C65_violated_region",
    "NPE.Props.C65_stray_end"
   ],
   "note": "Proved when no zone has the name and start of a zone around it. Violated otherwise (C65_violated), and a zone inside of the region is dropped with a zone around it that is not (C65_violated_region). C65_stray_end: an end without an open zone is undefined behaviour."
  },
  {
   "property": "C66",
   "status": "proved",
   "theorems": [
    "NPE.Props.C66_demands",
    "NPE.Props.C66_demands_rounded"
   ],
   "note": "Exact arithmetic; C66_demands_rounded: in float arithmetic up to one part in 128 for entries with at most 65536 demands; found necessary by mutation m072 (wrong core type for the sinks of multicasts)."
  },
  {
   "property": "C67",
   "status": "partial",
   "theorems": [
    "NPE.Props.C67_partial",
    "NPE.Props.C67_script",
    "NPE.Props.C67_violated",
    "NPE.Props.C67_violated_first"
   ],
   "note": "Proved for cores with zones. Violated for cores without: stale zones of another core, or undefined behaviour for the first event."
  },
  {
   "property": "C68",
   "status": "proved",
   "theorems": [
    "NPE.Props.C68_groups",
    "NPE.Props.C68_ungrouped"
   ],
   "note": ""
  },
  {
   "property": "C69",
   "status": "partial",
   "theorems": [
    "NPE.Props.C69_violated",
    "NPE.Props.C69_partial"
   ],
   "note": "Violated: on Blackhole no trace with a fabric event is converted. C69_partial: every well-formed trace is converted on Wormhole, and on every device if it has no fabric paths."
  },
  {
   "property": "C70",
   "status": "proved",
   "theorems": [
    "NPE.Props.C70_loaded"
   ],
   "note": "Every file that loads."
  },
  {
   "property": "C71",
   "status": "partial",
   "theorems": [
    "NPE.Props.C71_partial",
    "NPE.Props.C71_own",
    "NPE.Props.C71_workload",
    "NPE.Props.C71_only",
    "NPE.Props.C71_missing",
    "NPE.Props.C71_violated",
    "NPE.Props.C49_violated_processor"
   ],
   "note": "Own exceptions never escape; missing and unreadable files and lists of events give an empty result unless behaviour is undefined. Violated: an object without a list of phases makes an exception of the JSON library escape."
  },
  {
   "property": "C72",
   "status": "partial",
   "theorems": [
    "NPE.Props.C72_devices",
    "NPE.Props.C72_mesh",
    "NPE.Props.C72_chip_partial",
    "NPE.Props.C72_violated",
    "NPE.Props.C72_eth",
    "NPE.Props.C72_eth_mean",
    "NPE.Props.C72_sum"
   ],
   "note": "Mesh, single chips and ethernet: proved. Violated for the chips of multichip boards: the traffic of one chip is related to the bandwidth of all chips (for all workloads)."
  },
  {
   "property": "C73",
   "status": "proved",
   "theorems": [
    "NPE.Props.C73_overall",
    "NPE.Props.C73_error",
    "NPE.Props.C73_no_golden"
   ],
   "note": "Exact arithmetic in the summary."
  },
  {
   "property": "C74",
   "status": "proved",
   "theorems": [
    "NPE.Props.C74_line",
    "NPE.Props.C74_parents",
    "NPE.Props.C74_writes",
    "NPE.Props.C74_places",
    "NPE.Props.C74_exists"
   ],
   "note": "Every path that the script computes with start+range-1 of at least 1; C74_exists: it computes one wherever the board has the hops. C74_places needs a cluster without turning corners."
  },
  {
   "property": "C75",
   "status": "partial",
   "theorems": [
    "NPE.Props.C75_partial",
    "NPE.Props.C75_always",
    "NPE.Props.C75_violated",
    "NPE.Props.C75_name"
   ],
   "note": "Violated: the plane used is the one of the last entry of the table (always: C75_always). C75_partial: right if there is one plane. C75_name: an unknown channel ends in a NameError that the script does not catch."
  },
  {
   "property": "C76",
   "status": "partial",
   "theorems": [
    "NPE.Props.C76_unicast",
    "NPE.Props.C76_destination",
    "NPE.Props.C76_segments",
    "NPE.Props.C76_multicast_partial",
    "NPE.Props.C76_violated",
    "NPE.Props.C76_violated_rows",
    "NPE.Props.C76_twice",
    "NPE.Props.C76_unicast_exists",
    "NPE.Props.C76_multicast_exists_partial"
   ],
   "note": "Unicasts: proved, and accepted wherever the board has the hops. Multicasts: right without branches; violated with branches: the chip at the branch is written twice (C76_twice, every multicast with an east branch), and later branches start at the wrong chip."
  },
  {
   "property": "C77",
   "status": "proved",
   "theorems": [
    "NPE.Props.C77_events",
    "NPE.Props.C77_fields"
   ],
   "note": "Every run that ends normally."
  },
  {
   "property": "C78",
   "status": "proved",
   "theorems": [
    "NPE.Props.C78_decode",
    "NPE.Props.C78_encode",
    "NPE.Props.C78_trace"
   ],
   "note": ""
  },
  {
   "property": "C79",
   "status": "proved",
   "theorems": [
    "NPE.Props.C79_names",
    "NPE.Props.C79_unambiguous",
    "NPE.Props.C79_written"
   ],
   "note": "Names that do not end in a newline (Python's $ also matches before a final newline); digits and word characters are ASCII."
  },
  {
   "property": "C80",
   "status": "proved",
   "theorems": [
    "NPE.Props.C80_groups"
   ],
   "note": ""
  },
  {
   "property": "C81",
   "status": "partial",
   "theorems": [
    "NPE.Props.C81_partial",
    "NPE.Props.C81_timeline_partial",
    "NPE.Props.C81_violated"
   ],
   "note": "Violated: the trace id 0 is left out of the name, so an operation in trace 0 and the same operation outside of traces share their files. Proved for all other ids."
  },
  {
   "property": "C82",
   "status": "partial",
   "theorems": [
    "NPE.Props.C82_violated"
   ],
   "note": "Violated for all inputs: the grouping returns a list, of which the caller asks for items(), so the option never works."
  },
  {
   "property": "C83",
   "status": "proved",
   "theorems": [
    "NPE.Props.C83_weighted",
    "NPE.Props.C83_shares",
    "NPE.Props.C83_sorted",
    "NPE.Props.C83_sorted_rounded",
    "NPE.Props.C83_percentiles",
    "NPE.Props.C83_table"
   ],
   "note": "Means and shares in exact arithmetic; the order also with the rounding of doubles (up to 2^52 cycles)."
  },
  {
   "property": "C84",
   "status": "proved",
   "theorems": [
    "NPE.Props.C84_collect",
    "NPE.Props.C84_order",
    "NPE.Props.C84_found"
   ],
   "note": "Exact arithmetic for the figures."
  },
  {
   "property": "C85",
   "status": "partial",
   "theorems": [
    "NPE.Props.C85_partial",
    "NPE.Props.C85_violated",
    "NPE.Props.C85_violated_failed"
   ],
   "note": "Violated exactly if there is no datapoint or one without golden cycles: the script ends with a ZeroDivisionError. C85_partial covers all other cases."
  },
  {
   "property": "C86",
   "status": "partial",
   "theorems": [
    "NPE.Props.C86_distinct",
    "NPE.Props.C86_names",
    "NPE.Props.C86_default",
    "NPE.Props.C86_default_distinct",
    "NPE.Props.C86_violated_directory",
    "NPE.Props.C86_violated",
    "NPE.Props.C86_violated_split"
   ],
   "note": "Names are always distinct, and right for given paths without the extension in a directory name. Violated: the default name of a workload file in another directory puts the prefix before the directory (for all such files), and split files leave a directory whose name contains the extension."
  },
  {
   "property": "C87",
   "status": "partial",
   "theorems": [
    "NPE.Props.C87_files",
    "NPE.Props.C87_violated_schema",
    "NPE.Props.C87_violated_noc"
   ],
   "note": "Reading back is proved for all files of all runs (chips section usable). Violated: no document follows the published schema (id instead of transfer_id, NOC0 instead of NOC_0)."
  },
  {
   "property": "C88",
   "status": "partial",
   "theorems": [
    "NPE.Props.C88_mesh",
    "NPE.Props.C88_single",
    "NPE.Props.C88_violated_missing",
    "NPE.Props.C88_violated_meshes",
    "NPE.Props.C88_violated_shape"
   ],
   "note": "Proved for topologies with one mesh and for single chips. Violated: without a readable topology file the whole document is null, with several meshes no chip has a place, a shape that is not a pair of numbers raises an exception that nobody catches, and a mesh without columns divides by zero."
  },
  {
   "property": "C89",
   "status": "partial",
   "theorems": [
    "NPE.Props.C89_partial",
    "NPE.Props.C89_violated"
   ],
   "note": "Proved for boards with one chip. Violated on others: entries do not name the chip."
  },
  {
   "property": "C90",
   "status": "partial",
   "theorems": [
    "NPE.Props.C90_same",
    "NPE.Props.C90_off",
    "NPE.Props.C90_partial",
    "NPE.Props.C90_violated",
    "NPE.Props.C90_violated_claim"
   ],
   "note": "If both return statistics they are the same; writing succeeds for registered groups, nested zones and usable topologies. Violated otherwise: an unregistered group (after removal of local transfers), a stray zone end or a malformed topology turn a successful estimate into an error, undefined behaviour or an escaping exception."
  },
  {
   "property": "C91",
   "status": "partial",
   "theorems": [
    "NPE.Props.C91_loaded",
    "NPE.Props.C91_keys",
    "NPE.Props.C91_last",
    "NPE.Props.C91_accepted",
    "NPE.Props.C91_refused",
    "NPE.Props.C91_violated",
    "NPE.Props.C91_samples"
   ],
   "note": "Proved for files whose keys are different numbers; the last entry of others counts in each table (C91_last). Violated: for two spellings of the same chip, the inverse table keeps the place of the first. The topology files of the repository's own examples are refused."
  },
  {
   "property": "C92",
   "status": "partial",
   "theorems": [
    "NPE.Props.C92_proper",
    "NPE.Props.C92_places",
    "NPE.Props.C92_violated"
   ],
   "note": "Proved for files with one full mesh. Violated: for a chip of an undescribed mesh the timeline shows a place, the script raises KeyError."
  },
  {
   "property": "C93",
   "status": "partial",
   "theorems": [
    "NPE.Props.C93_partial",
    "NPE.Props.C93_violated_string",
    "NPE.Props.C93_violated_block"
   ],
   "note": "Proved for text without slashes and block comments that are followed by text and hold no //. Violated: // in a string, block comments in a row, // in a block comment."
  },
  {
   "property": "C94",
   "status": "partial",
   "theorems": [
    "NPE.Props.C94_status",
    "NPE.Props.C94_violated_success",
    "NPE.Props.C94_violated_error",
    "NPE.Props.C94_partial"
   ],
   "note": "Violated for all inputs: after a successful simulation the tool asks the statistics for an attribute that they lack and ends with status 1; after an error of the simulation it ends with status 0. C94_status: status 0 exactly in that case. C94_partial: refused options and unreadable workloads do give another status."
  },
  {
   "property": "C95",
   "status": "partial",
   "theorems": [
    "NPE.Props.C95_route",
    "NPE.Props.C95_device",
    "NPE.Props.C95_drawn_partial",
    "NPE.Props.C95_outside",
    "NPE.Props.C95_violated"
   ],
   "note": "Routes agree on all grids. Violated for the draws: on every grid with fewer than 11 rows or 6 columns a memory core outside of the grid may be drawn, and the walk to it never ends. C95_drawn_partial: larger grids are fine."
  },
  {
   "property": "C96",
   "status": "proved",
   "theorems": [
    "NPE.Props.C96_active",
    "NPE.Props.C96_demand",
    "NPE.Props.C96_time",
    "NPE.Props.C96_cover"
   ],
   "note": "Exact arithmetic; every segment takes time (C96_time: at least 40 cycles)."
  },
  {
   "property": "C97",
   "status": "partial",
   "theorems": [
    "NPE.Props.C97_violated_bytes",
    "NPE.Props.C97_averages",
    "NPE.Props.C97_violated_average"
   ],
   "note": "Violated: the duration counts one cycle too many, and the averages are divided by eight links for each core of one device instead of four for each core of all devices. C97_averages gives the exact factor."
  },
  {
   "property": "C98",
   "status": "partial",
   "theorems": [
    "NPE.Props.C98_violated"
   ],
   "note": "Violated for all topologies: the table of neighbours is never filled, so the search ends in a failed assertion."
  },
  {
   "property": "C99",
   "status": "partial",
   "theorems": [
    "NPE.Props.C99_violated",
    "NPE.Props.C99_partial"
   ],
   "note": "Violated for all draws: the program sets no golden window, so std::out_of_range escapes from the simulation of a valid workload and the program ends with status 1. C99_partial: with a golden window for the device the simulation returns statistics for every draw (any rounding, with congestion)."
  }
 ]
}