# Formal model of tt-npe: design

tt-npe estimates the run time of a set of NoC transfers ("workload") on a
Tenstorrent device. It advances a clock in fixed timesteps; in each timestep it
activates transfers that became ready, computes a bandwidth for each active
transfer from a congestion model, moves bytes, and records completions. The Lean
project under `lean/` contains a model of that program, written function by
function from the C++ source in `/repo` (read as text; never built or run), and
theorems about the model.

## Layout

| directory | content |
|---|---|
| `Verif/Model/*.lean` | the model. Every definition cites file and lines in `/repo/tt_npe`. |
| `Verif/Spec/*.lean`  | small specifications, written without using the model's helper functions. |
| `Verif/Proofs/*.lean` | helper lemmas. |
| `Verif/Props/*.lean` | one section per property: the property theorems and, beside each, an `example` with a concrete case that meets the hypotheses. |

## Modelling decisions

* **Outcomes.** Functions that can fail return an outcome type with separate
  constructors for a normal result, a tt-npe exception with its error code,
  another C++ exception (`std::out_of_range`, `std::bad_variant_access`, ...),
  process exit, and undefined behaviour.
* **Integers.** Coordinates and device ids are `Int`, counters are `Nat`. Where C++ uses
  32-bit unsigned (or 16-bit signed) types and the value can leave the range, the reduction is
  explicit in the model (`total_bytes`, golden windows, JSON coordinates). Where it
  cannot, a theorem says so (clock, link ids).
* **Floating point.** C++ computes bandwidths in `float`/`double`. The model is
  parametric in a rounding operator `fl : ℚ → ℚ` with a short list of laws
  (monotone, fixes small integers, idempotent; see `Verif/Model/Rounding.lean`). `fl = id` (exact
  arithmetic) and a concrete binary32 round-to-nearest-even operator are shown to satisfy the laws. Overflow to infinity is not
  modelled; division by zero is an explicit case. Theorems that hold only in
  exact arithmetic (capacity sums, order independence) say so.
* **Engine.** The simulation loop is parametric in an arbitrary rate function
  ("bandwidth history"), so its theorems hold for every congestion model. The
  real congestion model is then an instance.
* **Containers.** `std::vector` is `List` (or `Array`), hash maps are association lists or functions with
  explicit "absent" value; iteration order of hash containers is never relied upon
  by a modelled result, or the model takes the order as a parameter.
* **Logging, progress bar and wall-clock time** are not modelled; files are values with names, and for C119 a
  disk that may refuse or truncate them.

## Trusted base

* The Lean 4.33 kernel and the Mathlib files it loads; axioms `propext`,
  `Classical.choice`, `Quot.sound` only.
* The reading of C++ into Lean. The code is not executed here, so the tie is
  the citation beside each definition.
* Abstraction of floating point by the laws above.
* The rules by which Python's `argparse` reads words, as far as Model/Argv.lean states them (they are not part of the repository).

Modelled: `npeUtil.hpp` (coordinates, multicast sets, zone iterator, uniquify,
modulus), `npeWorkload.{hpp,cpp}`, `npeAPI.cpp`, `npeConfig.hpp` (validation relevant fields),
`npeDependencyTracker.hpp`, `npeTransferState.hpp`, `npeEngine.cpp` (all but
logging), `npeDeviceModelUtils.hpp`, the three device models, `npeDeviceModelFactory.hpp`,
`npeStats.cpp` (statistics, finish, summary; both timeline formats as JSON values, file names, region
and split logic; not JSON text), `npeCompressionUtil.cpp` (around the library), `npeWorkloadIngest.cpp`
(workload files, trace conversion, golden windows, zones, error handling; over already parsed JSON),
`pybind/bindings.cpp` (pickle tuples), `py/util/fabric_post_process.py`
(neighbour computation, path expansion, desync filter),
`py/util/npe_analyze_noc_trace_dir.py` (file names, grouping, collection of results, table),
`py/pycli/tt_npe.py` (words to options, options to configuration, exit status), the topology loader,
the sample data generator, the example program, the charts and tables of the scripts as text, the prompt, the timer and the
grid container of the headers, the printed texts of statistics and configurations, and the hash functions of keys
(`std::hash` of integers is the identity after sign extension; of strings and doubles a parameter).

Not modelled: the argument syntax of command lines other than that of `tt_npe.py` and of the words that Model/Argv.lean
leaves out, JSON text (simdjson, nlohmann::json) and zstd (parameters in C119),
Python analysis scripts other than the above, logging, progress bar, visualizer,
exact IEEE overflow/NaN propagation (only where a theorem says so). Texts that the program prints itself are modelled.

## Per property plan

| property | what is modelled and how it is proved |
|---|---|
| C01 | Model `addPhase`; induction over the list of phases; spec: flattened ids = range. |
| C02 | Model `validate` including bitmaps and the off-by-one guard; iff with a declarative well-formedness predicate. Decision logic. |
| C03 | Violated: `validate` ORs the corner checks over the rectangles, and compares only the first rectangle's device. Negation by witness; `_partial` for a single rectangle. |
| C04 | Constructor wraps modulo 2^32. Negation by witness; `_partial` iff no overflow. |
| C05 | Model `unicastRoute` with fuel-free loop; spec: inductive torus path. Induction on hop counts. |
| C06 | Corollary of a closed form of the route. |
| C07 | Model lookup population as nested flatMap; closed form of index; injectivity; bound per device. |
| C08 | NOC1 violated (the code walks the far column only). Negation by witness; NOC0: `_partial`. Props/McastReach.lean: exactly which cores are reached, for both NoCs. |
| C09 | Set equality with union of unicast routes, Nodup. |
| C10 | Model multichip `route`; equality with single-chip route. |
| C11 | Model iterator as a state machine; run to end equals row-major product; count. Never ends if a rectangle reaches row 32767; inverted rectangles are visited as widened ones (Props/McastRange.lean). |
| C12 | Violated (`||` instead of `&&`). Negation by witness; `_partial`: rejects doubly inverted. |
| C13 | Termination measure for the loop and each inner loop; outcome never `diverge`, for every configuration and workload; loop bound; clock. |
| C14 | Invariant of the loop (partition waiting/active/completed), for every rate function. |
| C15 | Invariant of every reachable state. |
| C16 | Per-step theorem from the activation characterisation and dependency tracker. |
| C17 | Queue invariant (sorted unscanned prefix ++ scanned-but-blocked); refinement of the in-place scan to a filter. |
| C18 | Violated three ways: above 2^24 cycles (float), at the late-dependency adjustment, by rounding. Negations by witness with the concrete rounding operator; `_partial` with the bounds that hold. |
| C19 | Model bucket pass; violated across chips (key lacks the chip); `_partial` per (core, NoC, link) bucket. |
| C20 | Invariant: checkpoint k has exactly one provider; sanity check passes. `C20_check` says which dependencies the check accepts at all. |
| C21 | Rank function: position in the sorted bucket. |
| C22 | Liveness: potential argument over remaining bytes and not-yet-started transfers, with a bound on idle timesteps (end cycles lie at most a timestep, 32 cycles of rounding and the delay ahead). Gives an explicit deadline, in terms of a number q of bytes that every active transfer moves per timestep. A second argument needs no potential: every assignment of due times that is consistent with the waits (a timetable) is kept, by induction over the timesteps; for workloads without groups the place in the lane gives one, and with it a deadline that counts half of the transfers instead of all. For the device models q follows from the workload: without congestion from the bandwidth table, with congestion from a lower bound on the derate factor (at most n transfers share a link, source or sink, so demand is at most 64 n bytes per cycle). Both assumptions are shown to be needed. Finding: the bytes of a timestep are rounded down, so that a transfer whose bandwidth yields less than one byte per timestep never moves; e.g. 1000 packets of one byte with `cycles_per_timestep` 1 end in the cycle limit error on every Wormhole device (`C22_stuck_error`). |
| C23 | Follows from C16 and the group pass. |
| C24 | Violated: the map's `operator[]` default 0. Negation by witness. |
| C25 | Violated on Blackhole: missing `break`. Theorem: every grouped child on Blackhole yields DEPENDENCY_GEN_FAILED; `_partial`: Wormhole does not. |
| C26 | Monotone rounding: derate factor in [0,1]. |
| C27 | Exact arithmetic; sum over transfers of derated demand ≤ capacity. |
| C28 | Violated for multicast sinks (min with 0 disables the check). Negation by witness; sources and unicast sinks proved, exactly and with the rounding error of `float`. |
| C29 | Permutation invariance in exact arithmetic. With IEEE floats the order matters (witness). |
| C30 | Locality of demand sums. |
| C31 | Unfold of the rate computation, stated against a table-lookup spec. |
| C32 | Model `interpolateBW`; proofs over a generic sorted table; instances for both tables. In IEEE arithmetic the weighted mean of two peaks can exceed the peak by one unit if the peak has an odd significand (28.1 with 5, 12 or 112 packets); both tables have even ones, so `C32_devices` is exact. |
| C33 | Sums of min(d, cap). Violated for a device without records (0/0). |
| C34 | Links: algebra over equal-size blocks; NIU: violated (divisor is the full grid); witness. |
| C35 | Fold of max over completions. |
| C36 | Violated: the field is copied from the same run. Theorem: impact is always 0. `_partial`: field equals estimated cycles. |
| C37 | Case analysis of `runPerfEstimation`. |
| C38 | Violated: missing golden window -> out_of_range; off-grid source with rate inference -> UB. Witnesses; `_partial` under explicit conditions. |
| C39 | Violated: multicast dropped, metadata lost, chips not compared. Witnesses; `_partial` for the kept list. |
| C40 | Order: monotone rounding. Identity at 1: violated above 2^24; `_partial` below. |
| C41 | min/max folds; the empty map gives INT64_MAX truncated. |
| C42 | Invariant over steps. |
| C43 | Violated: resize can grow by an invented record. Witness; exact description of the result as `_partial`. |
| C44 | Arithmetic of ceil-division chunks. Contents violated through C43; threshold 0 divides by zero (witnesses). |
| C45 | Violated: a transfer spanning the region is not listed. Witness; `_partial`: soundness and completeness for all others. |
| C46 | Model grouping; partition theorem under registered ids; removal of local transfers forgets the registration (witness). |
| C47 | Refinement to a declarative open-starts spec. |
| C48 | Fold over events with two state registers; spec: last matching event of the prefix, at each position of the trace. |
| C49 | The list of transfers equals a flatMap over the events that denote data movements, including fabric events. An unknown processor in the first event is undefined behaviour (proved for all such traces). |
| C50 | min fold. Violated beyond 32 bits (witness). |
| C51 | min/max folds per device. Violated for silent devices (undefined behaviour, for all traces), for devices that end within 20 cycles of the origin (window wraps, for all traces), for the empty trace. |
| C52 | Violated: each local write shifts the index. Witness, `_partial` without local writes, and `C52_drift`: exactly when the index is right. Composed with the fabric script: `C52_script_partial` (unicasts), `C52_script_violated` (multicast to two chips). |
| C53 | Sort/unique facts. |
| C54 | Int arithmetic with C++ truncating remainder. |
| C55 | Decision tables. |
| C56 | Round-trip over the 22-tuple with the casts of pybind11; side condition (ranges) shown for reports of runs. |
| C57 | Arithmetic on row-major coordinates, against a declarative neighbour relation with wrap-around and turning corners. |
| C58 | List recursion; lifted to whole script runs by `C77_events`. |
| C59 | Violated by one timestep (late activation); `_partial` bounds the excess by one timestep; `_rounded_partial` does so in any rounding, for every device with a good table (Proofs/Credit.lean: induction over timesteps; rounding moves an end by less than 24 cycles below 100,000,000). |
| C60 | Iff, on the fuel-free specification; justifies the fuel of the model. |
| C61 | Violated: 16-bit truncation before validation. Witness; `_partial` for numbers that fit. |
| C62 | Locality of demand sums, as C30, for any rounding. |
| C63 | Every emitted link list against the path specification of C05/C09. |
| C64 | Membership iff above the threshold. |
| C65 | Refinement to a nesting specification. Violated for a zone with the name and start of a zone around it, and for a zone inside of a region below one that is not (witnesses). |
| C66 | Sums over the active transfers, exactly and with the rounding error of `float`; found necessary by a seeded fault. |
| C67 | Invariant of the zone iterators against the events in time order. Violated for cores without zones (stale pointer: witness; null pointer for the first event: all traces). |
| C68 | Group counter invariant; filter by group equals the items of the event. |
| C69 | Violated: no trace with a fabric path is converted on Blackhole (missing `break`), for all traces. `C69_partial`: induction over the events; `Trace.WellFormed` says what a trace needs (processors, phases, nesting, corners, an active core). |
| C70 | Equality of the loaded phases with a filterMap over the entries. |
| C71 | Violated by objects without a list of phases (an exception of the JSON library escapes), for all such files. `_partial`: own exceptions, missing files, lists of events. Workload files give a workload or an own exception (`C71_workload`); exactly which files can do anything else is `C71_only`. |
| C72 | Model/Summary; equalities with sums over transfers (Spec/Summary) and a table characterisation. Violated for the chips of multichip boards: the traffic of one chip is divided by the bandwidth of all chips (proved for all workloads); the formula for single chips is `_partial`. |
| C73 | Figure by figure equality with mean/peak of the records; error formula solved for the estimate. |
| C74 | The loop over hops refines an inductive `Line` of neighbouring chips; positions by displacement with wrap-around. `C74_exists`: existence by induction over the room left on the board. |
| C75 | Violated: the loop variable of the search leaks, so the plane of the last table entry is used (proved for all paths). An unknown channel gives a NameError that escapes the handler. `_partial` for one plane. |
| C76 | `Leg` followed by `Line`. Multicast violated: branches start at the last chip reached, the branch chip is written twice (for all multicasts with an east branch). Existence: `C76_unicast_exists`, `C76_multicast_exists_partial` (columns and rows; branches are not covered). |
| C77 | Permutation and prefix of the time-sorted events; field-wise equality. |
| C78 | Bit shifts as division and remainder. |
| C79 | The backtracking matcher against an inductive description of names; uniqueness of the reading. |
| C80 | Induction over the listing; membership in groups by the description of names. |
| C81 | Injectivity of decimal notation. Violated for trace id 0 (a truth test instead of a test for None). |
| C82 | Violated for all inputs (`AttributeError`). |
| C83 | Sums in exact arithmetic; sortedness from the stable sort, also with rounding: reciprocals of different numbers up to 2^52 round to different doubles (Proofs/Double.lean). |
| C84 | The dictionary equals the list of points of separate results; sums are invariant under permutation. |
| C85 | Violated without datapoints or golden cycles; `_partial` for all other cases. |
| C86 | Names as lists of characters; first occurrence of the extension; injectivity of decimal notation. Violated for workload files in other directories and for directories whose name contains the extension. |
| C87 | A reader by field names (Spec/Document) composed with the writer is the identity. Violated: the published schema uses other names. |
| C88 | Division with remainder by the number of columns. Violated by missing, multi-mesh and malformed topologies, for all runs. |
| C89 | Reader of the legacy format; violated on boards with several chips (two different transfers have the same entry). |
| C90 | The run with files refines the run without. `_partial`: totality of the writers. Violated by three kinds of input (witnesses). |
| C91 | Loader of the fabric script against a description of the file (`Spec.Fabric.Contents`); dictionaries as association lists with the last entry winning. `C91_violated`: keys "1" and "01". |
| C92 | C91 composed with C88: the two readers of the topology file give each chip the same place. |
| C93 | Two passes over the text; pieces of text and comments. Violated for slashes in strings and for neighbouring comments. |
| C94 | Whole-program model of the command line tool over the API model; exit status as a function of the outcome. Violated for all runs: success ends with an AttributeError (status 1), an error with status 0. |
| C95 | Loops of the generator in closed form, equal to that of the device model (refinement); grids too small for the fixed memory cores: divergence. |
| C96 | Multiset of recorded usages, interval overlap against integer division; maximum and ceiling for the number of timesteps. |
| C97 | Sum over a dictionary as a sum over all links; violated by the off-by-one duration and by the fixed divisor, exact factor proved. |
| C98 | Violated for all inputs (assertion on an empty table). |
| C99 | Model the random choices as a parameter. Violated for all draws (no golden window is set, cf. C38). With a window set: all conditions of the liveness theorem for congested runs (C22) hold for every draw, so the simulation returns statistics. |
| C100 | Compare `operator==` with `std::hash` for each key type. Violated for rectangles and multicast sets (equality ignores the chip). For the others equality is identity, and a bucket table (Spec/Hash.lean) answers like the association list that models it. |
| C101 | `distribute` has an inverse (two involutions and two odd factors), rotation is injective; induction over the sequence. |
| C102 | Exchange goes unnoticed exactly if rotation by 21 fixes the difference of the mixed values; 21 and 64 are coprime, so only zero and all ones are fixed. Violated for one partner of each value. |
| C103 | The low halves of the mixed hashes of all 36*12*17 coordinates are distinct (one kernel computation over the whole table, a superset of every board); the kinds of link do not touch the low half. |
| C104 | Draws as a parameter, as for C99. Lower bound of 17 bytes per cycle for packets of at least 512 bytes, in any rounding; even if all 64 transfers share a link each moves 6 bytes per timestep, so the lane deadline (C22) is met. The sum deadline would not be enough: it is about 106 million cycles for the worst draw. |
| C105 | From C59 in any rounding: a completed transfer moved at most its bandwidth times the cycles up to the limit. So an overlong transfer cannot complete, and the only other outcome of an executable workload is the cycle limit error (`runSim_total`). Finding: both tests of the limit use 10^10 bytes, which wrap to 1410065408 in 32 bits; at 28.1 bytes per cycle these exceed the limit by 0.3 percent only. |
| C106 | Violated by one timestep, with the cause of C59 (three transfers, kernel computation). With that timestep, from C59 in any rounding and C35. |
| C107 | Violated for multicasts without the event type WRITE_MULTICAST (kernel computation). For multicasts with it: an invariant of the demand grids (the two grids are equal, or the multicast grid is zero) carried through runs, reports and pre-processing; converted traces set the type (from C49). |
| C108 | A reader of the texts as specification; round trip by induction over digits and rectangles. Violated: the chip of the second corner is not printed. |
| C109 | Counts of all 11*31*31 coordinates by one kernel computation (packed into one number); links of a draw are told apart by C103's argument. Violated for every hash function: of three times ten buckets, some ten are missed by two thirds of the 19404 links, so by 10000. |
| C110 | C69_partial, then C76 for what is converted, then C22/C13 (total run; lane deadline). |
| C111 | Refinement: Spec/Fluid.lean describes a timestep without queue, swaps, live list and checkpoints; `Shows` relates the states; induction over the run (Proofs/Fluid.lean). Speeds with congestion: exact in Proofs/FluidShared.lean by C66; rounded in Proofs/FluidRounded.lean, where a computable plan (queue and live list as lists of ids) gives the order of additions. |
| C112 | From C111: what a transfer waits for does not depend on the order of buckets (C19), and the plan of the rounded run depends on the queue and the jobs only (Proofs/FluidOrder.lean). Violated for multicasts: the first element of a hash set of links chooses the queue. |
| C113 | From C111: the description of the larger workload, restricted to the smaller one, is that of the smaller one (Proofs/FluidFrame.lean); unrelated transfers are not waited for (Proofs/FluidEmbed.lean). Violated for other chips (cf. C19). With rounding: transfers that wait for nothing are kept in the order of offset and number (Proofs/FluidQueue.lean), so the demands on a resource are added in the same order (Proofs/FluidApart.lean). |
| C114 | From C111: the descriptions are equal up to the shift; bounds exclude overflow (Proofs/FluidShift.lean); with rounding also the order in which transfers become active is the same, as two scans of the queue do the same as one (Proofs/FluidShiftRounded.lean, Proofs/FluidQueueLater.lean). Violated for other delays (C59's double credit depends on the phase of the timestep) and, above 2^24 cycles, by rounding. |
| C115 | From C111: without waiting, a run with lower speeds stays behind (`Behind`, Proofs/FluidMono.lean): fewer bytes moved, no earlier end (with rounding: `Trails`, Proofs/FluidMonoRounded.lean, where an end may lie a cycle after its timestep). Violated with waiting: an end is counted from the start of the timestep in which the transfer completes, even if it began within it, so a later start can give an earlier end. With waiting, the chains of C157 and C159 bound the difference (Props/AloneChains.lean). |
| C116 | As C115; transfers that are behind are active longer, so loads are larger and speeds lower: the relation carries itself through the timesteps. With rounding (Proofs/FluidCrowd.lean): the demands are added in the order of offset and number, and a rounded sum of nonnegative terms does not decrease if terms are inserted. |
| C117 | As C116, for two devices; routes and dependencies do not depend on bandwidths. |
| C118 | From C113 with no further transfers; `Embeds` keeps only the order that matters (`Ranked`). Violated for transfers of the same queue and cycle; in float for any transfers of the same cycle (the order in which demands are added decides whether a last byte is moved in this timestep or the next one). |
| C119 | Libraries, operating system and stream buffer as parameters with laws (Model/Write.lean, Spec/Write.lean); induction over the files of a run (their names differ, C86), then the reader of C87. Violated: errors of `operator<<` and `close` are not looked at. |
| C120 | An independent reader of the text (Spec/Text.lean); round trip line by line (Proofs/Text.lean). |
| C121 | The same for the cores; sorted lists with different keys are determined by their elements. |
| C122 | The same for configurations. Violated for names with quotes and new lines (kernel computation). |
| C123 | From C111: a transfer with constant speed loses less than a byte at each boundary (`Paced`, Proofs/FluidGrain.lean), nothing if bytes per timestep are whole. Violated for fractional speeds. With waiting, the chains of C157 and C159 bound the difference (Props/AloneChains.lean). |
| C124 | From C111: equal jobs have equal speeds and so equal progress (`Twins`, Proofs/FluidFair.lean). Violated in queues. |
| C125 | From C111 and C01: ids are dense across phases, so both workloads have the same jobs and the same queue. Complete runs (Props/Phases.lean): both runs in lockstep, the states of the transfers equal apart from the phase (Proofs/Phases.lean); preprocessing and validation flattened over the phases (Proofs/PhasesOutput.lean). |
| C126 | Lists of the YAML files (Spec/Layout.lean) against the model's tables, `decide +kernel` over the grid. Found by mutation m427: no theorem depended on the table. |
| C127 | Model/Grid.lean. Flat vector against a function of places (invariant over programs of reads, writes and resets). Finding: release builds alias columns that are too large; 64-bit product wraps. C127_cores justifies `Device.getCoreType`. |
| C128 | Model/Prompt.lean. First character that is not blank. Finding: at the end of the input `promptUser` looks at an uninitialised variable (undefined behaviour). |
| C129 | Spec/Turn.lean, Proofs/FluidMove.lean (renaming of resources leaves plans of runs unchanged, from C111) and Proofs/Turn.lean (translations keep routes in closed form). Multicasts are left out: a moved rectangle can wrap around and is then no rectangle. |
| C130 | As C129 with a reflection that exchanges rows and columns, and the NoCs. |
| C131 | As C129 with a renumbering of the chips, on a board with any number of chips; estimates with C35. |
| C132 | Spec/Schema.lean: a small language of shapes of JSON values, the two published example files as shapes (checked against a part of the published example), and the names that the code writes instead. Props/Schema.lean: every document fits the second, none the first. |
| C133 | Model/TableText.lean prints the lines, Spec/TableText.lean reads them. Findings: no chip in a row; `-m` with a negative number counts too many as left out. |
| C134 | Model/Directory.lean: jobs in order of completion, each with its estimate (Api, Timeline) and files. From C85/C86 (names), C81/C90 (files). The concrete case uses a trace without transfers, whose run is derived by hand (`idle_estimated`), as evaluating a board in the kernel costs 5 GB. Findings: entries of traces of one operation share their number; trace id 0. |
| C135 | **Violated** in two ways (`C135_violated`): the bandwidth of a transfer falls with the number of packets (`C135_bandwidth`, exact), and demand falls with it, so other transfers of the core, link or sink end earlier; and transfers that wait, as for C115. Proved for independent transfers by generalising the relation of C115–C117 (second run has no less to move and no more speed): without congestion for all numbers of packets; with congestion where bandwidths stay (`Grows`, `C135_limited`), exact and rounded. |
| C136 | Spec/Deadline.lean: `crowded` (speed with all transfers active), `Deadlines` (by which timesteps a transfer is surely started and finished). Proofs/FluidDeadline.lean over the description of C111: loads of a subset of the transfers are at most those of all (rounded: any order of some extends to an order of all, `extend_order`, and sums in it are monotone), so speeds are at least `crowded`; then induction over the deadlines. `end_late`: the four roundings of an end amount to at most 26 cycles at any clock, one below cycle 2^24 (`cycles_between`). |
| C137 | Spec/Later.lean: `Later` names the fields that may have influence. Proofs/Later.lean: every function of the conversion depends on the event through these fields, and on the time through the difference to the origin; the table of times is the shifted one. **Violated** for silent devices (`C137_violated`). |
| C138 | Spec/Bottleneck.lean: `Passes` lists what a transfer passes. Proofs/Bottleneck.lean: the factor in terms of offered loads (as for C111), as a least element; with rounding every factor is at least 1 or absent; Proofs/BottleneckRounded.lean: closeness up to a fraction is kept by minima and maxima. |
| C139 | Sum of the bandwidths after derating, each multiplied by the same factor (C138; with rounding by almost the same one). **Violated** in general (`C139_violated`): the model does one proportional round, not max-min fairness. |
| C140 | Model/Bindings.lean: constructors with the range checks of pybind11. Spec/Bindings.lean: `Says` relates arguments and entries of a file. Round trip by induction over phases and transfers; the path has no influence on a run (`runNPE_path`). **Violated** for offsets from 2^31 on. |
| C141 | Model/GenerateSummary.lean: figures per NoC, per timestep and overall, with the rounding as a parameter. Sums over dictionaries are turned into sums over the links of the board, as for C97. **Violated**: `max_link_demand` is the maximum of averages. |
| C142 | Proofs/Account.lean: an invariant of the run with a ghost amount `A i` for every transfer, which grows by share times bandwidth in every timestep; `moved` is at most `A i` plus the extra credit, and the sum of `A i` over the transfers on a link is at most what the records say. **Violated** by the extra credit of C59. With rounding (Proofs/AccountRounded.lean) the same invariant for any function that bounds the flow over a link by its record; the function comes from C27, C66 and C26. |
| C143 | Model/Chart.lean, Spec/Chart.lean (how a chart is read: values of rows and columns), Proofs/Chart.lean (what the loops write). **Violated** for negative values, integers and values far from zero. |
| C144 | Proofs/Roof.lean (induction over the timesteps: what the transfers have sent through a part of the device is at most its capacity times the time, up to the last end when they are finished; Proofs/RoofRounded.lean the same with rounding, where ends are up to 24 cycles early). **Violated** with dependencies. |
| C145 | Model/Timer.lean: calls with the readings of the clock as parameters. Invariant: a stopped timer does not change. **Violated** for moved timers. |
| C146 | Lockstep (bisimulation) of two runs whose states differ only in checkpoint numbers: `Linked` (transfers up to numbers), `Joined` (corresponding checkpoints have equal contents, and a completion bumps corresponding ones), `Concur` (same kind of outcome). The start of the relation comes from the characterisation of dependencies (C19, C20). Timelines do not show the numbers (`emitFiles_unlinked`). |
| C147 | Rearranging the argument of a successful loop rearranges its results (`mapM_perm`); documents compared field by field (`ReadAlike`), also for split files and together with the order of issue queues (C146). |
| C148 | C84 from the results of workers lifted to whole jobs: a result has one entry for each device whatever the transfers are (Proofs/Keys, by induction over the run without hypotheses), rearranged jobs give rearranged results (`mapM_perm`), and sorted lists of lengths are unique. |
| C149 | The lockstep of C125 with a larger difference between the two runs (Proofs/Phases.lean has both as instances). |
| C150 | Lockstep of two runs that differ in statistics only, for any relation of statistics that the loop keeps (Proofs/Measured.lean): equality for windows with the same starts, nothing for other windows. **Violated** by windows that end before a transfer is issued. |
| C151 | Frame of the two fluid runs (as for C113, but with arbitrary relations of further transfers to the others); the queue of the larger workload is that of the smaller one behind entries that are not due, and the scan keeps this. Violated within a timestep (witness). |
| C152 | From C111 and the plan with rounding: the first part as for C151; for the second part the queues are equal up to numbers once the first part has ended, and additional dependencies on ended transfers change neither starts nor credits. Violated at the boundary of a timestep (witness). |
| C153 | From C49 (exact items of every event) and C67: with state of the own core, the items of an event depend on the past of its core only; lists with equal parts for each core are permutations; group numbers are renamed along. Windows: minima and maxima over the same events. Violated for saved state (shared by all cores) and cores without zones. |
| C154 | The states of both runs agree by induction over timesteps (`run_congr`): with loads within the capacities, the speed with congestion is the own bandwidth (`sharedIn_kept`). Rounded loads are bounded by `entry_close` (`loadIn_close`). `calm_of_spacious` derives the hypothesis from the sum over the whole workload. |
| C155 | A transfer under way in a timestep with `A` transfers under way has used `1/A` of the timestep; `parts_le` shows by induction that these parts are at most what the transfer needs on its own (`usedUp`), with `shared_underWay` for the speeds and `floor_large` for whole bytes. The sum over all transfers is the number of busy timesteps (`busySteps_le`). Waiting is only for earlier transfers of the lane (C19, C21), so no timestep after the last offset is idle (`busySteps_all`). With rounding (`C155_rounded`) the speed is at least 0.982 of that part (`sharedIn_underWay`), and since ends can be recorded ahead of the clock there can be one idle timestep for each transfer (`busySteps_ge_late`). |
| C156 | From `C155_estimated` (the reported estimate is at most the sum of the times that the transfers need one at a time) and `C106_partial` (without congestion no estimate is below the time that one transfer needs). |
| C157 | Chains are an inductive relation over the dependencies (`ChainTime`); `C157_partial` by induction over the chain with `C59_rounded_partial` for one transfer and `C21_waits_for_earlier` for the start of the next. `C157_queue_partial` takes the two chains of every second transfer of a queue, which exist by `C19_partial`. |
| C158 | From the invariant of the loop; that every checkpoint has a provider follows from the edges of dependency generation. The condition of the log message is modelled in Model/EndCheck.lean. |
| C159 | Strong induction over the timestep in which a transfer finishes, in the description of runs (C111): it began in the first timestep in which its offset and the end of the transfer before it allowed (`begins_chain`), and moves whole bytes in every timestep after that (`began_in`). No order among the transfers is needed, so groups are included. |
| C160 | As C159, with the least bandwidth that congestion leaves (`sharedIn_underWay`), where the load of a point is bounded by what all transfers ask for at once (`asked_all`). `C160_slowdown` compares the chains of the two runs (`chain_same`, `chain_compare`) and uses C157 for the run without congestion. |
| C161 | The tables of the documentation are transcribed in Spec/TraceDoc.lean. From C49 and C67; for state, from C48 and the fact that in the documented order the events between two of a core are of that core. Violated: no zones in the documentation (null pointer), and names of types. |
| C162 | Model/Argv.lean reads words by the documented rules of argparse, with the table of options from the code. The table of names is checked by the kernel; a request is read as one step whatever follows (the next word is a name or there is none); then induction over the requests, and over them from the end for the meaning. |
| C163 | From C162 for a command line with one request. Violated by the number of cycles per timestep. |
| C164 | Accepted workloads have only valid transfers (induction over the loops of the validation); the converse from C02. Violated by packets of one byte. |
| C165 | From C162 and the definitions of runs with files; names by computation of the default path. |

The unit tests of the repository are transcribed as examples in Props/Conformance.lean and Props/ConformanceTrace.lean
(the latter runs the small trace file from JSON to statistics). They test the model, they prove nothing for all inputs.

Errors of relative size: the law `err` of a rounding says |fl x - x| ≤ 2^-24 |x|. It is used by
C23, C27_link_capacity_rounded, C32, C59_rounded, C104, C105 and C106 to bound what float rounding can add.
