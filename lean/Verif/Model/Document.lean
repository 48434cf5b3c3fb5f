import Verif.Model.Analyze
import Verif.Model.Api
import Verif.Model.Fabric
import Verif.Model.Ingest

/-
The timeline files: the JSON documents, their names, and runs that write them.
`v0TimelineSerialization`, `v1TimelineSerialization`, `writeTimelineToFile` and
`emitSimTimelineToFile`, src/npeStats.cpp:203-876.  Citations relative to /repo/tt_npe/cpp.

Simplifications: the text of a document and the writing to disk are not modelled (errors there are
only logged, lines 795-797); a document is the value that the text denotes, so that NaN and the infinities,
which the library prints as `null`, are `null`; fields are in the order of their creation; the zones of a
document are computed after its timesteps, not before.  Keys of a topology file are assumed distinct.
-/

namespace NPE

/-! ## Names of files -/

/-- `s.find_last_of('.')` and `substr(0, ...)`, src/npeStats.cpp:811-812: the text before the last dot, or
all of it. -/
def beforeLastDot (s : List Char) : List Char :=
  if '.' ∈ s then ((s.reverse.dropWhile (· ≠ '.')).drop 1).reverse else s

/-- The text before the first occurrence of `p`, or all of it: `find` and `substr`,
src/npeStats.cpp:835-839. -/
def beforeFirst (p : List Char) : List Char → List Char
  | [] => []
  | c :: l => if p.isPrefixOf (c :: l) then [] else c :: beforeFirst p l

/-- The options of `npeConfig` for the timeline, include/npeConfig.hpp:19-32.  A topology file that is not named
is a missing file. -/
structure TimelineConfig where
  emit : Bool := false
  path : List Char := []
  workloadJson : List Char := []
  compress : Bool := false
  legacy : Bool := false
  topology : InputFile := .missing
  threshold : Nat := 10000

/-- `base_filepath`, src/npeStats.cpp:807-816. -/
def TimelineConfig.base (tc : TimelineConfig) : List Char :=
  if tc.path = [] then
    if tc.workloadJson = [] then "npe_timeline.npeviz".toList
    else "npe_timeline_".toList ++ beforeLastDot tc.workloadJson ++ ".npeviz".toList
  else tc.path

/-- The name under which a document is written, src/npeStats.cpp:783-786. -/
def TimelineConfig.fileName (tc : TimelineConfig) (path : List Char) : List Char :=
  if tc.compress then path ++ ".zst".toList else path

/-- The name of a split file, src/npeStats.cpp:834-839 and 870. -/
def TimelineConfig.splitName (tc : TimelineConfig) (i : Nat) : List Char :=
  beforeFirst ".npeviz".toList tc.base ++ "_split_".toList ++ Analyze.decimal i ++ ".npeviz".toList

/-! ## JSON values -/

/-- A `double` in a document. -/
def Dbl.json : Dbl → Json
  | .num x => .double x
  | _ => .null

/-- `{c.device_id, c.row, c.col}` -/
def Coord.json (c : Coord) : Json := .arr [.int c.dev, .int c.row, .int c.col]

/-- `magic_enum::enum_name` of `nocLinkType`, include/npeDeviceTypes.hpp:20-25. -/
def LinkType.name : LinkType → String
  | .noc1North => "NOC1_NORTH"
  | .noc1West => "NOC1_WEST"
  | .noc0East => "NOC0_EAST"
  | .noc0South => "NOC0_SOUTH"

/-- `magic_enum::enum_name` of `nocType`, include/npeCommon.hpp:18. -/
def Noc.name : Noc → String
  | .noc0 => "NOC0"
  | .noc1 => "NOC1"

/-- Link names and terminal names, src/npeStats.cpp:583-600 and 700-706. -/
def HopKind.name : HopKind → String
  | .entry .noc0 => "NOC0_IN"
  | .entry .noc1 => "NOC1_IN"
  | .link ty => ty.name
  | .exit .noc0 => "NOC0_OUT"
  | .exit .noc1 => "NOC1_OUT"

/-- `magic_enum::enum_name` of `RiscType`. -/
def RiscType.name : RiscType → String
  | .brisc => "BRISC"
  | .ncrisc => "NCRISC"
  | .trisc0 => "TRISC_0"
  | .trisc1 => "TRISC_1"
  | .trisc2 => "TRISC_2"
  | .erisc => "ERISC"
  | .coreAgg => "CORE_AGG"

/-- `{device_id, row, col, name}` in `links`, src/npeStats.cpp:590-600. -/
def hopJson (h : Coord × HopKind) : Json :=
  .arr [.int h.1.dev, .int h.1.row, .int h.1.col, .str h.2.name]

/-- An element of `route`, src/npeStats.cpp:574-603. -/
def Segment.json (s : Segment) : Json := .obj [
  ("device_id", .int s.src.dev),
  ("src", s.src.json),
  ("dst", .arr (s.dst.map Coord.json)),
  ("noc_type", .str s.noc.name),
  ("injection_rate", .double s.injectionRate),
  ("start_cycle", .int s.startc),
  ("end_cycle", .int s.endc),
  ("links", .arr (s.links.map hopJson))]

/-- An element of `noc_transfers`, src/npeStats.cpp:556-606. -/
def LogicalTransfer.json (t : LogicalTransfer) : Json := .obj [
  ("id", .int t.id),
  ("src", t.src.json),
  ("total_bytes", .int t.totalBytes),
  ("start_cycle", .int t.startc),
  ("noc_event_type", .str t.eventType),
  ("fabric_event_type", .bool t.fabric),
  ("zones", .str t.zones),
  ("end_cycle", .int t.endc),
  ("dst", .arr (t.dst.map Coord.json)),
  ("route", .arr (t.route.map Segment.json))]

/-- `{device_id, row, col, name, demand}` in `link_demand`, src/npeStats.cpp:708 and 715-720. -/
def demandJson (d : Coord × HopKind × ℚ) : Json :=
  .arr [.int d.1.dev, .int d.1.row, .int d.1.col, .str d.2.1.name, .double d.2.2]

/-- The figures of one NoC, src/npeStats.cpp:386-393 and 727-735. -/
def nocJson (demand util max : Json) : Json := .obj [
  ("avg_link_demand", demand),
  ("avg_link_util", util),
  ("max_link_demand", max)]

/-- An element of `timestep_data`, src/npeStats.cpp:679-738. -/
def timestepJson (r : TimestepStats) (e : TimestepEntry) : Json := .obj [
  ("start_cycle", .int e.startc),
  ("end_cycle", .int e.endc),
  ("active_transfers", .arr (e.active.map Json.int)),
  ("link_demand", .arr (e.linkDemand.map demandJson)),
  ("avg_link_demand", .double r.avgLinkDemand),
  ("avg_link_util", .double r.avgLinkUtil),
  ("mcast_write_link_util", .double r.avgMcastUtil),
  ("noc", .obj [
    ("NOC0", nocJson (.double r.avgNoc0Demand) (.double r.avgNoc0Util) (.double r.maxNoc0Demand)),
    ("NOC1", nocJson (.double r.avgNoc1Demand) (.double r.avgNoc1Util) (.double r.maxNoc1Demand))])]

/-- The object of a zone, src/npeStats.cpp:622-646: `start`, `zones`, and `id` and `end` once the zone has
ended. -/
def ZoneNode.json : ZoneNode → Json
  | .node s done kids => .obj ([("start", .int s), ("zones", .arr (jsons kids))] ++
      match done with
      | some (id, e) => [("id", .str id), ("end", .int e)]
      | none => [])
where
  jsons : List ZoneNode → List Json
  | [] => []
  | x :: l => json x :: jsons l

/-- The zones of one core and processor, src/npeStats.cpp:611-668. `zones` is created with the first zone. -/
def coreZonesJson (zs : List Zone) (core : Coord × RiscType) (roots : List ZoneNode) : Json :=
  .obj ([("core", core.1.json), ("proc", .str core.2.name)] ++
    if zs = [] then [] else [("zones", .arr (roots.map ZoneNode.json))])

/-- `common_info`, src/npeStats.cpp:369-393. -/
def commonInfo (cfg : Config) (dev : Device) (s : Summary) : Json := .obj [
  ("version", .str "1.0.0"),
  ("mesh_device", .str cfg.deviceName),
  ("arch", .str (if dev.arch = .wormholeB0 then "wormhole_b0" else "blackhole")),
  ("cycles_per_timestep", .int cfg.cyclesPerTimestep),
  ("congestion_model_name", .str cfg.congestionModel),
  ("num_rows", .int dev.rows),
  ("num_cols", .int dev.cols),
  ("dram_bw_util", s.dramUtil.json),
  ("link_util", s.avgLinkUtil.json),
  ("mcast_write_link_util", s.avgMcastUtil.json),
  ("link_demand", s.avgLinkDemand.json),
  ("max_link_demand", .double s.maxLinkDemand),
  ("noc", .obj [
    ("NOC0", nocJson s.avgNoc0Demand.json s.avgNoc0Util.json (.double s.maxNoc0Demand)),
    ("NOC1", nocJson s.avgNoc1Demand.json s.avgNoc1Util.json (.double s.maxNoc1Demand))])]

/-! ## The places of the chips -/

/-- `is_number_integer()` and the number: integers beyond 64 bits are read as `double`. -/
def integer? : Json → Option Int
  | .int n => if -9223372036854775808 ≤ n ∧ n < 18446744073709551616 then some n else none
  | _ => none

/-- `static_cast<int>` of a `double`. -/
def doubleToInt (x : ℚ) : Out Int :=
  let n := if 0 ≤ x then ⌊x⌋ else ⌈x⌉
  if -2147483648 ≤ n ∧ n < 2147483648 then .ok n else .ub

/-- `get<int>()`: numbers and truth values are converted, anything else is a `type_error`. -/
def getInt : Json → Out Int
  | .int n =>
    if -9223372036854775808 ≤ n ∧ n < 18446744073709551616 then .ok (toI32 n) else doubleToInt n
  | .double x => doubleToInt x
  | .bool b => .ok (if b then 1 else 0)
  | _ => .std .jsonType

/-- Both operands of `/` and `%` are `int`. -/
def intDivMod (a b : Int) : Out (Int × Int) :=
  if b = 0 ∨ (a = -2147483648 ∧ b = -1) then .ub else .ok (a.tdiv b, a.tmod b)

/-- The loop over the chips, src/npeStats.cpp:427-442; `none` is `return nlohmann::json{}`. -/
def chipPlaces (ew : Int) : List (String × Json) → Out (Option (List (String × Json)))
  | [] => .ok (some [])
  | (k, .arr [a, b]) :: l =>
    match integer? a, integer? b with
    | some _, some n => intDivMod (toI32 n) ew >>= fun p => chipPlaces ew l >>= fun r =>
        .ok (r.map fun r => (k, .arr [.int p.2, .int p.1, .int 0, .int 0]) :: r)
    | _, _ => .ok none
  | _ :: _ => .ok none

/-- The chips and the shape of the mesh in a topology file with one mesh, src/npeStats.cpp:414-426. -/
def singleMesh? (j : Json) : Option (List (String × Json) × Json × Json) :=
  match j.field "device_id_to_fabric_node_id", j.field "mesh_shapes" with
  | some (.obj nodes), some (.arr [m]) =>
    match m.field "shape" with
    | some (.arr [a, b]) => some (nodes, a, b)
    | _ => none
  | _, _ => none

/-- `chips`, src/npeStats.cpp:395-453; `none` stands for an empty document.  Only parse errors are caught. -/
def chipsSection (dev : Device) (topology : InputFile) : Out (Option (List (String × Json))) :=
  if 1 < dev.chips then
    match topology with
    | .missing => .ok none
    | .unparsable => .ok none
    | .doc j =>
      match singleMesh? j with
      | some (nodes, a, b) => getInt a >>= fun _ => getInt b >>= fun ew => chipPlaces ew nodes
      | none => .ok (some [])
  else .ok (some [("0", .arr [.int 0, .int 0, .int 0, .int 0])])

/-! ## Documents -/

/-- The zones of all cores, src/npeStats.cpp:608-668. -/
def zonesJson (wl : Workload) (region : Option Region) : Out (List Json) :=
  Out.mapM (fun (e : (Coord × RiscType) × List Zone) =>
    emitZones region e.2 >>= fun roots => .ok (coreZonesJson e.2 e.1 roots)) wl.zones

/-- Everything that a run with statistics for the whole mesh leaves to be written. -/
structure RunData where
  wl : Workload
  ts : List TState
  stats : DevStats
  summary : Summary

/-- `v1TimelineSerialization`, src/npeStats.cpp:359-775. -/
def documentV1 (fp : FP) (cfg : Config) (dev : Device) (ord : List (Int × List Int) → List (Int × List Int))
    (topology : InputFile) (d : RunData) (region : Option Region) : Out Json :=
  chipsSection dev topology >>= fun chips =>
    match chips with
    | none => .ok .null
    | some chips =>
      serializeV1 fp dev ord d.wl d.ts d.stats.steps region >>= fun tl =>
      zonesJson d.wl region >>= fun zones =>
      .ok (.obj [
        ("common_info", commonInfo cfg dev d.summary),
        ("chips", .obj chips),
        ("noc_transfers", .arr (tl.transfers.map LogicalTransfer.json)),
        ("zones", .arr zones),
        ("timestep_data", .arr (List.zipWith timestepJson (d.stats.steps.filter (listedStep region))
          tl.timesteps))])

/-- `j[k] = v` on an object, or on `null`, which becomes an object. -/
def Json.put (j : Json) (k : String) (v : Json) : Json :=
  match j with
  | .obj l => .obj (Fabric.setKey k v l)
  | _ => .obj [(k, v)]

/-- `split_info`, src/npeStats.cpp:860-868. -/
def splitInfo (i n : Nat) (r : Region) : Json := .obj [
  ("split_index", .int i),
  ("total_splits", .int n),
  ("start_timestep_idx", .int r.startIdx),
  ("end_timestep_idx", .int r.endIdx),
  ("start_cycle", .int r.startCycle),
  ("end_cycle", .int r.endCycle)]

/-- `j["common_info"]["split_info"] = ...`, src/npeStats.cpp:860. -/
def addSplitInfo (i n : Nat) (r : Region) (j : Json) : Json :=
  j.put "common_info" (((j.field "common_info").getD .null).put "split_info" (splitInfo i n r))

/-! ## The legacy format -/

/-- `{c.row, c.col}` -/
def Coord.jsonV0 (c : Coord) : Json := .arr [.int c.row, .int c.col]

/-- An element of `noc_transfers` in the legacy format, src/npeStats.cpp:229-283, from the destinations and the
links of the route. -/
def transferJsonV0 (t : TState) (dst : List Coord) (attrs : List LinkAttr) : Json := .obj [
  ("id", .int t.params.id),
  ("src", t.params.src.jsonV0),
  ("dst", .arr (dst.map Coord.jsonV0)),
  ("total_bytes", .int t.params.totalBytes),
  ("noc_type", .str t.params.noc.name),
  ("injection_rate", .double t.params.injectionRate),
  ("start_cycle", .int t.start),
  ("end_cycle", .int t.endc),
  ("noc_event_type", .str t.params.eventType),
  ("route", .arr (
    .arr [.int t.params.src.row, .int t.params.src.col, .str (HopKind.entry t.params.noc).name] ::
    (attrs.map fun a => .arr [.int a.coord.row, .int a.coord.col, .str a.type.name]) ++
    dst.map fun c => .arr [.int c.row, .int c.col, .str (HopKind.exit t.params.noc).name]))]

/-- Body of the loop over transfers, src/npeStats.cpp:227-284. -/
def transferV0 (dev : Device) (t : TState) : Out Json :=
  destinationList dev t.params.dst >>= fun dst =>
  Out.mapM dev.getLinkAttributes t.route >>= fun attrs =>
  .ok (transferJsonV0 t dst attrs)

/-- An element of `timestep_data` in the legacy format, src/npeStats.cpp:288-328, from the two parts of the
demands. -/
def timestepJsonV0 (r : TimestepStats) (nius links : List Json) : Json := .obj [
  ("start_cycle", .int r.startc),
  ("end_cycle", .int r.endc),
  ("active_transfers", .arr ((sortBy (fun a b => a ≤ b) r.live).map fun (i : Nat) => .int i)),
  ("link_demand", .arr (nius ++ links)),
  ("avg_link_demand", .double r.avgLinkDemand),
  ("avg_link_util", .double r.avgLinkUtil),
  ("mcast_write_link_util", .double r.avgMcastUtil)]

/-- Body of the loop over timesteps, src/npeStats.cpp:287-329. -/
def timestepV0 (fp : FP) (dev : Device) (r : TimestepStats) : Out Json :=
  Out.mapM (fun e => dev.getNIUAttributes (toI16 (e.1 : Nat)) >>= fun a =>
    .ok (Json.arr [.int a.coord.row, .int a.coord.col, .str (niuHop a.type).name, .double e.2]))
    (significant fp r.niuGrid) >>= fun nius =>
  Out.mapM (fun e => dev.getLinkAttributes (toI16 (e.1 : Nat)) >>= fun a =>
    .ok (Json.arr [.int a.coord.row, .int a.coord.col, .str a.type.name, .double e.2]))
    (significant fp r.linkGrid) >>= fun links =>
  .ok (timestepJsonV0 r nius links)

/-- `v0TimelineSerialization`, src/npeStats.cpp:203-331. -/
def documentV0 (fp : FP) (cfg : Config) (dev : Device) (d : RunData) : Out Json := do
  let transfers ← Out.mapM (transferV0 dev) d.ts
  let steps ← Out.mapM (timestepV0 fp dev) d.stats.steps
  return .obj [
    ("common_info", .obj [
      ("device_name", .str cfg.deviceName),
      ("cycles_per_timestep", .int cfg.cyclesPerTimestep),
      ("congestion_model_name", .str cfg.congestionModel),
      ("num_rows", .int dev.rows),
      ("num_cols", .int dev.cols),
      ("dram_bw_util", d.summary.dramUtil.json),
      ("link_util", d.summary.avgLinkUtil.json),
      ("mcast_write_link_util", d.summary.avgMcastUtil.json),
      ("link_demand", d.summary.avgLinkDemand.json),
      ("max_link_demand", .double d.summary.maxLinkDemand)]),
    ("noc_transfers", .arr transfers),
    ("timestep_data", .arr steps)]

/-! ## Runs that write files -/

/-- The split files, src/npeStats.cpp:826-873. -/
def splitFiles (fp : FP) (cfg : Config) (dev : Device) (ord : List (Int × List Int) → List (Int × List Int))
    (tc : TimelineConfig) (d : RunData) : Out (List (List Char × Json)) :=
  splitRegions d.stats.steps tc.threshold >>= fun regions =>
    Out.mapM (fun (e : Nat × Region) => documentV1 fp cfg dev ord tc.topology d (some e.2) >>= fun j =>
      .ok (tc.fileName (tc.splitName e.1), addSplitInfo e.1 regions.length e.2 j))
      ((List.range regions.length).zip regions)

/-- `emitSimTimelineToFile`, src/npeStats.cpp:799-876: the names and contents of the files in the order in which
they are written. -/
def emitFiles (fp : FP) (cfg : Config) (dev : Device) (ord : List (Int × List Int) → List (Int × List Int))
    (tc : TimelineConfig) (wl : Workload) (ts : List TState) (rep : Report) : Out (List (List Char × Json)) :=
  match rep.lookup MESH_DEVICE with
  | none => .std .outOfRange
  | some r =>
    if tc.legacy then documentV0 fp cfg dev ⟨wl, ts, r.stats, r.summary⟩ >>= fun j =>
      .ok [(tc.fileName tc.base, j)]
    else documentV1 fp cfg dev ord tc.topology ⟨wl, ts, r.stats, r.summary⟩ none >>= fun j =>
      splitFiles fp cfg dev ord tc ⟨wl, ts, r.stats, r.summary⟩ >>= fun l =>
      .ok ((tc.fileName tc.base, j) :: l)

/-- `runSinglePerfSim`, src/npeEngine.cpp:202-361, with the timeline of lines 356-358. -/
def Api.runSimFiles (fp : FP) (ho : HashOrder) (ord : List (Int × List Int) → List (Int × List Int)) (api : Api)
    (tc : TimelineConfig) (congestion : Bool) (wl : Workload) : Out (Result × List (List Char × Json)) :=
  runSingle fp api.dev ho api.cfg.cyclesPerTimestep congestion wl >>= fun r =>
    match r with
    | .inl (s, st) => st.report api.dev wl >>= fun rep =>
      if tc.emit then emitFiles fp api.cfg api.dev ord tc wl s.ts rep >>= fun files => .ok (.inl rep, files)
      else .ok (.inl rep, [])
    | .inr e => .ok (.inr e, [])

/-- `runPerfEstimation`, src/npeEngine.cpp:172-200: the second run writes no files. -/
def Api.runPerfFiles (fp : FP) (ho : HashOrder) (ord : List (Int × List Int) → List (Int × List Int)) (api : Api)
    (tc : TimelineConfig) (wl : Workload) : Out (Result × List (List Char × Json)) :=
  let congested := decide (api.cfg.congestionModel ≠ "none")
  api.runSimFiles fp ho ord tc congested wl >>= fun r =>
    if api.cfg.estimateCongImpact then
      match r.1 with
      | .inr e => .ok (.inr e, r.2)
      | .inl st => api.runSimFiles fp ho ord { tc with emit := false } false wl >>= fun r' =>
        match r'.1 with
        | .inr _ => .ok (.inl st, r.2)
        | .inl _ => .ok (.inl (setCongFree st), r.2)
    else .ok r

/-- `runNPE` with the files it leaves behind, src/npeAPI.cpp:42-54.  The files written before an exception are
not kept here. -/
def Api.runNPEFiles (fp : FP) (ho : HashOrder) (ord : List (Int × List Int) → List (Int × List Int)) (api : Api)
    (tc : TimelineConfig) (wl : Workload) : Out (Result × List (List Char × Json)) := do
  let wl ← api.preprocess fp wl
  let v ← wl.validate api.dev
  if v then
    match api.runPerfFiles fp ho ord tc wl with
    | .exc e => .ok (.inr e, [])
    | x => x
  else return (.inr .workloadValidationFailed, [])

end NPE
