import Verif.Model.Document
import Verif.Spec.Zones

/-
Timeline files from the point of view of a reader (C86–C90): paths, and a reader that takes fields by their
names.
-/

namespace NPE.Spec.Doc

/-! ## Paths -/

/-- The directory part of a path with its file name. -/
def InDir (d f path : List Char) : Prop := path = d ++ '/' :: f ∧ '/' ∉ f

/-- `p` occurs in `s`. -/
def Occurs (p s : List Char) : Prop := ∃ a b, s = a ++ p ++ b

/-! ## Values -/

/-- All elements of an array. -/
def items {α : Type} (f : Json → Option α) : List Json → Option (List α)
  | [] => some []
  | j :: l => match f j, items f l with
    | some a, some r => some (a :: r)
    | _, _ => none

/-- An array whose elements are read by `f`. -/
def list? {α : Type} (f : Json → Option α) : Json → Option (List α)
  | .arr l => items f l
  | _ => none

/-- A count. -/
def nat? : Json → Option Nat
  | .int n => if 0 ≤ n then some n.toNat else none
  | _ => none

/-- An id. -/
def id? : Json → Option Int
  | .int n => some n
  | _ => none

/-- A figure. -/
def fig? : Json → Option ℚ
  | .double x => some x
  | _ => none

/-- A text. -/
def text? : Json → Option String
  | .str s => some s
  | _ => none

/-- A truth value. -/
def flag? : Json → Option Bool
  | .bool b => some b
  | _ => none

/-- `[chip, row, column]` -/
def coord? : Json → Option Coord
  | .arr [.int d, .int r, .int c] => some ⟨d, r, c⟩
  | _ => none

/-- A NoC. -/
def noc? : Json → Option Noc
  | .str "NOC0" => some .noc0
  | .str "NOC1" => some .noc1
  | _ => none

/-- A link or the end of a route. -/
def hop? : String → Option HopKind
  | "NOC0_IN" => some (.entry .noc0)
  | "NOC1_IN" => some (.entry .noc1)
  | "NOC0_OUT" => some (.exit .noc0)
  | "NOC1_OUT" => some (.exit .noc1)
  | "NOC0_EAST" => some (.link .noc0East)
  | "NOC0_SOUTH" => some (.link .noc0South)
  | "NOC1_NORTH" => some (.link .noc1North)
  | "NOC1_WEST" => some (.link .noc1West)
  | _ => none

/-- `[chip, row, column, name]` -/
def link? : Json → Option (Coord × HopKind)
  | .arr [.int d, .int r, .int c, .str s] => (hop? s).map fun k => (⟨d, r, c⟩, k)
  | _ => none

/-- `[chip, row, column, name, demand]` -/
def demand? : Json → Option (Coord × HopKind × ℚ)
  | .arr [.int d, .int r, .int c, .str s, .double x] => (hop? s).map fun k => (⟨d, r, c⟩, k, x)
  | _ => none

/-- The field with a name, read by `f`. -/
def get {α : Type} (j : Json) (k : String) (f : Json → Option α) : Option α := (j.field k).bind f

/-- A part of a route. -/
def segment? (j : Json) : Option Segment :=
  (get j "src" coord?).bind fun src =>
  (get j "dst" (list? coord?)).bind fun dst =>
  (get j "noc_type" noc?).bind fun noc =>
  (get j "injection_rate" fig?).bind fun rate =>
  (get j "start_cycle" nat?).bind fun a =>
  (get j "end_cycle" nat?).bind fun b =>
  (get j "links" (list? link?)).bind fun links =>
  some ⟨src, dst, noc, rate, a, b, links⟩

/-- A transfer. -/
def transfer? (j : Json) : Option LogicalTransfer :=
  (get j "id" id?).bind fun i =>
  (get j "src" coord?).bind fun src =>
  (get j "total_bytes" nat?).bind fun n =>
  (get j "start_cycle" nat?).bind fun a =>
  (get j "noc_event_type" text?).bind fun ty =>
  (get j "fabric_event_type" flag?).bind fun fab =>
  (get j "zones" text?).bind fun z =>
  (get j "end_cycle" nat?).bind fun b =>
  (get j "dst" (list? coord?)).bind fun dst =>
  (get j "route" (list? segment?)).bind fun r =>
  some ⟨i, src, n, a, ty, fab, z, b, dst, r⟩

/-- Demand, utilisation and largest demand of the links of a NoC. -/
structure Figures where
  demand : ℚ
  util : ℚ
  max : ℚ

/-- The figures of a timestep. -/
structure StepFigures where
  demand : ℚ
  util : ℚ
  mcast : ℚ
  noc0 : Figures
  noc1 : Figures

/-- The figures of a NoC. -/
def figures? (j : Json) : Option Figures :=
  (get j "avg_link_demand" fig?).bind fun a =>
  (get j "avg_link_util" fig?).bind fun b =>
  (get j "max_link_demand" fig?).bind fun c =>
  some ⟨a, b, c⟩

/-- A timestep: what was active and the demands, and the figures. -/
def timestep? (j : Json) : Option (TimestepEntry × StepFigures) :=
  (get j "start_cycle" nat?).bind fun a =>
  (get j "end_cycle" nat?).bind fun b =>
  (get j "active_transfers" (list? id?)).bind fun act =>
  (get j "link_demand" (list? demand?)).bind fun dem =>
  (get j "avg_link_demand" fig?).bind fun x =>
  (get j "avg_link_util" fig?).bind fun y =>
  (get j "mcast_write_link_util" fig?).bind fun z =>
  (get j "noc" (fun n => get n "NOC0" figures?)).bind fun n0 =>
  (get j "noc" (fun n => get n "NOC1" figures?)).bind fun n1 =>
  some (⟨a, b, act, dem⟩, ⟨x, y, z, n0, n1⟩)

/-- The figures that were recorded for a timestep. -/
def recorded (r : TimestepStats) : StepFigures :=
  ⟨r.avgLinkDemand, r.avgLinkUtil, r.avgMcastUtil, ⟨r.avgNoc0Demand, r.avgNoc0Util, r.maxNoc0Demand⟩,
    ⟨r.avgNoc1Demand, r.avgNoc1Util, r.maxNoc1Demand⟩⟩

/-- A zone; `n` limits the depth to which nested zones are read. -/
def zone? : Nat → Json → Option ZoneNode
  | 0, _ => none
  | n + 1, j =>
    (get j "start" id?).bind fun s =>
    (get j "zones" (list? (zone? n))).bind fun kids =>
    match j.field "id", j.field "end" with
    | none, none => some (.node s none kids)
    | some (.str i), some (.int e) => some (.node s (some (i, e)) kids)
    | _, _ => none

/-- A processor of a core, by its name in `RiscType`, include/npeUtil.hpp:313. -/
def proc? : Json → Option RiscType
  | .str "BRISC" => some .brisc
  | .str "NCRISC" => some .ncrisc
  | .str "TRISC_0" => some .trisc0
  | .str "TRISC_1" => some .trisc1
  | .str "TRISC_2" => some .trisc2
  | .str "ERISC" => some .erisc
  | .str "CORE_AGG" => some .coreAgg
  | _ => none

/-- A core and processor with its zones; no zones if the field is absent. -/
def coreZones? (n : Nat) (j : Json) : Option (Coord × RiscType × List ZoneNode) :=
  (get j "core" coord?).bind fun c =>
  (get j "proc" proc?).bind fun p =>
  match j.field "zones" with
  | none => some (c, p, [])
  | some z => (list? (zone? n) z).bind fun l => some (c, p, l)

/-- A figure that may be missing. -/
def figOrNull? : Json → Option (Option ℚ)
  | .double x => some (some x)
  | .null => some none
  | _ => none

/-- The figures of a NoC over a run. -/
structure RunFigures where
  demand : Option ℚ
  util : Option ℚ
  max : ℚ
  deriving DecidableEq

/-- The figures of a NoC over a run. -/
def runFigures? (j : Json) : Option RunFigures :=
  (get j "avg_link_demand" figOrNull?).bind fun a =>
  (get j "avg_link_util" figOrNull?).bind fun b =>
  (get j "max_link_demand" fig?).bind fun c =>
  some ⟨a, b, c⟩

/-- The general part of a document. -/
structure Info where
  board : String
  arch : String
  cyclesPerTimestep : Int
  model : String
  rows : Nat
  cols : Nat
  dram : Option ℚ
  util : Option ℚ
  mcast : Option ℚ
  demand : Option ℚ
  maxDemand : ℚ
  noc0 : RunFigures
  noc1 : RunFigures
  deriving DecidableEq

/-- The general part of a document. -/
def info? (j : Json) : Option Info :=
  (get j "mesh_device" text?).bind fun b =>
  (get j "arch" text?).bind fun a =>
  (get j "cycles_per_timestep" id?).bind fun c =>
  (get j "congestion_model_name" text?).bind fun m =>
  (get j "num_rows" nat?).bind fun rows =>
  (get j "num_cols" nat?).bind fun cols =>
  (get j "dram_bw_util" figOrNull?).bind fun d =>
  (get j "link_util" figOrNull?).bind fun u =>
  (get j "mcast_write_link_util" figOrNull?).bind fun w =>
  (get j "link_demand" figOrNull?).bind fun l =>
  (get j "max_link_demand" fig?).bind fun x =>
  (get j "noc" (fun n => get n "NOC0" runFigures?)).bind fun n0 =>
  (get j "noc" (fun n => get n "NOC1" runFigures?)).bind fun n1 =>
  some ⟨b, a, c, m, rows, cols, d, u, w, l, x, n0, n1⟩

/-- A number, if the result of a division is one. -/
def finite : Dbl → Option ℚ
  | .num x => some x
  | _ => none

/-- What the general part should say about a run. -/
def infoOf (cfg : Config) (dev : Device) (s : Summary) : Info where
  board := cfg.deviceName
  arch := match dev.arch with
    | .wormholeB0 => "wormhole_b0"
    | .blackhole => "blackhole"
  cyclesPerTimestep := cfg.cyclesPerTimestep
  model := cfg.congestionModel
  rows := dev.rows
  cols := dev.cols
  dram := finite s.dramUtil
  util := finite s.avgLinkUtil
  mcast := finite s.avgMcastUtil
  demand := finite s.avgLinkDemand
  maxDemand := s.maxLinkDemand
  noc0 := ⟨finite s.avgNoc0Demand, finite s.avgNoc0Util, s.maxNoc0Demand⟩
  noc1 := ⟨finite s.avgNoc1Demand, finite s.avgNoc1Util, s.maxNoc1Demand⟩

/-- What a reader finds in a document. -/
structure Content where
  info : Info
  transfers : List LogicalTransfer
  timesteps : List (TimestepEntry × StepFigures)
  cores : List (Coord × RiscType × List ZoneNode)

/-- A document; `n` limits the depth of zones. -/
def content? (n : Nat) (j : Json) : Option Content :=
  (get j "common_info" info?).bind fun i =>
  (get j "noc_transfers" (list? transfer?)).bind fun t =>
  (get j "timestep_data" (list? timestep?)).bind fun s =>
  (get j "zones" (list? (coreZones? n))).bind fun z =>
  some ⟨i, t, s, z⟩

/-- The part of a run that a split document is about: its number, the number of all, and its cycles. -/
structure SplitPart where
  index : Nat
  total : Nat
  region : Region

/-- The part that a split document is about. -/
def part? (j : Json) : Option SplitPart :=
  (get j "common_info" fun c => get c "split_info" some).bind fun p =>
  (get p "split_index" nat?).bind fun i =>
  (get p "total_splits" nat?).bind fun n =>
  (get p "start_timestep_idx" nat?).bind fun a =>
  (get p "end_timestep_idx" nat?).bind fun b =>
  (get p "start_cycle" nat?).bind fun s =>
  (get p "end_cycle" nat?).bind fun e =>
  some ⟨i, n, ⟨a, b, s, e⟩⟩

/-! ## Chips -/

/-- A chip of a mesh with its column and row. -/
structure ChipPlace where
  name : String
  mesh : Int
  x : Int
  y : Int
  deriving DecidableEq

/-- A topology file with one mesh of `ns` rows and `ew` columns: chips are numbered row by row. -/
structure OneMesh (j : Json) (ns ew : Int) (chips : List ChipPlace) : Prop where
  nodes : j.field "device_id_to_fabric_node_id" =
    some (.obj (chips.map fun c => (c.name, .arr [.int c.mesh, .int (c.y * ew + c.x)])))
  shape : ∃ m, j.field "mesh_shapes" = some (.arr [m]) ∧ m.field "shape" = some (.arr [.int ns, .int ew])
  small : 0 ≤ ns ∧ ns < 2147483648 ∧ 0 ≤ ew ∧ ew < 2147483648 ∧ ns * ew ≤ 2147483648
  inside : ∀ c ∈ chips, 0 ≤ c.x ∧ c.x < ew ∧ 0 ≤ c.y ∧ c.y < ns
  mesh : ∀ c ∈ chips, 0 ≤ c.mesh ∧ c.mesh < 4294967296

/-- `[column, row, rack, shelf]` -/
def chip? : Json → Option (Int × Int)
  | .arr [.int x, .int y, .int _, .int _] => some (x, y)
  | _ => none

/-- Names and places of all chips of a document. -/
def chips? (j : Json) : Option (List (String × Option (Int × Int))) :=
  match j.field "chips" with
  | some (.obj l) => some (l.map fun e => (e.1, chip? e.2))
  | _ => none

/-! ## Zones -/

/-- The zones of each core are those of a forest in which no zone has the name and the start of one around it. -/
def ZonesOk (wl : Workload) : Prop := ∀ e ∈ wl.zones, ∃ f : Forest, f.NoClash ∧ e.2 = f.events

/-! ## The legacy format -/

/-- `[row, column]` on chip `d`. -/
def cell? (d : Int) : Json → Option Coord
  | .arr [.int r, .int c] => some ⟨d, r, c⟩
  | _ => none

/-- `[row, column, name]` on chip `d`. -/
def legacyLink? (d : Int) : Json → Option (Coord × HopKind)
  | .arr [.int r, .int c, .str s] => (hop? s).map fun k => (⟨d, r, c⟩, k)
  | _ => none

/-- `[row, column, name, demand]` on chip `d`. -/
def legacyDemand? (d : Int) : Json → Option (Coord × HopKind × ℚ)
  | .arr [.int r, .int c, .str s, .double x] => (hop? s).map fun k => (⟨d, r, c⟩, k, x)
  | _ => none

/-- A transfer on chip `d`: id, bytes and kind, and its route. -/
def legacyTransfer? (d : Int) (j : Json) : Option ((Int × Nat × String) × Segment) :=
  (get j "id" id?).bind fun i =>
  (get j "src" (cell? d)).bind fun src =>
  (get j "dst" (list? (cell? d))).bind fun dst =>
  (get j "total_bytes" nat?).bind fun n =>
  (get j "noc_type" noc?).bind fun noc =>
  (get j "injection_rate" fig?).bind fun rate =>
  (get j "start_cycle" nat?).bind fun a =>
  (get j "end_cycle" nat?).bind fun b =>
  (get j "noc_event_type" text?).bind fun ty =>
  (get j "route" (list? (legacyLink? d))).bind fun links =>
  some ((i, n, ty), ⟨src, dst, noc, rate, a, b, links⟩)

/-- A timestep on chip `d`: cycles, transfers, demands, and the three averages. -/
def legacyTimestep? (d : Int) (j : Json) : Option (TimestepEntry × ℚ × ℚ × ℚ) :=
  (get j "start_cycle" nat?).bind fun a =>
  (get j "end_cycle" nat?).bind fun b =>
  (get j "active_transfers" (list? id?)).bind fun act =>
  (get j "link_demand" (list? (legacyDemand? d))).bind fun dem =>
  (get j "avg_link_demand" fig?).bind fun x =>
  (get j "avg_link_util" fig?).bind fun y =>
  (get j "mcast_write_link_util" fig?).bind fun z =>
  some (⟨a, b, act, dem⟩, x, y, z)

end NPE.Spec.Doc
