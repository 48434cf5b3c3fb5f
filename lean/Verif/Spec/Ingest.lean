import Verif.Model.Ingest
import Verif.Spec.Zones

/-
What a converted trace should contain (C48–C52, C67, C68), stated about the events of the trace without
reference to the conversion loop.  Event types are listed, not recognised by parts of their names.
-/

namespace NPE.Spec.Trace

/-- Event types that save endpoints and size for later reads. -/
def readSetters : List String := ["READ_SET_STATE", "READ_DRAM_SHARDED_SET_STATE"]

/-- Reads that use what was saved. -/
def readUsers : List String :=
  ["READ_WITH_STATE", "READ_WITH_STATE_AND_TRID", "READ_DRAM_SHARDED_WITH_STATE"]

/-- All reads. -/
def reads : List String := "READ" :: readUsers

/-- Event types that save endpoints and size for later writes. -/
def writeSetters : List String := ["WRITE_SET_STATE"]

/-- Writes that use what was saved. -/
def writeUsers : List String := ["WRITE_WITH_STATE"]

/-- All writes within a chip. -/
def writes : List String := "WRITE_" :: "WRITE_MULTICAST" :: writeUsers

/-- Events of the fabric between chips. -/
def fabrics : List String :=
  ["FABRIC_UNICAST_WRITE", "FABRIC_UNICAST_INLINE_WRITE", "FABRIC_UNICAST_ATOMIC_INC",
   "FABRIC_FUSED_UNICAST_ATOMIC_INC", "FABRIC_UNICAST_SCATTER_WRITE"]

/-- The type of an event. -/
def type (e : Json) : String := e.strD "type"

/-- Its timestamp; an event without one counts as time zero. -/
def time (e : Json) : Int := e.intD "timestamp" 0

/-- Endpoints and size. -/
structure Ends where
  sx : Int
  sy : Int
  dx : Int
  dy : Int
  bytes : Int
  deriving DecidableEq, Repr

/-- Endpoints and size as written in an event. -/
def own (e : Json) : Ends :=
  ⟨e.intD "sx" (-1), e.intD "sy" (-1), e.intD "dx" (-1), e.intD "dy" (-1), e.intD "num_bytes" 0⟩

/-- The most recent of the events `pre` whose type is in the list. -/
def latest (setters : List String) (pre : List Json) : Option Json :=
  pre.reverse.find? fun e => type e ∈ setters

/-- Endpoints and size from the latest setter; the size only if it was set.  Without a setter the
endpoints are (0, 0). -/
def saved (setters : List String) (pre : List Json) (e : Json) : Ends :=
  match latest setters pre with
  | none => ⟨0, 0, 0, 0, (own e).bytes⟩
  | some s => { own s with bytes := if 0 < (own s).bytes then (own s).bytes else (own e).bytes }

/-- Source, destination and size of the data movement of event `e` that follows the events `pre`: data
of a read flows towards the core that issued it. -/
def ends (pre : List Json) (e : Json) : Ends :=
  let v :=
    if type e ∈ readUsers then saved readSetters pre e
    else if type e ∈ writeUsers then saved writeSetters pre e
    else own e
  if type e ∈ reads then ⟨v.dx, v.dy, v.sx, v.sy, v.bytes⟩ else v

/-- Does the event name all corners of its multicast rectangle? -/
def hasCorners (e : Json) : Prop :=
  e.intD "mcast_start_x" (-1) ≠ -1 ∧ e.intD "mcast_start_y" (-1) ≠ -1 ∧
    e.intD "mcast_end_x" (-1) ≠ -1 ∧ e.intD "mcast_end_y" (-1) ≠ -1

instance (e : Json) : Decidable (hasCorners e) := by unfold hasCorners; infer_instance

/-- Events that become transfers. -/
def Converts (e : Json) : Prop :=
  (type e ∈ reads ∨ type e ∈ writes ∨ type e ∈ fabrics) ∧
  e.strD "noc" ≠ "" ∧
  (type e = "READ" ∨ type e = "WRITE_" → e.intD "num_bytes" 0 ≠ 0) ∧
  (type e = "WRITE_MULTICAST" → hasCorners e)

instance (e : Json) : Decidable (Converts e) := by unfold Converts; infer_instance

/-- Events that become transfers, with the events before them. -/
def converted : List Json → List Json → List (List Json × Json)
  | _, [] => []
  | pre, e :: l => (if Converts e then [(pre, e)] else []) ++ converted (pre ++ [e]) l

/-- The time origin of a trace: its smallest timestamp. -/
def IsOrigin (evs : List Json) (t0 : Int) : Prop :=
  (∃ e ∈ evs, time e = t0) ∧ ∀ e ∈ evs, t0 ≤ time e

/-- Latency of a read: by the relative position of the two cores. -/
def readTime (arch : Arch) (v : Ends) : Int :=
  match arch, decide (v.sx = v.dx), decide (v.sy = v.dy) with
  | .wormholeB0, true, true => 70
  | .wormholeB0, true, false => 154
  | .wormholeB0, false, true => 170
  | .wormholeB0, false, false => 270
  | .blackhole, true, true => 65
  | .blackhole, true, false => 177
  | .blackhole, false, true => 217
  | .blackhole, false, false => 329

/-- Rows and columns of a chip. -/
def dims : Arch → Int × Int
  | .wormholeB0 => (12, 10)
  | .blackhole => (12, 17)

/-- Cycles per hop. -/
def perHop : Arch → Int
  | .wormholeB0 => 10
  | .blackhole => 11

/-- Hops of a write: NoC 0 only moves towards larger coordinates, NoC 1 towards smaller ones, both with
wrap-around.  (Any other NoC name counts as -1 hops.) -/
def hops (arch : Arch) (noc : String) (sx sy dx dy : Int) : Int :=
  if noc = "NOC_0" then (dx - sx) % (dims arch).2 + (dy - sy) % (dims arch).1
  else if noc = "NOC_1" then (sx - dx) % (dims arch).2 + (sy - dy) % (dims arch).1
  else -1

/-- Latency of a write. -/
def writeTime (arch : Arch) (noc : String) (sx sy dx dy : Int) : Int :=
  40 + hops arch noc sx sy dx dy * perHop arch

/-- Startup latency of an event without fabric path. -/
def startup (arch : Arch) (pre : List Json) (e : Json) : Int :=
  let v := ends pre e
  if type e ∈ reads then readTime arch v
  else if type e ∈ writes then writeTime arch (e.strD "noc") v.sx v.sy v.dx v.dy
  else 0

/-- A stored coordinate: 16 bits. -/
def coord (d row col : Int) : Coord := ⟨d.bmod 65536, row.bmod 65536, col.bmod 65536⟩

/-- The chip an event is issued on. -/
def chip (e : Json) : Int := e.intD "src_device_id" 0

/-- The chip it goes to: its own unless given. -/
def destChip (e : Json) : Int := e.intD "dst_device_id" (chip e)

/-- Destination of an event.  NoC 1 lists the corners of a rectangle in opposite order.  (With any other
NoC name the destination of a multicast is left at its default, which is no core.) -/
def dest (pre : List Json) (e : Json) : Dest :=
  let start := coord (destChip e) (e.intD "mcast_start_y" (-1)) (e.intD "mcast_start_x" (-1))
  let stop := coord (destChip e) (e.intD "mcast_end_y" (-1)) (e.intD "mcast_end_x" (-1))
  if type e = "WRITE_MULTICAST" then
    if e.strD "noc" = "NOC_0" then .mcast [⟨start, stop⟩]
    else if e.strD "noc" = "NOC_1" then .mcast [⟨stop, start⟩]
    else .unicast ⟨-1, -1, -1⟩
  else .unicast (coord (destChip e) (ends pre e).dy (ends pre e).dx)

/-- Fabric metadata of an event. -/
def fabric (e : Json) : Option Json := (e.field "fabric_send").bind Json.asObj

/-- NoC of a name. -/
def noc (s : String) : Noc := if s = "NOC_0" then .noc0 else .noc1

/-- What a transfer carries, apart from identifiers and zones. -/
structure Item where
  packetSize : Int
  numPackets : Nat
  totalBytes : Int
  src : Coord
  dst : Dest
  rate : ℚ
  offset : Int
  noc : Noc
  type : String
  group : Int
  index : Int
  parent : Int
  deriving DecidableEq

/-- The same of a transfer of the workload. -/
def item (t : Transfer) : Item :=
  ⟨t.packetSize, t.numPackets, t.totalBytes, t.src, t.dst, t.injectionRate, t.offset, t.noc, t.eventType,
    t.groupId, t.groupIdx, t.groupParent⟩

/-- The transfer of an event without fabric metadata. -/
def plain (arch : Arch) (t0 : Int) (pre : List Json) (e : Json) : Item :=
  let v := ends pre e
  { packetSize := v.bytes % 4294967296
    numPackets := 1
    totalBytes := v.bytes % 4294967296
    src := coord (chip e) v.sy v.sx
    dst := dest pre e
    rate := 0
    offset := (time e - t0 + startup arch pre e) % 4294967296
    noc := noc (e.strD "noc")
    type := type e
    group := -1
    index := -1
    parent := -1 }

/-! ### Fabric paths -/

/-- The list of routes of the fabric metadata. -/
def routes (f : Json) : Option (List Json) := (f.field "path").bind Json.asArr

/-- The local writes of a route. -/
def localWrites (r : Json) : List Json := ((r.field "local_writes").bind Json.asArr).getD []

/-- A local write has a target and a size. -/
def writeGiven (w : Json) : Prop :=
  w.intD "dx" (-1) ≠ -1 ∧ w.intD "dy" (-1) ≠ -1 ∧ w.intD "num_bytes" (-1) ≠ -1

instance (w : Json) : Decidable (writeGiven w) := by unfold writeGiven; infer_instance

/-- A route forwards the data to another core of its chip. -/
def forwards (r : Json) : Prop := r.intD "forward_x" (-1) ≠ -1 ∧ r.intD "forward_y" (-1) ≠ -1

instance (r : Json) : Decidable (forwards r) := by unfold forwards; infer_instance

/-- The data movements of a route: column and row of the target and size; first the local writes, then
the forwarding of all `bytes`. -/
def pieces (bytes : Int) (r : Json) : List (Int × Int × Int) :=
  ((localWrites r).filter writeGiven).map (fun w => (w.intD "dx" (-1), w.intD "dy" (-1), w.intD "num_bytes" (-1))) ++
    if forwards r then [(r.intD "forward_x" (-1), r.intD "forward_y" (-1), bytes)] else []

/-- A route with all of its fields, as the post-processing script writes it. -/
structure Complete (r : Json) : Prop where
  device : (r.intD "device" (-1)).bmod 65536 ≠ -1
  startX : r.intD "segment_start_x" (-1) ≠ -1
  startY : r.intD "segment_start_y" (-1) ≠ -1
  moves : pieces 0 r ≠ []

/-- The data movements of all routes, in order, with their routes. -/
def movements (bytes : Int) (rs : List Json) : List (Json × Int × Int × Int) :=
  rs.flatMap fun r => (pieces bytes r).map fun p => (r, p)

/-- Latency of the first route of a path. -/
def firstTime (arch : Arch) : List Json → Int
  | [] => 0
  | r :: _ => writeTime arch (r.strD "noc") (r.intD "segment_start_x" (-1)) (r.intD "segment_start_y" (-1))
      (r.intD "forward_x" (-1)) (r.intD "forward_y" (-1))

/-- Number of groups of the events before. -/
def groupsBefore (pre : List Json) : Nat :=
  (converted [] pre).countP fun q => (fabric q.2).isSome

/-- The transfers of a fabric event: one for each movement, numbered in order within the group of the
event. -/
def pathItems (arch : Arch) (t0 : Int) (pre : List Json) (e : Json) (rs : List Json) : List Item :=
  (movements (ends pre e).bytes rs).zipIdx.map fun m =>
    { packetSize := m.1.2.2.2 % 4294967296
      numPackets := 1
      totalBytes := m.1.2.2.2 % 4294967296
      src := coord (m.1.1.intD "device" (-1)) (m.1.1.intD "segment_start_y" (-1))
        (m.1.1.intD "segment_start_x" (-1))
      dst := .unicast (coord (m.1.1.intD "device" (-1)) m.1.2.2.1 m.1.2.1)
      rate := 0
      offset := (time e - t0 + startup arch pre e + firstTime arch rs) % 4294967296
      noc := noc (m.1.1.strD "noc")
      type := type e
      group := groupsBefore pre
      index := m.2
      parent := (m.1.1.intD "parent_id" (-1)).bmod 4294967296 }

/-- The transfers of an event. -/
def items (arch : Arch) (t0 : Int) (pre : List Json) (e : Json) : List Item :=
  match fabric e with
  | none => [plain arch t0 pre e]
  | some f => pathItems arch t0 pre e ((routes f).getD [])

/-- Number of transfers of the events before. -/
def position (arch : Arch) (t0 : Int) (pre : List Json) : Nat :=
  ((converted [] pre).flatMap fun q => items arch t0 q.1 q.2).length

/-- A route writes to cores of its own chip. -/
def writesLocally (r : Json) : Prop := (localWrites r).filter writeGiven ≠ []

instance (r : Json) : Decidable (writesLocally r) := by unfold writesLocally; infer_instance

/-- All fabric paths of the trace have complete routes. -/
def PathsComplete (evs : List Json) : Prop :=
  ∀ e ∈ evs, ∀ f, fabric e = some f → ∀ r ∈ (routes f).getD [], Complete r

/-! ### Golden windows -/

/-- The event counts for the window of device `d`. -/
def Counts (d : Int) (e : Json) : Prop :=
  e.strD "proc" ≠ "" ∧ e.intD "sx" (-1) ≠ -1 ∧ e.intD "sy" (-1) ≠ -1 ∧ e.intD "src_device_id" (-1) = d

instance (d : Int) (e : Json) : Decidable (Counts d e) := by unfold Counts; infer_instance

/-- Timestamps of the first and the last event of device `d`. -/
def Span (evs : List Json) (d a b : Int) : Prop :=
  ((∃ e ∈ evs, Counts d e ∧ time e = a) ∧ ∀ e ∈ evs, Counts d e → a ≤ time e) ∧
  ((∃ e ∈ evs, Counts d e ∧ time e = b) ∧ ∀ e ∈ evs, Counts d e → time e ≤ b)

/-! ### Zones -/

/-- Core and processor of an event. -/
def core (e : Json) : Option (Coord × RiscType) :=
  (riscType? (e.strD "proc")).map fun r => (coord (chip e) (e.intD "sy" (-1)) (e.intD "sx" (-1)), r)

/-- The zone event of a core and processor, if the event is one. -/
def zoneOf (t0 : Int) (c : Coord × RiscType) (e : Json) : Option Zone :=
  match zonePhase? (e.strD "zone_phase") with
  | none => none
  | some p =>
    if e.intD "sx" (-1) ≠ -1 ∧ e.intD "sy" (-1) ≠ -1 ∧ e.strD "zone" ≠ "" ∧ core e = some c then
      some ⟨time e - t0, e.strD "zone", p⟩
    else none

/-- The zone events of a core and processor in the order of the trace. -/
def zonesOf (evs : List Json) (t0 : Int) (c : Coord × RiscType) : List Zone := evs.filterMap (zoneOf t0 c)

/-- The events of each core and processor are in the order of time. -/
def InOrder (evs : List Json) : Prop :=
  evs.Pairwise fun e e' => core e = core e' → time e ≤ time e'

/-- The path of a list of open zones, outermost first. -/
def zonePath (st : List (Zone × Nat)) : String :=
  "/".intercalate (st.map fun e => e.1.zone ++ "[" ++ toString e.2 ++ "]")

/-- The zone path of an event: the zones of its core that have started but not ended at its time. -/
def ZonePath (evs : List Json) (t0 : Int) (c : Coord × RiscType) (e : Json) (p : String) : Prop :=
  ∃ st, Opening ((zonesOf evs t0 c).filter fun z => z.timestamp ≤ time e - t0) st ∧ p = zonePath st

end NPE.Spec.Trace
