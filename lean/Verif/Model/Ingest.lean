import Verif.Model.Json
import Verif.Model.Workload
import Verif.Model.ZoneTree

/-
Reading workloads: src/npeWorkloadIngest.cpp.  Citations relative to /repo/tt_npe/cpp.

Simplifications:
* JSON text is parsed before the model starts (`InputFile`).
* Timestamps are converted from `int64_t` to `double` and subtracted in `double`.  The model uses
  integers; this is exact for timestamps up to 2^53.
* 64-bit signed sums of a timestamp difference and a latency are not wrapped (they stay far below
  2^63 for such timestamps).
* Log output is not modelled.
-/

namespace NPE

/-- Conversion to a 32-bit signed integer. -/
def toI32 (n : Int) : Int :=
  let m := n % 4294967296
  if m < 2147483648 then m else m - 4294967296

/-- `Coord{device, row, col}` from 64-bit numbers: the constructor takes a 16-bit device and `int`s,
the fields are 16-bit, include/npeUtil.hpp:164-169. -/
def mkCoord (d row col : Int) : Coord := ⟨toI16 d, toI16 row, toI16 col⟩

/-- `(noc == "NOC_0") ? NOC0 : NOC1`, src/npeWorkloadIngest.cpp:201, 539 and 648. -/
def nocOf (s : String) : Noc := if s = "NOC_0" then .noc0 else .noc1

/-- The NoC name as `route_hops` distinguishes it (any other name counts as no NoC). -/
def nocName (s : String) : Option Noc :=
  if s = "NOC_0" then some .noc0 else if s = "NOC_1" then some .noc1 else none

/-- `magic_enum::enum_cast<RiscType>`, include/npeUtil.hpp:313. -/
def riscType? (s : String) : Option RiscType :=
  if s = "BRISC" then some .brisc
  else if s = "NCRISC" then some .ncrisc
  else if s = "TRISC_0" then some .trisc0
  else if s = "TRISC_1" then some .trisc1
  else if s = "TRISC_2" then some .trisc2
  else if s = "ERISC" then some .erisc
  else if s = "CORE_AGG" then some .coreAgg
  else none

/-- `magic_enum::enum_cast<ZonePhase>`, include/npeUtil.hpp:314. -/
def zonePhase? (s : String) : Option ZonePhase :=
  if s = "ZONE_START" then some .zoneStart
  else if s = "ZONE_END" then some .zoneEnd
  else none

/-- `*optional`: undefined behaviour if empty. -/
def deref {α : Type} : Option α → Out α
  | some a => .ok a
  | none => .ub

/-- Range-based `for` over `element.get_array()`: throws `simdjson_error` for anything but an
array. -/
def Json.array (j : Json) : Out (List Json) :=
  match j.asArr with
  | some l => .ok l
  | none => .std .simdjson

/-! ## Workload files -/

/-- Body of the loop over transfers, src/npeWorkloadIngest.cpp:90-203; `none` is `continue`. -/
def loadTransfer (fp : FP) (t : Json) : Out (Option Transfer) :=
  match t.int? "packet_size", t.int? "num_packets", t.int? "src_x", t.int? "src_y" with
  | some packetSize, some numPackets, some srcX, some srcY =>
    let devId := t.intD "device_id" 0
    let dstX := t.intD "dst_x" (-1)
    let dstY := t.intD "dst_y" (-1)
    let dest : Out (Option Dest) :=
      if dstX = -1 ∧ dstY = -1 then
        match t.int? "mcast_start_x", t.int? "mcast_start_y",
            t.int? "mcast_end_x", t.int? "mcast_end_y" with
        | some sx, some sy, some ex, some ey =>
          mkMcast (mkCoord devId sy sx) (mkCoord devId ey ex) >>= fun gs => .ok (some (.mcast gs))
        | _, _, _, _ => .ok none
      else .ok (some (.unicast (mkCoord devId dstY dstX)))
    dest >>= fun d =>
      match d with
      | none => .ok none
      | some d =>
        let rate := (((t.field "injection_rate").bind (Json.asDouble fp)).getD 0)
        let offset := t.intD "phase_cycle_offset" 0
        match (t.field "noc_type").bind Json.asStr with
        | none => .ok none
        | some noc =>
          .ok (some (Transfer.make (toU32 packetSize) (toU32 numPackets) (mkCoord devId srcY srcX) d
            (fp.f32.fl rate) (toU32 offset) (nocOf noc) (t.strD "noc_event_type")))
  | _, _, _, _ => .ok none

/-- Body of the loop over phases, src/npeWorkloadIngest.cpp:86-205. -/
def loadPhase (fp : FP) (wl : Workload) (ph : Json) : Out Workload :=
  match (ph.field "transfers").bind Json.asArr with
  | none => .std .simdjson
  | some ts => do
    let l ← Out.mapM (loadTransfer fp) ts
    return wl.addPhase { transfers := l.filterMap id }

/-- The golden cycles of the file, src/npeWorkloadIngest.cpp:70-76. -/
def loadGolden (j : Json) : Out Workload :=
  match (j.field "golden_result").bind (Json.field "cycles") with
  | none => .ok {}
  | some c =>
    match c.asUint with
    | none => .std .simdjson
    | some n => .ok (({} : Workload).setGoldenResultCycles [(0, 0, n % 4294967296)])

/-- The `try` block, src/npeWorkloadIngest.cpp:60-205; `none` is `return {}`. -/
def loadDocument (fp : FP) (j : Json) : Out (Option Workload) :=
  match j with
  | .obj _ => loadGolden j >>= fun wl =>
    match (j.field "phases").bind Json.asArr with
    | none => .ok none
    | some phases => do
      let wl ← Out.foldlM (loadPhase fp) wl phases
      return some wl
  | _ => .ok none

/-- The `catch` clauses, src/npeWorkloadIngest.cpp:206-212.  `npeException` inherits privately from
`std::exception` (include/npeCommon.hpp:38), so it is not caught here. -/
def catchStd {α : Type} : Out (Option α) → Out (Option α)
  | .std _ => .ok none
  | x => x

/-- What the file system holds under a path, and the user's answer to the question of
`promptUser`, src/npeWorkloadIngest.cpp:39. -/
inductive InputFile where
  | missing
  | unparsable
  | doc (j : Json)

/-- `loadJSONWorkloadFormat`, src/npeWorkloadIngest.cpp:31-219. -/
def loadJSONWorkload (fp : FP) (answer : Bool) (path : String) (f : InputFile) : Out (Option Workload) :=
  match f with
  | .missing => .ok none
  | .unparsable => .ok none
  | .doc j =>
    if !endsWith path ".json" && !answer then .ok none
    else do
      let r ← catchStd (loadDocument fp j)
      return r.map fun wl => { wl with sourcePath := some path }

/-! ## Golden windows and the time origin -/

/-- Key and timestamps of `per_core_ts`, src/npeWorkloadIngest.cpp:223-226. -/
abbrev CoreTimes := List ((String × Int × Int × Int) × Int × Int)

/-- Update of `per_core_ts`, src/npeWorkloadIngest.cpp:237-245. -/
def CoreTimes.add (m : CoreTimes) (k : String × Int × Int × Int) (ts : Int) : CoreTimes :=
  match m with
  | [] => [(k, ts, ts)]
  | e :: m => if e.1 = k then (k, min e.2.1 ts, max e.2.2 ts) :: m else e :: add m k ts

/-- Body of the loop over events, src/npeWorkloadIngest.cpp:228-247. -/
def goldenEvent (s : Int × CoreTimes) (e : Json) : Int × CoreTimes :=
  let ts := e.intD "timestamp" 0
  let t0 := min s.1 ts
  let proc := e.strD "proc"
  let sx := e.intD "sx" (-1)
  let sy := e.intD "sy" (-1)
  let d := e.intD "src_device_id" (-1)
  if proc ≠ "" ∧ sx ≠ -1 ∧ sy ≠ -1 then (t0, s.2.add (proc, sx, sy, d) ts) else (t0, s.2)

/-- Conversion of a `double` with an integral value to `size_t`. -/
def doubleToSize (x : Int) : Out Nat :=
  if 0 ≤ x ∧ x < 18446744073709551616 then .ok x.toNat else .ub

/-- Conversion of a `size_t` to `double`: `INT64_MAX` is rounded to 2^63; the other values that occur
are timestamps, which are exact. -/
def sizeToDouble (n : Nat) : Int :=
  if n = 9223372036854775807 then 9223372036854775808 else n

/-- Body of the loop over `per_core_ts`, src/npeWorkloadIngest.cpp:254-259. -/
def goldenCore (d : Int) (s : Nat × Nat) (e : (String × Int × Int × Int) × Int × Int) :
    Out (Nat × Nat) :=
  if e.1.2.2.2 = d then do
    let a ← doubleToSize e.2.1
    let b ← doubleToSize e.2.2
    return (min s.1 a, max s.2 b)
  else .ok s

/-- Body of the loop over devices, src/npeWorkloadIngest.cpp:251-266.  `max_kernel_cycles - 20` is a
`size_t`; both numbers are narrowed to 32 bits. -/
def goldenDevice (t0 : Int) (m : CoreTimes) (d : Int) : Out (Int × Nat × Nat) := do
  let s ← Out.foldlM (goldenCore d) (9223372036854775807, 0) m
  let a ← doubleToSize (sizeToDouble s.1 - t0)
  let b ← doubleToSize (sizeToDouble s.2 - t0)
  return (d, a % 4294967296, toU32 ((b : Int) - 20))

/-- `computeGoldenCyclesAndT0`, src/npeWorkloadIngest.cpp:221-269 (2e30 is the start value of the time
origin). -/
def computeGolden (dev : Device) (j : Json) : Out (GoldenMap × Int) := do
  let evs ← j.array
  let s := evs.foldl goldenEvent (2000000000000000000000000000000, [])
  let m ← Out.mapM (goldenDevice s.1 s.2) dev.deviceIDs
  return (m, s.1)

/-! ## Zones -/

/-- Zones of each core and processor. -/
abbrev ZoneMap := List ((Coord × RiscType) × List Zone)

/-- `zones[key].push_back(zone)`. -/
def ZoneMap.add (m : ZoneMap) (k : Coord × RiscType) (z : Zone) : ZoneMap :=
  match m with
  | [] => [(k, [z])]
  | e :: m => if e.1 = k then (k, e.2 ++ [z]) :: m else e :: add m k z

/-- Body of the loop of `extractZones`, src/npeWorkloadIngest.cpp:273-286. -/
def zoneEvent (t0 : Int) (m : ZoneMap) (e : Json) : Out ZoneMap :=
  let sx := e.intD "sx" (-1)
  let sy := e.intD "sy" (-1)
  if e.strD "proc" ≠ "" ∧ sx ≠ -1 ∧ sy ≠ -1 ∧ e.strD "zone" ≠ "" ∧ e.strD "zone_phase" ≠ "" then do
    let r ← deref (riscType? (e.strD "proc"))
    let p ← deref (zonePhase? (e.strD "zone_phase"))
    return m.add (mkCoord (e.intD "src_device_id" 0) sy sx, r)
      ⟨e.intD "timestamp" 0 - t0, e.strD "zone", p⟩
  else .ok m

/-- `extractZones`, src/npeWorkloadIngest.cpp:271-289. -/
def extractZones (t0 : Int) (j : Json) : Out ZoneMap := do
  let evs ← j.array
  Out.foldlM (zoneEvent t0) [] evs

/-- `flattenEnclosingZones`, src/npeWorkloadIngest.cpp:291-301. -/
def flattenZones (stack : List (Zone × Nat)) : String :=
  "/".intercalate (stack.map fun e => zoneLabel e.1.zone e.2)

/-- The `while` loop, src/npeWorkloadIngest.cpp:393.  `fuel` bounds the number of iterations. -/
def ZoneIter.advance (zs : List Zone) (t : Int) : Nat → ZoneIter → Out ZoneIter
  | 0, _ => .diverge
  | fuel + 1, it =>
    if it.isEnd zs then .ok it
    else match zs[it.idx]? with
      | none => .ub
      | some z => if z.timestamp ≤ t then it.next zs >>= advance zs t fuel else .ok it

/-! ## Traces -/

/-- `SUPPORTED_NOC_EVENTS`, src/npeWorkloadIngest.cpp:314-330. -/
def supportedEvents : List String :=
  ["READ", "READ_SET_STATE", "READ_WITH_STATE", "READ_WITH_STATE_AND_TRID",
   "READ_DRAM_SHARDED_SET_STATE", "READ_DRAM_SHARDED_WITH_STATE", "WRITE_", "WRITE_MULTICAST",
   "WRITE_SET_STATE", "WRITE_WITH_STATE", "FABRIC_UNICAST_WRITE", "FABRIC_UNICAST_INLINE_WRITE",
   "FABRIC_UNICAST_ATOMIC_INC", "FABRIC_FUSED_UNICAST_ATOMIC_INC", "FABRIC_UNICAST_SCATTER_WRITE"]

/-- `NoCEventSavedState`, src/npeWorkloadIngest.cpp:355-361. -/
structure SavedState where
  sx : Int := 0
  sy : Int := 0
  dx : Int := 0
  dy : Int := 0
  numBytes : Int := 0
  deriving DecidableEq, Repr

/-- Local variables of the loop over events, src/npeWorkloadIngest.cpp:363-368; `groups` is the
number of registered transfer groups, `zit` the zone iterator (a null pointer at first) with the list
it refers to. -/
structure ConvState where
  transfers : List Transfer := []
  groups : Nat := 0
  rd : SavedState := {}
  wr : SavedState := {}
  prev : Coord × RiscType := (Coord.default, .brisc)
  zit : Option (List Zone × ZoneIter) := none

/-- The zone iterator for an event, src/npeWorkloadIngest.cpp:386-397: `(prev, zit)` afterwards. -/
def zoneIterFor (zones : ZoneMap) (cp : Coord × RiscType) (t : Int) (s : ConvState) :
    Out ((Coord × RiscType) × Option (List Zone × ZoneIter)) :=
  match zones.lookup cp with
  | none => .ok (s.prev, s.zit)
  | some zs =>
    let start : Option (List Zone × ZoneIter) := if cp ≠ s.prev then some (zs, .init) else s.zit
    match start with
    | none => .ub
    | some (l, it) =>
      match it.advance l t (l.length - it.idx + 1) with
      | .ok it' => .ok (cp, some (l, it'))
      | .exc _ => .exc .traceIngestFailed
      | .std e => .std e
      | .exit => .exit
      | .ub => .ub
      | .diverge => .diverge

/-- The state saved for a stateful event, src/npeWorkloadIngest.cpp:428-446: endpoints and size. -/
def withState (s : ConvState) (type : String) (cur : SavedState) : SavedState :=
  let use (v : SavedState) : SavedState :=
    { v with numBytes := if 0 < v.numBytes then v.numBytes else cur.numBytes }
  if contains type "WITH_STATE" then
    if contains type "READ" then use s.rd
    else if contains type "WRITE" then use s.wr
    else cur
  else cur

/-- Exchange of source and destination for reads, src/npeWorkloadIngest.cpp:449-452. -/
def swapRead (type : String) (v : SavedState) : SavedState :=
  if startsWith type "READ" then { v with sx := v.dx, sy := v.dy, dx := v.sx, dy := v.sy } else v

/-- Latency added to the offset, src/npeWorkloadIngest.cpp:465-485. -/
def eventLatency (arch : Arch) (type noc : String) (v : SavedState) : Int :=
  if startsWith type "READ" then readLatency arch v.sx v.sy v.dx v.dy
  else if startsWith type "WRITE" then writeLatency arch v.sx v.sy v.dx v.dy (nocName noc)
  else 0

/-- The destination, src/npeWorkloadIngest.cpp:488-515; `none` is `continue`. -/
def eventDest (e : Json) (type noc : String) (dstDev : Int) (v : SavedState) : Out (Option Dest) :=
  if type = "WRITE_MULTICAST" then
    let ax := e.intD "mcast_start_x" (-1)
    let ay := e.intD "mcast_start_y" (-1)
    let bx := e.intD "mcast_end_x" (-1)
    let bY := e.intD "mcast_end_y" (-1)
    if ax = -1 ∨ ay = -1 ∨ bx = -1 ∨ bY = -1 then .ok none
    else if noc = "NOC_0" then
      mkMcast (mkCoord dstDev ay ax) (mkCoord dstDev bY bx) >>= fun gs => .ok (some (.mcast gs))
    else if noc = "NOC_1" then
      mkMcast (mkCoord dstDev bY bx) (mkCoord dstDev ay ax) >>= fun gs => .ok (some (.mcast gs))
    else .ok (some (.unicast Coord.default))
  else .ok (some (.unicast (mkCoord dstDev v.dy v.dx)))

/-- Variables of the loop over a fabric path, src/npeWorkloadIngest.cpp:522-536. -/
structure FabState where
  transfers : List Transfer
  idx : Int := 0
  offset : Int

/-- What stays the same within a fabric path. -/
structure FabEvent where
  arch : Arch
  numBytes : Int
  type : String
  zonePath : String
  group : Int

/-- A transfer of a fabric path, src/npeWorkloadIngest.cpp:604-617 and 623-636. -/
def FabState.push (ev : FabEvent) (noc : Noc) (src dst : Coord) (bytes parent : Int) (s : FabState) :
    FabState :=
  { s with
    transfers := s.transfers ++ [Transfer.make (toU32 bytes) 1 src (.unicast dst) 0 (toU32 s.offset)
      noc ev.type ev.zonePath ev.group s.idx (toI32 parent)]
    idx := s.idx + 1 }

/-- Body of the loop over local writes, src/npeWorkloadIngest.cpp:595-619. -/
def localWrite (ev : FabEvent) (noc : Noc) (d : Int) (src : Coord) (parent : Int) (s : FabState)
    (w : Json) : FabState :=
  let x := w.intD "dx" (-1)
  let y := w.intD "dy" (-1)
  let b := w.intD "num_bytes" (-1)
  if x ≠ -1 ∧ y ≠ -1 ∧ b ≠ -1 then s.push ev noc src (mkCoord d y x) b parent else s

/-- Latency of the first route, src/npeWorkloadIngest.cpp:557-570.  The case of Blackhole has no `break`
and falls through to the exception, lines 563-568. -/
def fabricLatency (ev : FabEvent) (s : FabState) (r : Json) : Out FabState :=
  if s.idx = 0 then
    match ev.arch with
    | .wormholeB0 =>
      let l := writeLatency .wormholeB0 (r.intD "segment_start_x" (-1)) (r.intD "segment_start_y" (-1))
          (r.intD "forward_x" (-1)) (r.intD "forward_y" (-1)) (nocName (r.strD "noc"))
      .ok { s with offset := s.offset + l }
    | .blackhole => .exc .traceIngestFailed
  else .ok s

/-- The transfers of a route, src/npeWorkloadIngest.cpp:572-637. -/
def fabricMoves (ev : FabEvent) (s : FabState) (r : Json) : FabState :=
  let noc := nocOf (r.strD "noc")
  let d := toI16 (r.intD "device" (-1))
  let sx := r.intD "segment_start_x" (-1)
  let sy := r.intD "segment_start_y" (-1)
  let fx := r.intD "forward_x" (-1)
  let fy := r.intD "forward_y" (-1)
  let parent := r.intD "parent_id" (-1)
  let writes := (r.field "local_writes").bind Json.asArr
  let src := mkCoord d sy sx
  if d = -1 ∨ sx = -1 ∨ sy = -1 ∨ (writes = none ∧ (fx = -1 ∨ fy = -1)) then s
  else
    let s := (writes.getD []).foldl (localWrite ev noc d src parent) s
    if fx ≠ -1 ∧ fy ≠ -1 then s.push ev noc src (mkCoord d fy fx) ev.numBytes parent else s

/-- Body of the loop over a fabric path, src/npeWorkloadIngest.cpp:536-638. -/
def fabricRoute (ev : FabEvent) (s : FabState) (r : Json) : Out FabState :=
  fabricLatency ev s r >>= fun s => .ok (fabricMoves ev s r)

/-- Source, destination and offset of a plain event, and the size, after lines 403-515 of
src/npeWorkloadIngest.cpp. -/
structure PlainEvent where
  v : SavedState
  noc : String
  offset : Int
  dst : Dest

/-- Lines 403-515 of src/npeWorkloadIngest.cpp for an event that is not a set-state event: `none` is
`continue`. -/
def plainEvent (arch : Arch) (t0 : Int) (s : ConvState) (e : Json) : Out (Option PlainEvent) :=
  let type := e.strD "type"
  let cur : SavedState := ⟨e.intD "sx" (-1), e.intD "sy" (-1), e.intD "dx" (-1), e.intD "dy" (-1),
    e.intD "num_bytes" 0⟩
  let srcDev := e.intD "src_device_id" 0
  let v := swapRead type (withState s type cur)
  let noc := e.strD "noc"
  if noc = "" then .ok none
  else
    let offset := e.intD "timestamp" 0 - t0 + eventLatency arch type noc v
    eventDest e type noc (e.intD "dst_device_id" srcDev) v >>= fun d =>
      match d with
      | none => .ok none
      | some d => .ok (some ⟨v, noc, offset, d⟩)

/-- The event is skipped, src/npeWorkloadIngest.cpp:403-416. -/
def skipped (e : Json) : Bool :=
  e.strD "type" ∉ supportedEvents || e.strD "proc" = "" ||
    (e.strD "type" = "WRITE_" && e.intD "num_bytes" 0 = 0) ||
    (e.strD "type" = "READ" && e.intD "num_bytes" 0 = 0)

/-- A set-state event, src/npeWorkloadIngest.cpp:420-424. -/
def saveState (s : ConvState) (e : Json) : ConvState :=
  let v : SavedState := ⟨e.intD "sx" (-1), e.intD "sy" (-1), e.intD "dx" (-1), e.intD "dy" (-1),
    e.intD "num_bytes" 0⟩
  if startsWith (e.strD "type") "READ" then { s with rd := v }
  else if startsWith (e.strD "type") "WRITE" then { s with wr := v }
  else s

/-- An event with fabric metadata, src/npeWorkloadIngest.cpp:521-639. -/
def fabricEvent (arch : Arch) (zonePath : String) (s : ConvState) (e : Json) (p : PlainEvent) (f : Json) :
    Out ConvState :=
  match (f.field "path").bind Json.asArr with
  | none => .ok { s with groups := s.groups + 1 }
  | some path =>
    Out.foldlM (fabricRoute ⟨arch, p.v.numBytes, e.strD "type", zonePath, (s.groups : Int)⟩)
      ⟨s.transfers, 0, p.offset⟩ path >>= fun fs =>
    .ok { s with groups := s.groups + 1, transfers := fs.transfers }

/-- The transfer of an event without fabric metadata, src/npeWorkloadIngest.cpp:641-650. -/
def plainTransfer (zonePath : String) (e : Json) (p : PlainEvent) : Transfer :=
  Transfer.make (toU32 p.v.numBytes) 1 (mkCoord (e.intD "src_device_id" 0) p.v.sy p.v.sx) p.dst 0
    (toU32 p.offset) (nocOf p.noc) (e.strD "type") zonePath

/-- Second part of the loop over events, src/npeWorkloadIngest.cpp:403-651. -/
def convBody (arch : Arch) (t0 : Int) (zonePath : String) (s : ConvState) (e : Json) : Out ConvState :=
  if skipped e then .ok s
  else if endsWith (e.strD "type") "SET_STATE" then .ok (saveState s e)
  else plainEvent arch t0 s e >>= fun p =>
    match p with
    | none => .ok s
    | some p =>
      match (e.field "fabric_send").bind Json.asObj with
      | some f => fabricEvent arch zonePath s e p f
      | none => .ok { s with transfers := s.transfers ++ [plainTransfer zonePath e p] }

/-- First part of the loop over events, src/npeWorkloadIngest.cpp:386-400.  `*enum_cast` of an unknown
processor and the use of a null iterator are undefined behaviour. -/
def zoneStep (t0 : Int) (zones : ZoneMap) (s : ConvState) (e : Json) : Out (ConvState × String) := do
  let r ← deref (riscType? (e.strD "proc"))
  let p ← zoneIterFor zones
    (mkCoord (e.intD "src_device_id" 0) (e.intD "sy" (-1)) (e.intD "sx" (-1)), r)
    (e.intD "timestamp" 0 - t0) s
  let it ← deref p.2
  return ({ s with prev := p.1, zit := p.2 }, flattenZones it.2.stack)

/-- Body of the loop over events, src/npeWorkloadIngest.cpp:369-652. -/
def convEvent (arch : Arch) (t0 : Int) (zones : ZoneMap) (s : ConvState) (e : Json) : Out ConvState :=
  zoneStep t0 zones s e >>= fun p => convBody arch t0 p.2 p.1 e

/-- `convertNocTracesToNpeWorkload`, src/npeWorkloadIngest.cpp:303-660. -/
def convertTrace (fp : FP) (device path : String) (f : InputFile) : Out (Option Workload) := do
  let dev ← createDeviceModel fp device
  match f with
  | .missing => return none
  | .unparsable => return none
  | .doc j =>
    let (golden, t0) ← computeGolden dev j
    let wl := ({} : Workload).setGoldenResultCycles golden
    let zones ← extractZones t0 j
    let evs ← j.array
    let s ← Out.foldlM (convEvent dev.arch t0 zones) {} evs
    let wl := { wl with zones := zones, numTransferGroups := s.groups }
    return some { wl.addPhase { transfers := s.transfers } with sourcePath := some path }

/-- The `try`/`catch` of `createWorkloadFromJSON`, src/npeWorkloadIngest.cpp:664 and 677-680. -/
def catchNpeNone {α : Type} : Out (Option α) → Out (Option α)
  | .exc _ => .ok none
  | x => x

/-- `createWorkloadFromJSON`, src/npeWorkloadIngest.cpp:662-681. -/
def createWorkload (fp : FP) (answer : Bool) (path device : String) (isTrace : Bool) (f : InputFile) :
    Out (Option Workload) :=
  catchNpeNone (
    if isTrace then convertTrace fp device path f
    else loadJSONWorkload fp answer path f >>= fun r =>
      match r with
      | some wl => .ok (some wl)
      | none => convertTrace fp device path f)

end NPE
