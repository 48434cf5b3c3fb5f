import Verif.Model.Device

/-
Workloads: include/npeWorkload.hpp and src/npeWorkload.cpp.
Citations relative to /repo/tt_npe/cpp.
-/

namespace NPE

/-- `npeWorkloadTransfer`, include/npeWorkload.hpp:25-83. -/
structure Transfer where
  packetSize : Nat
  numPackets : Nat
  src : Coord
  dst : Dest
  injectionRate : ℚ
  /-- `phase_cycle_offset` -/
  offset : Nat
  noc : Noc
  eventType : String
  totalBytes : Nat
  zonePath : String
  groupId : Int
  groupIdx : Int
  groupParent : Int
  phaseId : Int
  id : Int
  deriving DecidableEq

/-- Constructor, include/npeWorkload.hpp:29-56: `total_bytes` is the 32-bit unsigned product
(line 51), the ids start at -1. -/
def Transfer.make (packetSize numPackets : Nat) (src : Coord) (dst : Dest) (injectionRate : ℚ)
    (offset : Nat) (noc : Noc) (eventType : String := "") (zonePath : String := "")
    (groupId groupIdx groupParent : Int := -1) : Transfer where
  packetSize := packetSize
  numPackets := numPackets
  src := src
  dst := dst
  injectionRate := injectionRate
  offset := offset
  noc := noc
  eventType := eventType
  totalBytes := packetSize * numPackets % 4294967296
  zonePath := zonePath
  groupId := groupId
  groupIdx := groupIdx
  groupParent := groupParent
  phaseId := -1
  id := -1

/-- `npeWorkloadPhase`, include/npeWorkload.hpp:85-95. -/
structure Phase where
  transfers : List Transfer
  id : Int := -1
  deriving DecidableEq

/-- Golden windows `boost::unordered_flat_map<DeviceID, pair<CycleCount, CycleCount>>` as an
association list with at most one entry per key. -/
abbrev GoldenMap := List (Int × Nat × Nat)

/-- `map[k] = v` -/
def GoldenMap.set (m : GoldenMap) (k : Int) (v : Nat × Nat) : GoldenMap :=
  (k, v) :: m.filter (fun e => e.1 ≠ k)

/-- `map.at(k)` -/
def GoldenMap.at (m : GoldenMap) (k : Int) : Out (Nat × Nat) :=
  match m.lookup k with
  | some v => .ok v
  | none => .std .outOfRange

/-- `RiscType`, include/npeUtil.hpp:313. -/
inductive RiscType where
  | brisc | ncrisc | trisc0 | trisc1 | trisc2 | erisc | coreAgg
  deriving DecidableEq, Repr

/-- `npeWorkload`, include/npeWorkload.hpp:97-148. -/
structure Workload where
  sourcePath : Option String := none
  phases : List Phase := []
  gblTransferId : Nat := 0
  numTransferGroups : Nat := 0
  golden : GoldenMap := []
  zones : List ((Coord × RiscType) × List Zone) := []
  deriving DecidableEq

namespace Workload

/-- The loop of `addPhase`, src/npeWorkload.cpp:81-84. -/
def assignIds (phaseId : Int) : Nat → List Transfer → List Transfer
  | _, [] => []
  | n, t :: ts => { t with phaseId := phaseId, id := n } :: assignIds phaseId (n + 1) ts

/-- `addPhase`, src/npeWorkload.cpp:78-87 (returned id: the index of the phase). -/
def addPhase (wl : Workload) (ph : Phase) : Workload :=
  let newId : Int := wl.phases.length
  { wl with
    phases := wl.phases ++ [{ transfers := assignIds newId wl.gblTransferId ph.transfers,
                              id := newId }]
    gblTransferId := wl.gblTransferId + ph.transfers.length }

/-- All transfers, phase by phase. -/
def transfers (wl : Workload) : List Transfer := wl.phases.flatMap (·.transfers)

/-- A workload built from an empty one by `addPhase` calls. -/
def build (phases : List Phase) : Workload := phases.foldl addPhase {}

end Workload

/-- `is_valid_coord`, src/npeWorkload.cpp:21-23 (the sign is tested before the comparison with
an unsigned number). -/
def validCoord (dev : Device) (c : Coord) : Bool :=
  (0 ≤ c.row && c.row < dev.rows) && (0 ≤ c.col && c.col < dev.cols)

/-- The `valid_dst` computation, src/npeWorkload.cpp:31-41. -/
def validDst (dev : Device) : Dest → Bool
  | .unicast c => validCoord dev c
  | .mcast gs => gs.foldl (fun v g => v || (validCoord dev g.lo && validCoord dev g.hi)) false

/-- `npeWorkloadTransfer::validate`, src/npeWorkload.cpp:15-76.  `front()` of an empty
container (line 27) is undefined behaviour. -/
def Transfer.validate (dev : Device) (t : Transfer) : Out Bool :=
  match t.dst.deviceIDs with
  | [] => .ub
  | d :: _ =>
    .ok (decide (0 < t.numPackets) && decide (0 < t.packetSize) && validCoord dev t.src &&
      validDst dev t.dst && decide (t.src.dev = d) && dev.isValidDeviceID t.src.dev)

namespace Workload

/-- State of the validation loops: the two bitmaps and the error count. -/
structure ValState where
  phaseBits : List Bool
  transferBits : List Bool
  errors : Nat

/-- Body of the inner loop, src/npeWorkload.cpp:108-127.  The range check is `>`, so an id
equal to the size reads past the bitmap (undefined behaviour), as does a negative id. -/
def validateTransfer (dev : Device) (gbl : Nat) (s : ValState) (t : Transfer) : Out ValState :=
  if t.id > gbl then .ok { s with errors := s.errors + 1 }
  else if t.id < 0 then .ub
  else match s.transferBits[t.id.toNat]? with
    | none => .ub
    | some true => .ok { s with errors := s.errors + 1 }
    | some false =>
      t.validate dev >>= fun v =>
        .ok { s with
          transferBits := s.transferBits.set t.id.toNat true
          errors := if v then s.errors else s.errors + 1 }

/-- Body of the outer loop, src/npeWorkload.cpp:95-128.  The phase id is compared after
conversion to `size_t` (line 96), so a negative id counts as out of range. -/
def validatePhase (dev : Device) (nPhases gbl : Nat) (s : ValState) (ph : Phase) :
    Out ValState :=
  if ph.id < 0 ∨ ph.id > nPhases then .ok { s with errors := s.errors + 1 }
  else match s.phaseBits[ph.id.toNat]? with
    | none => .ub
    | some true => .ok { s with errors := s.errors + 1 }
    | some false =>
      Out.foldlM (validateTransfer dev gbl)
        { s with phaseBits := s.phaseBits.set ph.id.toNat true } ph.transfers

/-- `npeWorkload::validate`, src/npeWorkload.cpp:89-131. -/
def validate (dev : Device) (wl : Workload) : Out Bool :=
  Out.foldlM (validatePhase dev wl.phases.length wl.gblTransferId)
    { phaseBits := List.replicate wl.phases.length false
      transferBits := List.replicate wl.gblTransferId false
      errors := 0 } wl.phases >>= fun s => .ok (decide (s.errors = 0))

/-- Apply `f` to every transfer in place (loops of `scaleWorkloadSchedule` and
`inferInjectionRates`). -/
def mapTransfersM (f : Transfer → Out Transfer) (wl : Workload) : Out Workload := do
  let phases ← Out.mapM (fun (ph : Phase) => do
    let ts ← Out.mapM f ph.transfers
    return { ph with transfers := ts }) wl.phases
  return { wl with phases := phases }

/-- `static_cast<CycleCount>(offset * scale_factor)`, src/npeWorkload.cpp:139: the offset is
converted to `float`, multiplied in `float` and truncated; a value outside of the unsigned
32-bit range is undefined behaviour. -/
def scaleOffset (fp : FP) (scale : ℚ) (offset : Nat) : Out Nat :=
  let x := fp.f32.fl (fp.f32.fl offset * scale)
  if -1 < x ∧ x < 4294967296 then .ok x.floor.toNat else .ub

/-- `scaleWorkloadSchedule`, src/npeWorkload.cpp:133-143. -/
def scaleWorkloadSchedule (fp : FP) (scale : ℚ) (wl : Workload) : Out Workload :=
  wl.mapTransfersM fun t => do
    let o ← scaleOffset fp scale t.offset
    return { t with offset := o }

/-- `inferInjectionRates`, src/npeWorkload.cpp:145-154. -/
def inferInjectionRates (dev : Device) (wl : Workload) : Out Workload :=
  wl.mapTransfersM fun t => do
    let r ← dev.getSrcInjectionRate t.src
    return { t with injectionRate := r }

/-- `setGoldenResultCycles`, include/npeWorkload.hpp:113-125: copies the map, then adds the
entry of the whole mesh.  The bounds are `size_t` (start value INT64_MAX) and are narrowed to 32
bits when stored. -/
def setGoldenResultCycles (wl : Workload) (m : GoldenMap) : Workload :=
  let s := m.foldl (fun s e => min s e.2.1) 9223372036854775807
  let e := m.foldl (fun s e => max s e.2.2) 0
  { wl with golden := m.set MESH_DEVICE (s % 4294967296, e % 4294967296) }

/-- The kept transfers of a phase in `removeLocalUnicastTransfers`,
src/npeWorkload.cpp:167-180: only unicast transfers whose endpoints are in different
two-by-two tiles (C++ division truncates). -/
def keepNonLocal (t : Transfer) : Bool :=
  match t.dst with
  | .unicast d =>
    !(decide (t.src.row.tdiv 2 = d.row.tdiv 2) && decide (t.src.col.tdiv 2 = d.col.tdiv 2))
  | .mcast _ => false

/-- `removeLocalUnicastTransfers`, src/npeWorkload.cpp:156-185. -/
def removeLocalUnicastTransfers (wl : Workload) : Workload :=
  wl.phases.foldl (fun w ph => w.addPhase { transfers := ph.transfers.filter keepNonLocal })
    (({} : Workload).setGoldenResultCycles wl.golden)

/-- `registerTransferGroupID`, include/npeWorkload.hpp:129-131. -/
def registerTransferGroupID (wl : Workload) : Int × Workload :=
  (wl.numTransferGroups, { wl with numTransferGroups := wl.numTransferGroups + 1 })

end Workload

end NPE
