import Verif.Model.Engine

/-
The timeline file: `v1TimelineSerialization` and `emitSimTimelineToFile`,
src/npeStats.cpp:333-876.  Citations relative to /repo/tt_npe/cpp.

Not modelled here: JSON text, compression, writing to disk (see Write.lean), the sections
`common_info` and `chips` (for a multichip device a readable topology file is assumed; without one
the whole document is empty, lines 410-449), the legacy format (lines 203-331), and the final
consistency check, which only logs (lines 741-772).  Zones are in Model/ZoneTree.lean, the other sections and
the legacy format in Model/Document.lean.
Simplifications: cycle counts are compared exactly (the code converts them to `double`, which is exact
below 2^53); the `int` counter of dummy groups does not overflow.
-/

namespace NPE

/-- `TimelineRegion`, src/npeStats.cpp:338-342. -/
structure Region where
  startIdx : Nat
  endIdx : Nat
  startCycle : Nat
  endCycle : Nat
  deriving DecidableEq, Repr

namespace Region

/-- `partiallyContainedInRegion`, src/npeStats.cpp:344-350. -/
def partially (r : Region) (s e : Nat) : Bool :=
  let startsIn := r.startCycle ≤ s && s < r.endCycle
  let endsIn := r.startCycle < e && e ≤ r.endCycle
  startsIn || endsIn

/-- `fullyContainedInRegion`, src/npeStats.cpp:352-356. -/
def fully (r : Region) (s e : Nat) : Bool := r.startCycle ≤ s && e ≤ r.endCycle

end Region

/-- Body of the split loop, src/npeStats.cpp:841-854 (reading past the records would be undefined
behaviour). -/
def splitRegion (steps : List TimestepStats) (threshold i : Nat) : Out Region :=
  let startIdx := i * threshold
  let endIdx := min ((i + 1) * threshold) steps.length
  match steps[startIdx]?, steps[endIdx - 1]? with
  | some a, some b => .ok ⟨startIdx, endIdx, a.startc, b.endc⟩
  | _, _ => .ub

/-- The regions of the split files, src/npeStats.cpp:826-854: none unless there are more timesteps
than the threshold.  A threshold of zero divides by zero. -/
def splitRegions (steps : List TimestepStats) (threshold : Nat) : Out (List Region) :=
  if threshold < steps.length then
    if threshold = 0 then .ub
    else Out.mapM (splitRegion steps threshold)
      (List.range ((steps.length + threshold - 1) / threshold))
  else .ok []

/-- The two maps between groups and transfers, src/npeStats.cpp:456-457, in order of insertion, and
`dummy_transfer_group_id`. -/
structure Groups where
  members : List (Int × List Int) := []
  groupOf : List (Int × Int) := []
  dummy : Int

/-- `transfer_groups[g].push_back(id)` -/
def pushMember (g id : Int) : List (Int × List Int) → List (Int × List Int)
  | [] => [(g, [id])]
  | e :: l => if e.1 = g then (g, e.2 ++ [id]) :: l else e :: pushMember g id l

/-- `transfer_id_to_transfer_group[id] = g` -/
def setGroup (id g : Int) : List (Int × Int) → List (Int × Int)
  | [] => [(id, g)]
  | e :: l => if e.1 = id then (id, g) :: l else e :: setGroup id g l

/-- Body of the grouping loop, src/npeStats.cpp:459-470. -/
def groupStep (gs : Groups) (t : TState) : Groups :=
  if t.params.groupId ≠ -1 ∧ t.params.groupIdx ≠ -1 then
    { gs with
      members := pushMember t.params.groupId t.params.id gs.members
      groupOf := setGroup t.params.id t.params.groupId gs.groupOf }
  else
    { members := pushMember gs.dummy t.params.id gs.members
      groupOf := setGroup t.params.id gs.dummy gs.groupOf
      dummy := gs.dummy + 1 }

/-- Grouping, src/npeStats.cpp:456-470. -/
def timelineGroups (wl : Workload) (ts : List TState) : Groups :=
  ts.foldl groupStep { dummy := wl.numTransferGroups }

/-- One insertion into a set that must not contain the element yet (`insert(x).second`). -/
def insertNew (seen : List Int) (x : Int) : Out (List Int) := do
  Out.assert (x ∉ seen)
  return x :: seen

/-- Check of one member of group `g`, src/npeStats.cpp:485-495. -/
def checkMember (gs : Groups) (g : Int) (all : List Int) (id : Int) : Out (List Int) :=
  match gs.groupOf.lookup id with
  | none => .exc .undef
  | some h => Out.assert (h = g) >>= fun _ => insertNew all id

/-- Checks of one group, src/npeStats.cpp:474-503; the result is `all_transfers`. -/
def checkGroup (wl : Workload) (gs : Groups) (all : List Int) (e : Int × List Int) :
    Out (List Int) := do
  let _ ← Out.foldlM insertNew [] e.2
  let all ← Out.foldlM (checkMember gs e.1) all e.2
  Out.assert (e.1 < wl.numTransferGroups || e.2.length = 1)
  return all

/-- Check of the reverse map, src/npeStats.cpp:505-512. -/
def checkGroupOf (gs : Groups) (e : Int × Int) : Out Unit :=
  match gs.members.lookup e.2 with
  | none => .exc .undef
  | some l => Out.assert (e.1 ∈ l)

/-- All consistency checks of the groups, src/npeStats.cpp:472-512. -/
def checkGroups (wl : Workload) (gs : Groups) : Out Unit := do
  let _ ← Out.foldlM (checkGroup wl gs) [] gs.members
  let _ ← Out.mapM (checkGroupOf gs) gs.groupOf
  return ()

/-- The last component of a link in the output, src/npeStats.cpp:585-600. -/
inductive HopKind where
  | entry (noc : Noc)
  | link (ty : LinkType)
  | exit (noc : Noc)
  deriving DecidableEq, Repr

/-- `get_destination_list`, src/npeStats.cpp:514-528. -/
def destinationList (dev : Device) : Dest → Out (List Coord)
  | .unicast c => .ok [c]
  | .mcast gs => mcastWorkers dev gs

/-- An element of `route`, src/npeStats.cpp:574-603. -/
structure Segment where
  src : Coord
  dst : List Coord
  noc : Noc
  injectionRate : ℚ
  startc : Nat
  endc : Nat
  links : List (Coord × HopKind)
  deriving DecidableEq

/-- An element of `noc_transfers`, src/npeStats.cpp:556-606. -/
structure LogicalTransfer where
  id : Int
  src : Coord
  totalBytes : Nat
  startc : Nat
  eventType : String
  fabric : Bool
  zones : String
  endc : Nat
  dst : List Coord
  route : List Segment
  deriving DecidableEq

/-- `transfer_state[id]` -/
def stateAt (ts : List TState) (id : Int) : Out TState :=
  if id < 0 then .ub
  else match ts[id.toNat]? with
    | some t => .ok t
    | none => .ub

/-- Body of the loop over the components, src/npeStats.cpp:574-603. -/
def segmentOf (dev : Device) (t : TState) : Out Segment := do
  let dst ← destinationList dev t.params.dst
  let attrs ← Out.mapM dev.getLinkAttributes t.route
  return {
    src := t.params.src
    dst := dst
    noc := t.params.noc
    injectionRate := t.params.injectionRate
    startc := t.start
    endc := t.endc
    links := (t.params.src, .entry t.params.noc) ::
      (attrs.map fun a => (a.coord, HopKind.link a.type)) ++
      dst.map fun c => (c, HopKind.exit t.params.noc) }

/-- `isFabricTransferType`, src/npeStats.cpp:333-335. -/
def isFabricTransferType (s : String) : Bool := "FABRIC_".toList.isPrefixOf s.toList

/-- The components of a group in order of their index, src/npeStats.cpp:533-541. -/
def components (ts : List TState) (ids : List Int) : Out (List TState) := do
  let l ← Out.mapM (stateAt ts) ids
  return sortBy (fun a b => a.params.groupIdx ≤ b.params.groupIdx) l

/-- Is a group listed? src/npeStats.cpp:548-555. -/
def listed (region : Option Region) (first last : TState) : Bool :=
  match region with
  | none => true
  | some r => r.partially first.start last.endc

/-- Body of the loop over the groups, src/npeStats.cpp:532-606. -/
def emitGroup (dev : Device) (ts : List TState) (region : Option Region) (e : Int × List Int) :
    Out (List LogicalTransfer) := do
  Out.assert (1 ≤ e.2.length)
  let comps ← components ts e.2
  match comps.head?, comps.getLast? with
  | some first, some last =>
    if listed region first last then do
      let dst ← destinationList dev last.params.dst
      let route ← Out.mapM (segmentOf dev) comps
      return [{
        id := e.1
        src := first.params.src
        totalBytes := first.params.totalBytes
        startc := first.start
        eventType := first.params.eventType
        fabric := isFabricTransferType first.params.eventType
        zones := first.params.zonePath
        endc := last.endc
        dst := dst
        route := route }]
    else return []
  | _, _ => .ub

/-- Terminal names of network interfaces, src/npeStats.cpp:700-706. -/
def niuHop : NIUType → HopKind
  | .noc0Src => .entry .noc0
  | .noc0Sink => .exit .noc0
  | .noc1Src => .entry .noc1
  | .noc1Sink => .exit .noc1

/-- An element of `timestep_data`, src/npeStats.cpp:679-738 (the averages are copied and left out). -/
structure TimestepEntry where
  startc : Nat
  endc : Nat
  active : List Int
  linkDemand : List (Coord × HopKind × ℚ)
  deriving DecidableEq

/-- `enumerate(grid)` restricted to significant demands, src/npeStats.cpp:696-698 and 712-713. -/
def significant (fp : FP) (grid : List ℚ) : List (Nat × ℚ) :=
  (List.range grid.length).zip grid |>.filter fun e => fp.f32.fl (1 / 1000) < e.2

/-- Body of the loop over timesteps, src/npeStats.cpp:679-738 (`operator[]` yields group 0 for an
unknown transfer). -/
def emitTimestep (fp : FP) (dev : Device) (gs : Groups) (r : TimestepStats) : Out TimestepEntry := do
  let nius ← Out.mapM (fun e => do
    let a ← dev.getNIUAttributes (toI16 (e.1 : Nat))
    return (a.coord, niuHop a.type, e.2)) (significant fp r.niuGrid)
  let links ← Out.mapM (fun e => do
    let a ← dev.getLinkAttributes (toI16 (e.1 : Nat))
    return (a.coord, HopKind.link a.type, e.2)) (significant fp r.linkGrid)
  return {
    startc := r.startc
    endc := r.endc
    active := uniquify (r.live.map fun (id : Nat) => (gs.groupOf.lookup (id : Int)).getD 0)
    linkDemand := nius ++ links }

/-- Is a timestep listed? src/npeStats.cpp:674-678. -/
def listedStep (region : Option Region) (r : TimestepStats) : Bool :=
  match region with
  | none => true
  | some reg => reg.fully r.startc r.endc

/-- The modelled part of the document. -/
structure Timeline where
  transfers : List LogicalTransfer
  timesteps : List TimestepEntry
  deriving DecidableEq

/-- `v1TimelineSerialization`, src/npeStats.cpp:359-775.  `ord` is the iteration order of the hash map
of groups. -/
def serializeV1 (fp : FP) (dev : Device) (ord : List (Int × List Int) → List (Int × List Int))
    (wl : Workload) (ts : List TState) (steps : List TimestepStats) (region : Option Region) :
    Out Timeline := do
  let gs := timelineGroups wl ts
  checkGroups wl gs
  let trs ← Out.mapM (emitGroup dev ts region) (ord gs.members)
  let steps ← Out.mapM (emitTimestep fp dev gs) (steps.filter (listedStep region))
  return ⟨trs.flatten, steps⟩

/-- `emitSimTimelineToFile`, src/npeStats.cpp:799-876: the full timeline, then one file for each
region. -/
def emitTimeline (fp : FP) (dev : Device) (ord : List (Int × List Int) → List (Int × List Int))
    (threshold : Nat) (wl : Workload) (ts : List TState) (st : Stats) :
    Out (Timeline × List (Region × Timeline)) :=
  match st.lookup MESH_DEVICE with
  | none => .std .outOfRange
  | some ds => do
    let full ← serializeV1 fp dev ord wl ts ds.steps none
    let regions ← splitRegions ds.steps threshold
    let splits ← Out.mapM (fun r => do
      let t ← serializeV1 fp dev ord wl ts ds.steps (some r)
      return (r, t)) regions
    return (full, splits)

end NPE
