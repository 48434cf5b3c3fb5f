import Verif.Model.Util
import Verif.Model.Rounding

/-
Device models: include/device_models/{wormhole_b0,wormhole_multichip,blackhole}.hpp and the
factory include/npeDeviceModelFactory.hpp.  The three C++ classes share their code up to
constants (blackhole.hpp is wormhole_b0.hpp with other numbers; wormhole_multichip.hpp wraps
wormhole_b0.hpp), so one record of constants with a `multichip` flag represents them.
Citations relative to /repo/tt_npe/cpp.
-/

namespace NPE

/-- `nocLinkType`, include/npeDeviceTypes.hpp:20-25. -/
inductive LinkType where
  | noc1North
  | noc1West
  | noc0East
  | noc0South
  deriving DecidableEq, Repr

/-- Numeric values of `nocLinkType`, include/npeDeviceTypes.hpp:21-24. -/
def LinkType.toInt : LinkType → Int
  | .noc1North => 0
  | .noc1West => 1
  | .noc0East => 2
  | .noc0South => 3

/-- `nocNIUType`, include/npeDeviceTypes.hpp:12-19 (the MIMIR values are never used). -/
inductive NIUType where
  | noc0Src
  | noc0Sink
  | noc1Src
  | noc1Sink
  deriving DecidableEq, Repr

/-- `nocLinkAttr`, include/npeDeviceTypes.hpp:32-38. -/
structure LinkAttr where
  coord : Coord
  type : LinkType
  deriving DecidableEq, Repr

/-- `nocNIUAttr`, include/npeDeviceTypes.hpp:42-48. -/
structure NIUAttr where
  coord : Coord
  type : NIUType
  deriving DecidableEq, Repr

/-- `DeviceArch`, include/npeDeviceModelIface.hpp:18-21. -/
inductive Arch where
  | wormholeB0
  | blackhole
  deriving DecidableEq, Repr

/-- The constants that distinguish the device models. -/
structure Device where
  arch : Arch
  /-- the class is `WormholeMultichipDeviceModel` -/
  multichip : Bool
  rows : Nat
  cols : Nat
  chips : Nat
  /-- `coord_to_core_type_map` by row and column -/
  coreTable : Nat → Nat → CoreType
  /-- `getLinkBandwidth` -/
  linkBw : ℚ
  /-- `core_type_to_inj_rate` (all core types are present) -/
  injRate : CoreType → ℚ
  /-- `core_type_to_abs_rate` (all core types are present) -/
  absRate : CoreType → ℚ
  /-- `tbt`, the transfer bandwidth table -/
  tbt : List (Nat × ℚ)
  numBanks : Nat
  ethBw : ℚ

namespace Device

/-- `link_types`, wormhole_b0.hpp:444-448, blackhole.hpp:457-461. -/
def linkTypes : List LinkType := [.noc0East, .noc0South, .noc1North, .noc1West]

/-- `niu_types`, wormhole_b0.hpp:449-450, blackhole.hpp:462-463. -/
def niuTypes : List NIUType := [.noc0Src, .noc0Sink, .noc1Src, .noc1Sink]

variable (dev : Device)

/-- `link_id_to_attr_lookup` after `populateNoCLinkLookups`, wormhole_b0.hpp:27-37,
wormhole_multichip.hpp:29-41, blackhole.hpp:39-49 (the single-chip classes use device 0 only,
which is the case `chips = 1`). -/
def linkTable : List LinkAttr :=
  (List.range dev.chips).flatMap fun (d : Nat) =>
    (List.range dev.rows).flatMap fun (r : Nat) =>
      (List.range dev.cols).flatMap fun (c : Nat) =>
        linkTypes.map fun t => ⟨⟨d, r, c⟩, t⟩

/-- `niu_id_to_attr_lookup` after `populateNoCNIULookups`, wormhole_b0.hpp:39-49,
wormhole_multichip.hpp:43-55, blackhole.hpp:51-61. -/
def niuTable : List NIUAttr :=
  (List.range dev.chips).flatMap fun (d : Nat) =>
    (List.range dev.rows).flatMap fun (r : Nat) =>
      (List.range dev.cols).flatMap fun (c : Nat) =>
        niuTypes.map fun t => ⟨⟨d, r, c⟩, t⟩

/-- The hash map filled by `map[attr] = lookup.size() - 1` (wormhole_b0.hpp:33): a later
assignment to the same key wins, so the newest entry comes first.  The id is stored as a
16-bit integer (`nocLinkID`/`nocNIUID`, include/npeDeviceTypes.hpp:29,40). -/
def idMap {α : Type} (table : List α) : List (α × Int) :=
  (table.zipIdx.map fun p => (p.1, toI16 p.2)).reverse

/-- `getLinkID`, wormhole_b0.hpp:248-256, wormhole_multichip.hpp:263-271, blackhole.hpp:260-268. -/
def getLinkID (a : LinkAttr) : Out Int :=
  match (idMap dev.linkTable).lookup a with
  | some i => .ok i
  | none => .exc .undef

/-- `getNIUID(attr)`, wormhole_b0.hpp:263-271, wormhole_multichip.hpp:281-289. -/
def getNIUID (a : NIUAttr) : Out Int :=
  match (idMap dev.niuTable).lookup a with
  | some i => .ok i
  | none => .exc .undef

/-- `getLinkAttributes`, wormhole_b0.hpp:243-246: the id is compared after conversion to
`size_t`, so a negative id fails the assertion. -/
def getLinkAttributes (i : Int) : Out LinkAttr :=
  if i < 0 then .exc .undef
  else match dev.linkTable[i.toNat]? with
    | some a => .ok a
    | none => .exc .undef

/-- `getNIUAttributes`, wormhole_b0.hpp:258-261. -/
def getNIUAttributes (i : Int) : Out NIUAttr :=
  if i < 0 then .exc .undef
  else match dev.niuTable[i.toNat]? with
    | some a => .ok a
    | none => .exc .undef

/-- `getNIUID(row, col, type)` of the single-chip models uses device 0
(wormhole_b0.hpp:272-274); the multichip model passes the device id
(wormhole_multichip.hpp:290-292). -/
def niuAt (c : Coord) (t : NIUType) : Out Int :=
  dev.getNIUID ⟨⟨if dev.multichip then c.dev else 0, c.row, c.col⟩, t⟩

/-- `getCoreType`, wormhole_b0.hpp:278, wormhole_multichip.hpp:300-302, through
`Grid2D::operator()`, include/grid.hpp:33-36: index `row * cols + col` into a vector of
`rows * cols` elements (the bounds check is an `assert`, disabled in release builds; an index
outside of the vector is undefined behaviour).  `size_t` wrap-around makes a negative column
combine with the row, as integer arithmetic does here. -/
def getCoreType (c : Coord) : Out CoreType :=
  let idx : Int := c.row * dev.cols + c.col
  if 0 ≤ idx ∧ idx < dev.rows * dev.cols then
    .ok (dev.coreTable (idx.toNat / dev.cols) (idx.toNat % dev.cols))
  else .ub

/-- `getSrcInjectionRate`, wormhole_b0.hpp:280-293, wormhole_multichip.hpp:303-305. -/
def getSrcInjectionRate (c : Coord) : Out ℚ := do
  let t ← dev.getCoreType c
  return dev.injRate t

/-- `getSinkAbsorptionRate`, wormhole_b0.hpp:294-307, wormhole_multichip.hpp:306-308. -/
def getSinkAbsorptionRate (c : Coord) : Out ℚ := do
  let t ← dev.getCoreType c
  return dev.absRate t

/-- `isValidDeviceID`, wormhole_b0.hpp:230-232 (ids `{0}`), wormhole_multichip.hpp:254-256
(ids `0..num_chips-1`). -/
def isValidDeviceID (d : Int) : Bool := 0 ≤ d && d < dev.chips

/-- `getDeviceIDs`, wormhole_b0.hpp:227-229 and 451, wormhole_multichip.hpp:20-22. -/
def deviceIDs : List Int := (List.range dev.chips).map fun (d : Nat) => (d : Int)

/-- The embedded single-chip model `_wormhole_b0_model`, wormhole_multichip.hpp:323. -/
def base : Device := { dev with multichip := false, chips := 1 }

/-- Loop of `unicastRoute`, wormhole_b0.hpp:309-346, blackhole.hpp:321-358.  `fuel` bounds the
number of iterations; running out of it is reported as non-termination (theorem
`unicastRoute_diverges_iff` shows that this is what the C++ loop does). -/
def unicastLoop (noc : Noc) (erow ecol : Int) : Nat → Int → Int → Out (List Int)
  | 0, _, _ => .diverge
  | fuel + 1, row, col =>
    match noc with
    | .noc0 =>
      if col ≠ ecol then do
        let l ← dev.getLinkID ⟨⟨0, row, col⟩, .noc0East⟩
        let rest ← unicastLoop noc erow ecol fuel row (wrapToRange (col + 1) dev.cols)
        return l :: rest
      else if row ≠ erow then do
        let l ← dev.getLinkID ⟨⟨0, row, col⟩, .noc0South⟩
        let rest ← unicastLoop noc erow ecol fuel (wrapToRange (row + 1) dev.rows) col
        return l :: rest
      else .ok []
    | .noc1 =>
      if row ≠ erow then do
        let l ← dev.getLinkID ⟨⟨0, row, col⟩, .noc1North⟩
        let rest ← unicastLoop noc erow ecol fuel (wrapToRange (row - 1) dev.rows) col
        return l :: rest
      else if col ≠ ecol then do
        let l ← dev.getLinkID ⟨⟨0, row, col⟩, .noc1West⟩
        let rest ← unicastLoop noc erow ecol fuel row (wrapToRange (col - 1) dev.cols)
        return l :: rest
      else .ok []

/-- `unicastRoute`, wormhole_b0.hpp:309-346, blackhole.hpp:321-358. -/
def unicastRoute (noc : Noc) (s e : Coord) : Out (List Int) :=
  dev.unicastLoop noc e.row e.col (dev.rows + dev.cols) s.row s.col

/-- `for (int x = a; x <= b; x++)` -/
def intRange (a b : Int) : List Int := (List.range (b - a + 1).toNat).map fun (k : Nat) => a + k

/-- `unique_links.insert(...)` into a hash set, one link at a time; the set is represented by a
duplicate-free list. -/
def insertAll (set : List Int) (ls : List Int) : List Int :=
  ls.foldl (fun s l => if l ∈ s then s else s ++ [l]) set

/-- Multicast part of `route`, wormhole_b0.hpp:352-375, blackhole.hpp:364-387. `ord` is the
iteration order of the hash set (unspecified in C++). -/
def multicastRoute (ord : List Int → List Int) (noc : Noc) (s : Coord) (gs : List CoordGrid) :
    Out (List Int) := do
  Out.assert (gs.length = 1)
  match gs with
  | [] => .ub
  | g :: _ =>
    let set ← match noc with
      | .noc0 => Out.foldlM (fun set c => do
          let r ← dev.unicastRoute noc s ⟨0, g.hi.row, c⟩
          return insertAll set r) [] (intRange g.lo.col g.hi.col)
      | .noc1 => Out.foldlM (fun set r' => do
          let r ← dev.unicastRoute noc s ⟨0, r', g.hi.col⟩
          return insertAll set r) [] (intRange g.lo.row g.hi.row)
    return ord set

/-- `route` of the single-chip models, wormhole_b0.hpp:348-376, blackhole.hpp:360-388. -/
def routeSingle (ord : List Int → List Int) (noc : Noc) (s : Coord) (d : Dest) : Out (List Int) :=
  match d with
  | .unicast e => dev.unicastRoute noc s e
  | .mcast gs => dev.multicastRoute ord noc s gs

/-- `changeRouteDeviceID`, wormhole_multichip.hpp:58-68. -/
def changeRouteDeviceID (route : List Int) (d : Int) : Out (List Int) :=
  Out.mapM (fun l => do
    let a ← dev.getLinkAttributes l
    dev.getLinkID ⟨⟨d, a.coord.row, a.coord.col⟩, a.type⟩) route

/-- `route` of the multichip model, wormhole_multichip.hpp:71-81, and of the single-chip models. -/
def route (ord : List Int → List Int) (noc : Noc) (s : Coord) (d : Dest) : Out (List Int) :=
  if dev.multichip then do
    Out.assert (d.deviceIDs.length = 1)
    Out.assert (d.deviceIDs.head? = some s.dev)
    let r ← dev.base.routeSingle ord noc s d
    dev.changeRouteDeviceID r s.dev
  else dev.routeSingle ord noc s d

/-- `route_hops`, wormhole_b0.hpp:393-407, blackhole.hpp:405-419; `none` stands for a NoC name
other than "NOC_0"/"NOC_1". -/
def routeHops (sx sy dx dy : Int) (noc : Option Noc) : Int :=
  match noc with
  | some .noc0 => modulo (dx - sx) dev.cols + modulo (dy - sy) dev.rows
  | some .noc1 => modulo (sx - dx) dev.cols + modulo (sy - dy) dev.rows
  | none => -1

end Device

/-- `core_type` table of wormhole_b0.hpp:467-539. -/
def whCore (r c : Nat) : CoreType :=
  if c = 5 then .dram
  else if c = 0 then (if r ∈ [0, 1, 5, 6, 7, 11] then .dram else .undef)
  else if r = 0 ∨ r = 6 then .eth
  else .worker

/-- `core_type` table of blackhole.hpp:480-600. -/
def bhCore (r c : Nat) : CoreType :=
  if c = 0 ∨ c = 9 then .dram
  else if r = 0 ∨ c = 8 then .undef
  else if r = 1 then .eth
  else .worker

/-- `WormholeB0DeviceModel` / `WormholeMultichipDeviceModel(n)`: wormhole_b0.hpp:234-241, 432-465;
wormhole_multichip.hpp:19-26, 247-331.  Decimal literals are rounded to `float`. -/
def wormhole (fp : FP) (multi : Bool) (n : Nat) : Device where
  arch := .wormholeB0
  multichip := multi
  rows := 12
  cols := 10
  chips := n
  coreTable := whCore
  linkBw := 30
  injRate := fun | .dram => fp.f32.fl (116/5) | _ => fp.f32.fl (281/10)
  absRate := fun | .dram => 24 | .eth => 24 | _ => fp.f32.fl (281/10)
  tbt := [(0, 0), (128, fp.f32.fl (11/2)), (256, fp.f32.fl (101/10)), (512, 18), (1024, fp.f32.fl (137/5)),
    (2048, 30), (8192, 30)]
  numBanks := 12
  ethBw := fp.f32.fl (25/2)

/-- `BlackholeDeviceModel`, blackhole.hpp:24-37, 246-253, 443-478.  `p150` selects the number of
DRAM banks.  `54.0 / ai_clk_ghz` divides by the `float` 1.35 in `double`. -/
def blackhole (fp : FP) (p150 : Bool) : Device where
  arch := .blackhole
  multichip := false
  rows := 12
  cols := 17
  chips := 1
  coreTable := bhCore
  linkBw := fp.f32.fl (609/10)
  injRate := fun
    | .dram => fp.f32.fl (fp.f64.fl (54 / fp.f32.fl (27/20)))
    | .eth => fp.f32.fl (9999/10)
    | _ => fp.f32.fl (609/10)
  absRate := fun
    | .dram => fp.f32.fl (fp.f64.fl (54 / fp.f32.fl (27/20)))
    | .eth => fp.f32.fl (9999/10)
    | _ => fp.f32.fl (609/10)
  tbt := [(0, 0), (128, 6), (256, fp.f32.fl (121/10)), (512, fp.f32.fl (121/5)), (1024, 48),
    (2048, fp.f32.fl (577/10)), (4096, fp.f32.fl (587/10)), (8192, fp.f32.fl (302/5)),
    (16384, fp.f32.fl (609/10))]
  numBanks := if p150 then 8 else 7
  ethBw := 50

/-- `npeDeviceModelFactory::createDeviceModel`, include/npeDeviceModelFactory.hpp:19-42. -/
def createDeviceModel (fp : FP) (name : String) : Out Device :=
  if name = "wormhole_b0" ∨ name = "N150" then .ok (wormhole fp false 1)
  else if name = "N300" then .ok (wormhole fp true 2)
  else if name = "T3K" then .ok (wormhole fp true 8)
  else if name = "blackhole" ∨ name = "P100" then .ok (blackhole fp false)
  else if name = "P150" then .ok (blackhole fp true)
  else if name = "TG" then .ok (wormhole fp true 36)
  else if name = "GALAXY" then .ok (wormhole fp true 32)
  else .exc .deviceModelInitFailed

/-- `get_read_latency`, wormhole_b0.hpp:410-420, blackhole.hpp:422-432. -/
def readLatency (arch : Arch) (sx sy dx dy : Int) : Int :=
  match arch with
  | .wormholeB0 =>
    if sx = dx ∧ sy = dy then 70
    else if sx = dx ∧ sy ≠ dy then 154
    else if sy = dy ∧ sx ≠ dx then 170
    else 270
  | .blackhole =>
    if sx = dx ∧ sy = dy then 65
    else if sx = dx ∧ sy ≠ dy then 177
    else if sy = dy ∧ sx ≠ dx then 217
    else 329

/-- Grid dimensions of the static functions of an architecture (rows, columns):
wormhole_b0.hpp:434-435, blackhole.hpp:446-447. -/
def archDims : Arch → Nat × Nat
  | .wormholeB0 => (12, 10)
  | .blackhole => (12, 17)

/-- static `route_hops` per architecture, wormhole_b0.hpp:393-407, blackhole.hpp:405-419. -/
def archHops (arch : Arch) (sx sy dx dy : Int) (noc : Option Noc) : Int :=
  match noc with
  | some .noc0 => modulo (dx - sx) (archDims arch).2 + modulo (dy - sy) (archDims arch).1
  | some .noc1 => modulo (sx - dx) (archDims arch).2 + modulo (sy - dy) (archDims arch).1
  | none => -1

/-- `get_write_latency`, wormhole_b0.hpp:422-428, blackhole.hpp:434-440. -/
def writeLatency (arch : Arch) (sx sy dx dy : Int) (noc : Option Noc) : Int :=
  match arch with
  | .wormholeB0 => 40 + archHops arch sx sy dx dy noc * 10
  | .blackhole => 40 + archHops arch sx sy dx dy noc * 11

end NPE
