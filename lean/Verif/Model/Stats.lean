import Verif.Model.Congestion

/-
Statistics: include/npeStats.hpp, src/npeStats.cpp:24-201 and 878-885, and
`updateSimulationStats`, include/npeDeviceModelUtils.hpp:67-140.  Citations relative to
/repo/tt_npe/cpp.

Simplification: the `double` sums and averages are computed in exact arithmetic.
-/

namespace NPE

/-- `TimestepStats`, include/npeStats.hpp:20-47. -/
structure TimestepStats where
  startc : Nat := 0
  endc : Nat := 0
  avgLinkDemand : ℚ := 0
  maxLinkDemand : ℚ := 0
  avgLinkUtil : ℚ := 0
  avgNiuDemand : ℚ := 0
  maxNiuDemand : ℚ := 0
  avgNoc0Demand : ℚ := 0
  avgNoc0Util : ℚ := 0
  maxNoc0Demand : ℚ := 0
  avgNoc1Demand : ℚ := 0
  avgNoc1Util : ℚ := 0
  maxNoc1Demand : ℚ := 0
  avgMcastUtil : ℚ := 0
  linkGrid : List ℚ := []
  niuGrid : List ℚ := []
  live : List Nat := []
  deriving DecidableEq

/-- The simulation-time part of `deviceStats`, include/npeStats.hpp:51-99. -/
structure DevStats where
  completed : Bool := false
  estimated : Nat := 0
  estimatedCongFree : Nat := 0
  golden : Nat := 0
  steps : List TimestepStats := []
  /-- `worst_case_transfer_end_cycle` -/
  worst : Nat := 0
  deriving DecidableEq

/-- `per_device_stats`, include/npeStats.hpp:102, as a list of (device, stats). -/
abbrev Stats := List (Int × DevStats)

namespace Stats

/-- Constructor, src/npeStats.cpp:24-30. -/
def init (dev : Device) : Stats := (dev.deviceIDs ++ [MESH_DEVICE]).map fun d => (d, {})

/-- One device in `insertTimestep`, src/npeStats.cpp:43-52. -/
def insertOne (golden : GoldenMap) (startc endc : Nat) (e : Int × DevStats) :
    Out (Int × DevStats) :=
  golden.at e.1 >>= fun g =>
    if g.1 ≤ endc then
      .ok (e.1, { e.2 with steps := e.2.steps ++ [{ startc := startc, endc := endc }] })
    else .ok e

/-- `insertTimestep`, src/npeStats.cpp:42-53. -/
def insertTimestep (golden : GoldenMap) (startc endc : Nat) (st : Stats) : Out Stats :=
  Out.mapM (insertOne golden startc endc) st

/-- `per_device_stats[d]` modified by `f` (`operator[]` creates a missing entry). -/
def modify (d : Int) (f : DevStats → DevStats) : Stats → Stats
  | [] => [(d, f {})]
  | e :: st => if e.1 = d then (d, f e.2) :: st else e :: modify d f st

/-- `updateWorstCaseTransferEndCycle`, src/npeStats.cpp:55-60. -/
def updateWorst (d : Int) (offset endc : Nat) (g : Nat × Nat) (st : Stats) : Stats :=
  if g.1 ≤ offset ∧ offset ≤ g.2 then
    st.modify d fun s => { s with worst := max s.worst endc }
  else st

/-- Is a resource at `c` counted for device `d`? include/npeDeviceModelUtils.hpp:84 and 123. -/
def counted (d : Int) (c : Coord) : Bool := d = MESH_DEVICE || d = c.dev

/-- NoC 0 links, include/npeDeviceModelUtils.hpp:91. -/
def isNoc0 : LinkType → Bool
  | .noc0East => true
  | .noc0South => true
  | _ => false

/-- NoC 1 links, include/npeDeviceModelUtils.hpp:96. -/
def isNoc1 : LinkType → Bool
  | .noc1North => true
  | .noc1West => true
  | _ => false

/-- Body of the loop over devices of `updateSimulationStats`,
include/npeDeviceModelUtils.hpp:75-139.  `links` and `nius` are the demands with the attributes
of their resources (lines 83 and 122). -/
def summarize (dev : Device) (links : List (LinkAttr × ℚ × ℚ)) (nius : List (NIUAttr × ℚ))
    (g : Grids) (live : List Nat) (d : Int) (r : TimestepStats) : TimestepStats :=
  let bw := dev.linkBw
  let ls := links.filter fun e => counted d e.1.coord
  let ls0 := ls.filter fun e => isNoc0 e.1.type
  let ls1 := ls.filter fun e => isNoc1 e.1.type
  let ns := nius.filter fun e => counted d e.1.coord
  let size : Nat := if d = MESH_DEVICE then g.link.length else g.link.length / dev.chips
  let half : Nat := size / 2
  let sum (l : List (LinkAttr × ℚ × ℚ)) (f : LinkAttr × ℚ × ℚ → ℚ) : ℚ := (l.map f).sum
  let mx (l : List (LinkAttr × ℚ × ℚ)) (s : ℚ) : ℚ := l.foldl (fun m e => max m e.2.1) s
  { r with
    avgLinkDemand := (r.avgLinkDemand + sum ls (·.2.1)) * (100 / (bw * size))
    avgLinkUtil := (r.avgLinkUtil + sum ls (fun e => min e.2.1 bw)) * (100 / (bw * size))
    avgMcastUtil := (r.avgMcastUtil + sum ls (fun e => min e.2.2 bw)) * (100 / (bw * size))
    maxLinkDemand := mx ls r.maxLinkDemand * (100 / bw)
    avgNoc0Demand := (r.avgNoc0Demand + sum ls0 (·.2.1)) * (100 / (bw * half))
    avgNoc0Util := (r.avgNoc0Util + sum ls0 (fun e => min e.2.1 bw)) * (100 / (bw * half))
    maxNoc0Demand := mx ls0 r.maxNoc0Demand * (100 / bw)
    avgNoc1Demand := (r.avgNoc1Demand + sum ls1 (·.2.1)) * (100 / (bw * half))
    avgNoc1Util := (r.avgNoc1Util + sum ls1 (fun e => min e.2.1 bw)) * (100 / (bw * half))
    maxNoc1Demand := mx ls1 r.maxNoc1Demand * (100 / bw)
    avgNiuDemand := (r.avgNiuDemand + (ns.map (·.2)).sum) * (100 / (bw * g.niu.length))
    maxNiuDemand := ns.foldl (fun m e => max m e.2) r.maxNiuDemand * (100 / bw)
    linkGrid := if d = MESH_DEVICE then g.link else r.linkGrid
    niuGrid := if d = MESH_DEVICE then g.niu else r.niuGrid
    live := if d = MESH_DEVICE then live else r.live }

/-- Apply `f` to the last element, if there is one (`per_timestep_stats.back()`). -/
def mapLast {α : Type} (f : α → α) : List α → List α
  | [] => []
  | [a] => [f a]
  | a :: b :: l => a :: mapLast f (b :: l)

/-- `updateSimulationStats`, include/npeDeviceModelUtils.hpp:67-140.  The loops over all links
and interfaces look up their attributes (`getLinkAttributes`, line 83). -/
def updateSim (dev : Device) (g : Grids) (live : List Nat) (st : Stats) : Out Stats := do
  let la ← Out.mapM (fun (i : Nat) => dev.getLinkAttributes (toI16 i)) (List.range g.link.length)
  let na ← Out.mapM (fun (i : Nat) => dev.getNIUAttributes (toI16 i)) (List.range g.niu.length)
  let links := la.zip (g.link.zip g.mcast)
  let nius := na.zip g.niu
  return st.map fun e =>
    (e.1, { e.2 with steps := mapLast (summarize dev links nius g live e.1) e.2.steps })

/-- `vector::resize(n)`: truncates or appends default records. -/
def resize (l : List TimestepStats) (n : Nat) : List TimestepStats :=
  l.take n ++ List.replicate (n - l.length) ({ startc := 0 } : TimestepStats)

/-- One device in `finishSimulation`, src/npeStats.cpp:63-84.  `golden_end - golden_start` is a
32-bit difference; `end_idx - start_idx + 1` is a `size_t` (it cannot wrap, because the worst
end cycle is above the golden start here).  A zero timestep divides by zero. -/
def finishOne (golden : GoldenMap) (cpt : Nat) (e : Int × DevStats) : Out (Int × DevStats) :=
  golden.at e.1 >>= fun g =>
    let s := { e.2 with completed := true, golden := toU32 ((g.2 : Int) - g.1) }
    if s.worst ≤ g.1 then .ok (e.1, { s with estimated := 0, steps := [] })
    else if cpt = 0 then .ub
    else
      let startIdx := g.1 / cpt
      let endIdx := (s.worst + cpt - 1) / cpt
      .ok (e.1, { s with
        estimated := s.worst - g.1
        steps := resize s.steps (endIdx - startIdx + 1) })

/-- `finishSimulation`, src/npeStats.cpp:62-85 (the wall-clock time is not modelled). -/
def finish (golden : GoldenMap) (cpt : Nat) (st : Stats) : Out Stats :=
  Out.mapM (finishOne golden cpt) st

end Stats

/-- `getCongestionImpact`, src/npeStats.cpp:878-885. -/
def DevStats.congestionImpact (s : DevStats) : ℚ :=
  if s.estimated = 0 ∨ s.estimatedCongFree = 0 then 0
  else 100 * ((s.estimated : ℚ) - s.estimatedCongFree) / s.estimated

end NPE
