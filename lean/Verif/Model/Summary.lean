import Verif.Model.Engine

/-
Summary statistics: `computeSummaryStats`, src/npeStats.cpp:122-201, and the accessors at the end
of that file.  Citations relative to /repo/tt_npe/cpp.

Simplification: `double` and `float` arithmetic is exact here, except that a division by zero
gives NaN or an infinity as in C++.
-/

namespace NPE

/-- A `double` that results from a division. -/
inductive Dbl where
  | num (x : ℚ)
  | nan
  | inf
  | ninf
  deriving DecidableEq, Repr

/-- Floating point division. -/
def fdiv (a b : ℚ) : Dbl :=
  if b = 0 then (if a = 0 then .nan else if 0 < a then .inf else .ninf) else .num (a / b)

/-- Multiplication by a positive constant. -/
def Dbl.scale (k : ℚ) : Dbl → Dbl
  | .num x => .num (k * x)
  | .nan => .nan
  | .inf => .inf
  | .ninf => .ninf

/-- Sum of two `double`s. -/
def Dbl.add : Dbl → Dbl → Dbl
  | .num x, .num y => .num (x + y)
  | .nan, _ => .nan
  | _, .nan => .nan
  | .inf, .ninf => .nan
  | .ninf, .inf => .nan
  | .inf, _ => .inf
  | _, .inf => .inf
  | .ninf, _ => .ninf
  | _, .ninf => .ninf

/-- The summary part of `deviceStats`, include/npeStats.hpp:56-80. -/
structure Summary where
  cyclePredictionError : Dbl
  avgLinkDemand : Dbl
  maxLinkDemand : ℚ
  avgLinkUtil : Dbl
  maxLinkUtil : ℚ
  avgNiuDemand : Dbl
  maxNiuDemand : ℚ
  avgNoc0Demand : Dbl
  avgNoc0Util : Dbl
  maxNoc0Demand : ℚ
  avgNoc1Demand : Dbl
  avgNoc1Util : Dbl
  maxNoc1Demand : ℚ
  avgMcastUtil : Dbl
  dramUtil : Dbl
  dramUtilSim : Dbl
  /-- `eth_bw_util_per_core` -/
  ethUtil : List (Coord × Dbl)
  deriving DecidableEq

/-- `getAggregateDRAMBandwidth`, wormhole_b0.hpp:235-237, blackhole.hpp:247-249,
wormhole_multichip.hpp:312-314. -/
def Device.dramBw (dev : Device) : ℚ :=
  (if dev.multichip then (dev.chips : ℚ) else 1) *
    (dev.numBanks * ((dev.injRate .dram + dev.absRate .dram) / 2))

/-- `+=` over all timesteps, then `/= num_timesteps`, src/npeStats.cpp:122-155. -/
def avgOver (steps : List TimestepStats) (f : TimestepStats → ℚ) : Dbl :=
  fdiv (steps.map f).sum steps.length

/-- Running maximum over all timesteps, starting with 0, src/npeStats.cpp:125-140. -/
def maxOver (steps : List TimestepStats) (f : TimestepStats → ℚ) : ℚ :=
  steps.foldl (fun m r => max m (f r)) 0

/-- Is a transfer counted for device `d`? src/npeStats.cpp:165 and 189. -/
def countedTransfer (d : Int) (t : Transfer) : Bool := d = MESH_DEVICE || d = t.src.dev

/-- Bytes of one transfer read from or written to DRAM, src/npeStats.cpp:166-175. -/
def dramBytes (dev : Device) (t : Transfer) : Out Nat := do
  let c ← dev.getCoreType t.src
  if c = .dram then .ok t.totalBytes
  else match t.dst with
    | .unicast e => do
      let c ← dev.getCoreType e
      return if c = .dram then t.totalBytes else 0
    | .mcast _ => .ok 0

/-- `map[core] += bytes` -/
def addBytes (m : List (Coord × Nat)) (c : Coord) (n : Nat) : List (Coord × Nat) :=
  match m with
  | [] => [(c, n)]
  | e :: m => if e.1 = c then (c, e.2 + n) :: m else e :: addBytes m c n

/-- Body of the ethernet loop, src/npeStats.cpp:189-194. -/
def ethOne (dev : Device) (m : List (Coord × Nat)) (t : Transfer) : Out (List (Coord × Nat)) :=
  match t.dst with
  | .unicast e => do
    let c ← dev.getCoreType e
    return if c = .eth then addBytes m e t.totalBytes else m
  | .mcast _ => .ok m

/-- `deviceStats::computeSummaryStats`, src/npeStats.cpp:122-201. -/
def computeSummary (dev : Device) (wl : Workload) (d : Int) (s : DevStats) : Out Summary := do
  let ts := wl.transfers.filter (countedTransfer d)
  let bytes ← Out.mapM (dramBytes dev) ts
  let eth ← Out.foldlM (ethOne dev) [] ts
  let total : ℚ := (bytes.sum : Nat)
  return {
    cyclePredictionError := fdiv (100 * ((s.estimated : ℚ) - s.golden)) s.golden
    avgLinkDemand := avgOver s.steps (·.avgLinkDemand)
    maxLinkDemand := maxOver s.steps (·.avgLinkDemand)
    avgLinkUtil := avgOver s.steps (·.avgLinkUtil)
    maxLinkUtil := maxOver s.steps (·.avgLinkUtil)
    avgNiuDemand := avgOver s.steps (·.avgNiuDemand)
    maxNiuDemand := maxOver s.steps (·.avgNiuDemand)
    avgNoc0Demand := avgOver s.steps (·.avgNoc0Demand)
    avgNoc0Util := avgOver s.steps (·.avgNoc0Util)
    maxNoc0Demand := maxOver s.steps (·.avgNoc0Demand)
    avgNoc1Demand := avgOver s.steps (·.avgNoc1Demand)
    avgNoc1Util := avgOver s.steps (·.avgNoc1Util)
    maxNoc1Demand := maxOver s.steps (·.avgNoc1Demand)
    avgMcastUtil := avgOver s.steps (·.avgMcastUtil)
    dramUtil := (fdiv total (s.golden * dev.dramBw)).scale 100
    dramUtilSim := (fdiv total (s.estimated * dev.dramBw)).scale 100
    ethUtil := eth.map fun e => (e.1, (fdiv e.2 (s.golden * dev.ethBw)).scale 100) }

/-- `getAggregateEthBwUtil`, src/npeStats.cpp:907-916. -/
def Summary.aggregateEthUtil (s : Summary) : Dbl :=
  if s.ethUtil = [] then .num 0
  else
    match s.ethUtil.foldl (fun (a : Dbl) e => a.add e.2) (Dbl.num 0) with
    | .num x => fdiv x s.ethUtil.length
    | x => x

/-- `deviceStats` as returned: simulation part and summary part. -/
structure DevReport where
  stats : DevStats
  summary : Summary
  deriving DecidableEq

/-- `npeStats::per_device_stats`, include/npeStats.hpp:102. -/
abbrev Report := List (Int × DevReport)

/-- `npeStats::computeSummaryStats`, src/npeStats.cpp:36-40. -/
def Stats.report (dev : Device) (wl : Workload) (st : Stats) : Out Report :=
  Out.mapM (fun (e : Int × DevStats) => do
    let s ← computeSummary dev wl e.1 e.2
    return (e.1, ⟨e.2, s⟩)) st

end NPE
