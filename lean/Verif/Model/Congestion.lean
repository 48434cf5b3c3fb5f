import Verif.Model.DepTracker

/-
Transfer rates: include/npeDeviceModelUtils.hpp:16-65 and `modelCongestion` /
`computeCurrentTransferRate` of the device models (wormhole_b0.hpp:55-222,
blackhole.hpp:67-234, wormhole_multichip.hpp:90-245).  Citations relative to
/repo/tt_npe/cpp, device models to include/device_models.

Simplifications: arithmetic on `float` is exact-then-rounded (`FP`); the compiler is assumed
not to contract `a*b+c`.  Quotients with a zero denominator are +infinity or NaN in C++; both
compare false with `< 1.0` and are represented by `none` ("no limit").  For a negative
injection rate with zero total demand C++ would produce -infinity; negative rates are outside
of this model (the theorems about congestion assume rates that are not negative).
-/

namespace NPE

/-- `npeDeviceState`, include/npeDeviceState.hpp:12-45. -/
structure Grids where
  niu : List ℚ
  link : List ℚ
  mcast : List ℚ
  deriving DecidableEq

/-- `initDeviceState`, wormhole_b0.hpp:191-195, wormhole_multichip.hpp:84-88. -/
def initGrids (dev : Device) : Grids where
  niu := List.replicate dev.niuTable.length 0
  link := List.replicate dev.linkTable.length 0
  mcast := List.replicate dev.linkTable.length 0

/-- Steady-state bandwidth between two table entries, include/npeDeviceModelUtils.hpp:26-29. -/
def steadyBw (fp : FP) (a b : Nat × ℚ) (ps : Nat) : ℚ :=
  let R := fp.f32
  let delta := R.fl ((b.1 : ℚ) - a.1)
  let pct := R.fl (R.fl ((ps : ℚ) - a.1) / delta)
  let valDelta := R.fl (b.2 - a.2)
  R.fl (R.fl (valDelta * pct) + a.2)

/-- Blend of the first packet (peak bandwidth) with the remaining ones,
include/npeDeviceModelUtils.hpp:31-39.  With zero packets the ratio is infinite and the first
assertion fails. -/
def blendBw (fp : FP) (maxBw steady : ℚ) (n : Nat) : Out ℚ :=
  let R := fp.f32
  if n = 0 then .exc .undef
  else
    let steadyRatio := R.fl (R.fl ((n : ℚ) - 1) / R.fl n)
    let firstRatio := R.fl (fp.f64.fl (1 - steadyRatio))
    let sum := R.fl (steadyRatio + firstRatio)
    do
      Out.assert (sum < fp.f64.fl (10001 / 10000))
      Out.assert (fp.f64.fl (999 / 1000) < sum)
      return R.fl (R.fl (firstRatio * maxBw) + R.fl (steadyRatio * steady))

/-- The table search of `interpolateBW`, include/npeDeviceModelUtils.hpp:22-49 (an empty table
would read out of bounds). -/
def interpGo (fp : FP) (maxBw : ℚ) (ps n : Nat) : List (Nat × ℚ) → Out ℚ
  | [] => .ub
  | [a] => if a.1 ≤ ps then .ok a.2 else .exc .undef
  | a :: b :: l =>
    if a.1 ≤ ps ∧ ps ≤ b.1 then blendBw fp maxBw (steadyBw fp a b ps) n
    else interpGo fp maxBw ps n (b :: l)

/-- `interpolateBW`, include/npeDeviceModelUtils.hpp:16-50. -/
def interpolateBW (fp : FP) (tbt : List (Nat × ℚ)) (maxBw : ℚ) (ps n : Nat) : Out ℚ := do
  Out.assert (0 < ps)
  interpGo fp maxBw ps n tbt

/-- `getMaxNoCTransferBandwidth`, wormhole_b0.hpp:380-386, blackhole.hpp:392-398. -/
def Device.maxBw (dev : Device) : ℚ := dev.tbt.foldl (fun m e => max m e.2) 0

/-- Body of the loop of `updateTransferBandwidth`, include/npeDeviceModelUtils.hpp:56-64. -/
def updateBwOne (fp : FP) (dev : Device) (ts : List TState) (id : Nat) : Out (List TState) :=
  match ts[id]? with
  | none => .ub
  | some t =>
    interpolateBW fp dev.tbt dev.maxBw t.params.packetSize t.params.numPackets >>= fun b =>
      .ok (ts.set id { t with bw := min t.params.injectionRate b })

/-- `updateTransferBandwidth`, include/npeDeviceModelUtils.hpp:51-65. -/
def updateTransferBandwidth (fp : FP) (dev : Device) (ts : List TState) (live : List Nat) :
    Out (List TState) := Out.foldlM (updateBwOne fp dev) ts live

/-- `effective_demand`, wormhole_b0.hpp:88-91, wormhole_multichip.hpp:117-120. -/
def effectiveDemand (fp : FP) (sot curr : Nat) (t : TState) : ℚ :=
  let R := fp.f32
  let predicted := max sot t.start
  R.fl (R.fl (R.fl (toU32 ((curr : Int) - predicted)) / R.fl ((curr : ℚ) - sot)) * t.bw)

/-- `grid[id] += x` (an id outside of the vector is undefined behaviour). -/
def addAt (fp : FP) (x : ℚ) (g : List ℚ) (id : Int) : Out (List ℚ) :=
  if id < 0 then .ub
  else match g[id.toNat]? with
    | none => .ub
    | some y => .ok (g.set id.toNat (fp.f32.fl (y + x)))

/-- `grid[id]` -/
def readAt (g : List ℚ) (id : Int) : Out ℚ :=
  if id < 0 then .ub
  else match g[id.toNat]? with
    | none => .ub
    | some y => .ok y

/-- `src_niu_type`, wormhole_b0.hpp:94-96. -/
def srcNiu : Noc → NIUType
  | .noc0 => .noc0Src
  | .noc1 => .noc1Src

/-- `sink_niu_type`, wormhole_b0.hpp:100-102. -/
def sinkNiu : Noc → NIUType
  | .noc0 => .noc0Sink
  | .noc1 => .noc1Sink

/-- The WORKER cores of a multicast destination in iteration order, wormhole_b0.hpp:109-111
and 170-171. -/
def mcastWorkers (dev : Device) (gs : List CoordGrid) : Out (List Coord) := do
  let cs ← mcastCoords gs
  let tys ← Out.mapM dev.getCoreType cs
  return ((cs.zip tys).filter fun p => p.2 = .worker).map (·.1)

/-- The sink network interfaces that a transfer loads, wormhole_b0.hpp:103-116,
wormhole_multichip.hpp:131-144. -/
def sinkIds (dev : Device) (t : Transfer) : Out (List Int) :=
  match t.dst with
  | .unicast d => dev.niuAt d (sinkNiu t.noc) >>= fun i => .ok [i]
  | .mcast gs => mcastWorkers dev gs >>= fun cs => Out.mapM (fun c => dev.niuAt c (sinkNiu t.noc)) cs

/-- Body of the demand loop, wormhole_b0.hpp:83-129, wormhole_multichip.hpp:112-157. -/
def demandOne (fp : FP) (dev : Device) (sot curr : Nat) (ts : List TState) (g : Grids)
    (id : Nat) : Out Grids :=
  match ts[id]? with
  | none => .ub
  | some t => do
    let e := effectiveDemand fp sot curr t
    let src ← dev.niuAt t.params.src (srcNiu t.params.noc)
    let niu ← addAt fp e g.niu src
    let sinks ← sinkIds dev t.params
    let niu ← Out.foldlM (addAt fp e) niu sinks
    let link ← Out.foldlM (addAt fp e) g.link t.route
    let mcast ← if t.params.eventType = "WRITE_MULTICAST" then
        Out.foldlM (addAt fp e) g.mcast t.route else .ok g.mcast
    return { niu := niu, link := link, mcast := mcast }

/-- All demands of a timestep, wormhole_b0.hpp:76-129. -/
def demands (fp : FP) (dev : Device) (sot curr : Nat) (ts : List TState) (live : List Nat) :
    Out Grids :=
  Out.foldlM (demandOne fp dev sot curr ts) (initGrids dev) live

/-- A quotient `limit / demand`; `none` stands for infinity or NaN.  Simplifications: a negative
infinity (negative injection rate, demand zero) counts as infinity, and for NaN (rate and demand
zero, so the bandwidth is zero already) the other factor is used. -/
def derate (fp : FP) (limit demand : ℚ) : Option ℚ :=
  if demand = 0 then none else some (fp.f32.fl (limit / demand))

/-- `std::min` on derate factors, `none` being the largest. -/
def minDerate : Option ℚ → Option ℚ → Option ℚ
  | none, b => b
  | a, none => a
  | some a, some b => some (min a b)

/-- `max_link_demand_on_route`, wormhole_b0.hpp:136-147. -/
def maxLinkDemand (g : Grids) (route : List Int) : Out ℚ :=
  Out.foldlM (fun m l => readAt g.link l >>= fun x => .ok (max m x)) 0 route

/-- `sink_bw_derate`, wormhole_b0.hpp:160-178.  For a multicast the running minimum starts at
0. -/
def sinkDerate (fp : FP) (dev : Device) (g : Grids) (t : Transfer) : Out (Option ℚ) :=
  match t.dst with
  | .unicast d => do
    let i ← dev.niuAt d (sinkNiu t.noc)
    let x ← readAt g.niu i
    let a ← dev.getSinkAbsorptionRate d
    return derate fp a x
  | .mcast _ => do
    let ids ← sinkIds dev t
    let m ← Out.foldlM (fun m i => readAt g.niu i >>= fun x => .ok (min m x)) 0 ids
    return derate fp (dev.absRate .worker) m

/-- The factor that limits a transfer, wormhole_b0.hpp:135-183, wormhole_multichip.hpp:163-212:
smallest of link, source and sink factors. -/
def overallDerate (fp : FP) (dev : Device) (g : Grids) (t : TState) : Out (Option ℚ) := do
  let m ← maxLinkDemand g t.route
  let src ← dev.niuAt t.params.src (srcNiu t.params.noc)
  let sd ← readAt g.niu src
  let sk ← sinkDerate fp dev g t.params
  return minDerate (derate fp dev.linkBw m) (minDerate (derate fp t.params.injectionRate sd) sk)

/-- The update of `curr_bandwidth`: wormhole_b0.hpp:182-186 (in `double`, as
`bw * (1.0 - (1.0f - d))`), wormhole_multichip.hpp:211-214 (`bw * d`). -/
def applyDerate (fp : FP) (dev : Device) (bw : ℚ) (d : Option ℚ) : ℚ :=
  match d with
  | none => bw
  | some d =>
    if d < 1 then
      if dev.multichip then fp.f32.fl (bw * d)
      else fp.f32.fl (fp.f64.fl (bw * fp.f64.fl (1 - fp.f32.fl (1 - d))))
    else bw

/-- Body of the second loop, wormhole_b0.hpp:132-187, wormhole_multichip.hpp:160-215. -/
def derateOne (fp : FP) (dev : Device) (g : Grids) (ts : List TState) (id : Nat) :
    Out (List TState) :=
  match ts[id]? with
  | none => .ub
  | some t => overallDerate fp dev g t >>= fun d =>
      .ok (ts.set id { t with bw := applyDerate fp dev t.bw d })

/-- `modelCongestion`, wormhole_b0.hpp:55-189, blackhole.hpp:67-201,
wormhole_multichip.hpp:90-216. -/
def modelCongestion (fp : FP) (dev : Device) (sot curr : Nat) (ts : List TState)
    (live : List Nat) : Out (List TState × Grids) := do
  let g ← demands fp dev sot curr ts live
  let ts ← Out.foldlM (derateOne fp dev g) ts live
  return (ts, g)

/-- `computeCurrentTransferRate`, wormhole_b0.hpp:197-222, wormhole_multichip.hpp:219-245.
With the model disabled the demand grids keep their values. -/
def computeRates (fp : FP) (dev : Device) (enable : Bool) (sot curr : Nat) (g : Grids)
    (ts : List TState) (live : List Nat) : Out (List TState × Grids) := do
  let ts ← updateTransferBandwidth fp dev ts live
  if enable then modelCongestion fp dev sot curr ts live else .ok (ts, g)

end NPE
