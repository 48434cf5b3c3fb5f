import Verif.Model.GenDeps
import Verif.Model.Stats

/-
The simulation loop: `runSinglePerfSim`, src/npeEngine.cpp:202-361.  Citations relative to
/repo/tt_npe/cpp.

The rate computation is a parameter of the loop (`SimCfg.rates`), so that theorems about the
loop hold for every congestion model; `simConfig` instantiates it with `computeRates`.
-/

namespace NPE

/-- `MAX_CYCLE_LIMIT`, include/npeEngine.hpp:86. -/
def MAX_CYCLE_LIMIT : Nat := 50000000

/-- The signature of `computeCurrentTransferRate`: start and end of the timestep, demand grids,
transfers, live transfers. -/
abbrev Rates := Nat → Nat → Grids → List TState → List Nat → Out (List TState × Grids)

/-- What the loop reads but does not change. -/
structure SimCfg where
  fp : FP
  dev : Device
  /-- `cycles_per_timestep` -/
  cpt : Nat
  golden : GoldenMap
  rates : Rates

/-- What the loop changes. -/
structure Sim where
  ts : List TState
  deps : Tracker
  /-- `transfer_queue`: pairs (start cycle, transfer id) -/
  queue : List (Nat × Nat)
  /-- `live_transfer_ids` -/
  live : List Nat
  grids : Grids
  stats : Stats
  deriving DecidableEq

/-- `std::swap(l[i], l[j])` -/
def swap {α : Type} (l : List α) (i j : Nat) : Out (List α) :=
  match l[i]?, l[j]? with
  | some a, some b => .ok ((l.set i b).set j a)
  | _, _ => .ub

/-- State of the activation scan, src/npeEngine.cpp:235-236. -/
structure Scan where
  ts : List TState
  queue : List (Nat × Nat)
  live : List Nat
  activated : Nat
  deriving DecidableEq

/-- The adjusted start cycle, src/npeEngine.cpp:242-247. -/
def startAfterDep (deps : Tracker) (t : TState) : Out Nat :=
  if Tracker.defined t.dependsOn then
    deps.endCyclePlusDelay t.dependsOn >>= fun e => .ok (max t.start e)
  else .ok t.start

/-- The activation scan, src/npeEngine.cpp:237-253: position `i` runs from the end of the queue
to its beginning and stops at the first entry that starts later.  The first argument is `i + 1`.
`swap_pos` is the size minus one minus the number activated so far. -/
def scanGo (deps : Tracker) (curr : Nat) : Nat → Scan → Out Scan
  | 0, s => .ok s
  | i + 1, s =>
    match s.queue[i]? with
    | none => .ub
    | some q =>
      if q.1 ≤ curr then
        match s.ts[q.2]? with
        | none => .ub
        | some t =>
          deps.done t.dependsOn curr >>= fun d =>
            if d then do
              let start ← startAfterDep deps t
              let queue ← swap s.queue (s.queue.length - 1 - s.activated) i
              scanGo deps curr i
                { ts := s.ts.set q.2 { t with start := start }
                  queue := queue
                  live := s.live ++ [q.2]
                  activated := s.activated + 1 }
            else scanGo deps curr i s
      else .ok s

/-- The activation phase, src/npeEngine.cpp:234-256. -/
def activate (curr : Nat) (s : Sim) : Out Sim := do
  let r ← scanGo s.deps curr s.queue.length
    { ts := s.ts, queue := s.queue, live := s.live, activated := 0 }
  return { s with
    ts := r.ts, live := r.live, queue := r.queue.take (r.queue.length - r.activated) }

/-- Conversion of a `float` to `size_t` (undefined outside of its range). -/
def toSize (x : ℚ) : Out Nat :=
  if -1 < x ∧ x < 18446744073709551616 then .ok x.floor.toNat else .ub

/-- `cycles_active_in_curr_timestep`, src/npeEngine.cpp:282-292.  Differences of cycle counts
are 32-bit; `prev_start_of_timestep` wraps around in the first timestep, where no cycle lies in
the (empty) previous one (lines 226-230). -/
def cyclesActive (cpt curr sot : Nat) (t : TState) (deps : Tracker) : Out Nat :=
  let plain := min cpt (toU32 ((curr : Int) - t.start))
  if Tracker.defined t.dependsOn then
    deps.endCycle t.dependsOn >>= fun e =>
      if t.start < sot ∧ (cpt ≤ sot ∧ sot - cpt ≤ e ∧ e < sot) then
        let c := toU32 ((curr : Int) - max t.start e)
        do
          Out.assert (cpt ≤ c)
          Out.assert (c ≤ 2 * cpt % 4294967296)
          return c
      else .ok plain
  else .ok plain

/-- `transfer_end_cycle`, src/npeEngine.cpp:302-308: the sum is formed in `float`.  Zero
bandwidth gives `0 / 0` here (a transfer of zero bytes), whose conversion is undefined. -/
def transferEnd (fp : FP) (sot : Nat) (t : TState) (bytes : Nat) : Out Nat :=
  let R := fp.f32
  if t.bw = 0 then .ub
  else
    let cycles : ℚ := (R.fl (R.fl bytes / t.bw)).ceil
    toSize (R.fl (R.fl (max t.start sot : Nat) + cycles))

/-- State of the update loop. -/
structure Upd where
  ts : List TState
  deps : Tracker
  stats : Stats
  deriving DecidableEq

/-- Lines 301-318 of src/npeEngine.cpp: what happens when a transfer completes. -/
def completeOne (cfg : SimCfg) (sot : Nat) (u : Upd) (id : Nat) (t : TState) (bytes : Nat) :
    Out Upd := do
  let e ← transferEnd cfg.fp sot t bytes
  let t := { t with endc := e % 4294967296 }
  let deps ← Out.foldlM (fun tk c => Tracker.update tk c (e % 4294967296)) u.deps t.requiredBy
  let g ← cfg.golden.at t.params.src.dev
  let stats := u.stats.updateWorst t.params.src.dev t.params.offset t.endc g
  let gm ← cfg.golden.at MESH_DEVICE
  let stats := stats.updateWorst MESH_DEVICE t.params.offset t.endc gm
  return { ts := u.ts.set id t, deps := deps, stats := stats }

/-- Body of the update loop, src/npeEngine.cpp:277-319. -/
def updateOne (cfg : SimCfg) (curr sot : Nat) (u : Upd) (id : Nat) : Out Upd :=
  match u.ts[id]? with
  | none => .ub
  | some t => do
    let d ← u.deps.done t.dependsOn curr
    Out.assert d
    let remaining := t.params.totalBytes - t.moved
    let c ← cyclesActive cfg.cpt curr sot t u.deps
    let maxBytes ← toSize (cfg.fp.f32.fl (cfg.fp.f32.fl c * t.bw))
    let bytes := min remaining maxBytes
    let t := { t with moved := t.moved + bytes }
    if t.params.totalBytes = t.moved then completeOne cfg sot u id t bytes
    else .ok { u with ts := u.ts.set id t }

/-- `transfer_complete`, src/npeEngine.cpp:322-325. -/
def isComplete (ts : List TState) (id : Nat) : Bool :=
  match ts[id]? with
  | some t => t.moved = t.params.totalBytes
  | none => false

/-- One iteration of the loop up to the test for completion, src/npeEngine.cpp:226-328. -/
def stepSim (cfg : SimCfg) (curr : Nat) (s : Sim) : Out Sim := do
  let sot := curr - cfg.cpt
  let stats ← s.stats.insertTimestep cfg.golden sot curr
  let s ← activate curr { s with stats := stats }
  let (ts, grids) ← cfg.rates sot curr s.grids s.ts s.live
  let stats ← s.stats.updateSim cfg.dev grids s.live
  let u ← Out.foldlM (updateOne cfg curr sot) { ts := ts, deps := s.deps, stats := stats } s.live
  return { s with
    ts := u.ts, deps := u.deps, stats := u.stats, grids := grids
    live := s.live.filter fun id => !isComplete u.ts id }

/-- Outcome of the loop. -/
inductive Ending where
  /-- all transfers done; final state and clock (src/npeEngine.cpp:333-343) -/
  | finished (s : Sim) (curr : Nat)
  /-- EXCEEDED_SIM_CYCLE_LIMIT (src/npeEngine.cpp:345-347) -/
  | limit (s : Sim) (curr : Nat)
  deriving DecidableEq

/-- The loop, src/npeEngine.cpp:225-352.  `fuel` bounds the number of iterations (theorem
`C13_terminates` gives a sufficient amount). -/
def simLoop (cfg : SimCfg) : Nat → Nat → Sim → Out Ending
  | 0, _, _ => .diverge
  | fuel + 1, curr, s =>
    stepSim cfg curr s >>= fun s' =>
      if s'.live = [] ∧ s'.queue = [] then .ok (.finished s' curr)
      else if MAX_CYCLE_LIMIT < curr then .ok (.limit s' curr)
      else simLoop cfg fuel (curr + cfg.cpt) s'

/-- Iterations that suffice for a positive timestep. -/
def simFuel : Nat := MAX_CYCLE_LIMIT + 2

/-- The hash orders that the standard library leaves open: iteration over the link set of a
multicast and over the map of buckets. -/
structure HashOrder where
  links : List Int → List Int
  buckets : List BucketKey → List BucketKey

/-- State before the first iteration, src/npeEngine.cpp:204-224. -/
def initSim (fp : FP) (dev : Device) (ho : HashOrder) (wl : Workload) : Out Sim := do
  let ts ← initTransferState dev ho.links wl
  let queue := createTransferQueue ts
  let (ts, deps) ← genDependencies fp dev ho.buckets ts
  return { ts := ts, deps := deps, queue := queue, live := [], grids := initGrids dev,
           stats := Stats.init dev }

/-- The loop parameters of a run. -/
def simConfig (fp : FP) (dev : Device) (cpt : Nat) (golden : GoldenMap) (congestion : Bool) :
    SimCfg where
  fp := fp
  dev := dev
  cpt := cpt
  golden := golden
  rates := computeRates fp dev congestion

/-- Set-up followed by the loop, for an arbitrary rate computation, src/npeEngine.cpp:204-352. -/
def runLoop (cfg : SimCfg) (ho : HashOrder) (wl : Workload) : Out Ending := do
  let s ← initSim cfg.fp cfg.dev ho wl
  simLoop cfg simFuel cfg.cpt s

/-- `runSinglePerfSim` up to `computeSummaryStats`, src/npeEngine.cpp:202-352.  `inr` is the
returned `npeException`. -/
def runSingle (fp : FP) (dev : Device) (ho : HashOrder) (cpt : Nat) (congestion : Bool)
    (wl : Workload) : Out (Sum (Sim × Stats) ErrCode) := do
  let e ← runLoop (simConfig fp dev cpt wl.golden congestion) ho wl
  match e with
  | .finished s _ => do
    let st ← s.stats.finish wl.golden cpt
    return .inl (s, st)
  | .limit _ _ => return .inr .exceededSimCycleLimit

end NPE
