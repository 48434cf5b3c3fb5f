import Verif.Model.Summary

/-
The public interface: src/npeAPI.cpp, include/npeConfig.hpp and `runPerfEstimation`,
src/npeEngine.cpp:172-200.  Citations relative to /repo/tt_npe/cpp.

Not modelled: the timeline file (see Model/Timeline.lean for its contents), verbosity and the
wall-clock time.
-/

namespace NPE

/-- The fields of `npeConfig` that influence the result, include/npeConfig.hpp:16-38. -/
structure Config where
  deviceName : String := "wormhole_b0"
  congestionModel : String := "fast"
  cyclesPerTimestep : Nat := 128
  inferInjectionRate : Bool := true
  estimateCongImpact : Bool := true
  removeLocal : Bool := false
  /-- `scale_workload_schedule`, 0 when scaling is off -/
  scaleSchedule : ℚ := 0

/-- A constructed `npeAPI`. -/
structure Api where
  cfg : Config
  dev : Device

/-- `validateConfig`, src/npeAPI.cpp:15-27 (`cycles_per_timestep` is unsigned, so `<= 0` means
zero). -/
def Config.validate (cfg : Config) : Out Unit :=
  if cfg.cyclesPerTimestep ≤ 0 then .exc .invalidConfig
  else if cfg.congestionModel ≠ "none" ∧ cfg.congestionModel ≠ "fast" then .exc .invalidConfig
  else .ok ()

/-- Constructor, src/npeAPI.cpp:11-13: the engine (and with it the device model,
src/npeEngine.cpp:20-23) is created before the configuration is validated. -/
def Api.make (fp : FP) (cfg : Config) : Out Api := do
  let dev ← createDeviceModel fp cfg.deviceName
  cfg.validate
  return ⟨cfg, dev⟩

/-- `preprocessWorkload`, src/npeAPI.cpp:29-40. -/
def Api.preprocess (fp : FP) (api : Api) (wl : Workload) : Out Workload :=
  (if api.cfg.inferInjectionRate then wl.inferInjectionRates api.dev else .ok wl) >>= fun wl =>
  (if api.cfg.scaleSchedule ≠ 0 then wl.scaleWorkloadSchedule fp api.cfg.scaleSchedule
    else .ok wl) >>= fun wl =>
  .ok (if api.cfg.removeLocal then wl.removeLocalUnicastTransfers else wl)

/-- `npeResult`: statistics or an `npeException`. -/
abbrev Result := Sum Report ErrCode

/-- `runSinglePerfSim`, src/npeEngine.cpp:202-361, with the congestion model switched on or off
(line 207). -/
def Api.runSim (fp : FP) (ho : HashOrder) (api : Api) (congestion : Bool) (wl : Workload) :
    Out Result := do
  match ← runSingle fp api.dev ho api.cfg.cyclesPerTimestep congestion wl with
  | .inl (_, st) => do
    let r ← st.report api.dev wl
    return .inl r
  | .inr e => return .inr e

/-- Line 193 of src/npeEngine.cpp: `estimated_cong_free_cycles` of the congested run is set to its
own `estimated_cycles`. -/
def setCongFree (r : Report) : Report :=
  r.map fun e =>
    (e.1, { e.2 with stats := { e.2.stats with estimatedCongFree := e.2.stats.estimated } })

/-- `runPerfEstimation`, src/npeEngine.cpp:172-200. -/
def Api.runPerf (fp : FP) (ho : HashOrder) (api : Api) (wl : Workload) : Out Result :=
  let congested := decide (api.cfg.congestionModel ≠ "none")
  if api.cfg.estimateCongImpact then
    api.runSim fp ho congested wl >>= fun r =>
      match r with
      | .inr e => .ok (.inr e)
      | .inl st => api.runSim fp ho false wl >>= fun r' =>
        match r' with
        | .inr _ => .ok (.inl st)
        | .inl _ => .ok (.inl (setCongFree st))
  else api.runSim fp ho congested wl

/-- The `try`/`catch` of `runNPE`, src/npeAPI.cpp:49-53: only `npeException` is caught. -/
def catchNpe (x : Out Result) : Out Result :=
  match x with
  | .exc e => .ok (.inr e)
  | x => x

/-- `runNPE`, src/npeAPI.cpp:42-54. -/
def Api.runNPE (fp : FP) (ho : HashOrder) (api : Api) (wl : Workload) : Out Result := do
  let wl ← api.preprocess fp wl
  let v ← wl.validate api.dev
  if v then catchNpe (api.runPerf fp ho wl)
  else return .inr .workloadValidationFailed

end NPE
