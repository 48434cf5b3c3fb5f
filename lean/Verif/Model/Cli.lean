import Verif.Model.Document

/-
The command line program, tt_npe/py/pycli/tt_npe.py, and the bindings that it uses,
tt_npe/cpp/pybind/bindings.cpp.  Citations relative to /repo/tt_npe.

Simplifications: what is printed is not modelled; the options are given as values, except that `argparse` refuses
strings that are not among the choices; `scale` is the number after the conversion to `float`.  An exception that
nobody catches ends Python with status 1; pybind11 turns every C++ exception into one of Python.
-/

namespace NPE.Cli

/-- The options with their defaults, py/pycli/tt_npe.py:18-107. -/
structure Args where
  cycles : Int := 32
  device : String := "wormhole_b0"
  congModel : String := "fast"
  workload : String := ""
  noInference : Bool := false
  emit : Bool := false
  isTrace : Bool := false
  compress : Bool := false
  scale : ℚ := 0
  timelinePath : String := "npe_timeline.json"
  legacy : Bool := false

/-- The files under the paths of the options, and the user's answer to a question (see `InputFile`). -/
structure World where
  workload : InputFile
  topology : InputFile
  answer : Bool

/-- `choices` of `--device`, py/pycli/tt_npe.py:31. -/
def devices : List String := ["wormhole_b0", "N150", "N300", "T3K", "blackhole", "P100", "P150"]

/-- `choices` of `--cong-model`, py/pycli/tt_npe.py:39. -/
def models : List String := ["none", "fast"]

/-- The attributes of `npe.Stats`, cpp/pybind/bindings.cpp:158-169. -/
def statsAttributes : List String := ["per_device_stats"]

/-- The fields of `npe.Config` that are set from the options, py/pycli/tt_npe.py:121-134.  The number of cycles is
converted to `uint32_t`, where pybind11 refuses numbers out of range. -/
def Args.config (a : Args) : Out Config :=
  if 0 ≤ a.cycles ∧ a.cycles < 4294967296 then
    .ok { deviceName := a.device, congestionModel := a.congModel, cyclesPerTimestep := a.cycles.toNat,
          inferInjectionRate := !a.noInference, scaleSchedule := a.scale }
  else .std .pyType

/-- The same for the timeline. -/
def Args.timeline (a : Args) (w : World) : TimelineConfig where
  emit := a.emit
  path := a.timelinePath.toList
  workloadJson := a.workload.toList
  compress := a.compress
  legacy := a.legacy
  topology := w.topology

/-- `InitAPI`, cpp/pybind/bindings.cpp:26-36. -/
def initApi (fp : FP) (cfg : Config) : Out (Option Api) :=
  match Api.make fp cfg with
  | .ok api => .ok (some api)
  | .exc _ => .ok none
  | .std e => .std e
  | .exit => .exit
  | .ub => .ub
  | .diverge => .diverge

/-- `result.name` for statistics. -/
def statsAttribute (name : String) : Out Unit :=
  if name ∈ statsAttributes then .ok () else .std .pyAttribute

/-- The report at the end, py/pycli/tt_npe.py:159-165, with the status that the program ends with. -/
def finish : Result → Out Nat
  | .inl _ => statsAttribute "wallclock_runtime_us" >>= fun _ => .ok 0
  | .inr _ => .ok 0

/-- Lines 146-165 of py/pycli/tt_npe.py. -/
def simulate (fp : FP) (ho : HashOrder) (ord : List (Int × List Int) → List (Int × List Int)) (w : World) (a : Args)
    (cfg : Config) : Out Nat :=
  createWorkload fp w.answer a.workload a.device a.isTrace w.workload >>= fun wl =>
    match wl with
    | none => .ok 1
    | some wl => initApi fp cfg >>= fun api =>
      match api with
      | none => .ok 1
      | some api => api.runNPEFiles fp ho ord (a.timeline w) wl >>= fun r => finish r.1

/-- `main`, py/pycli/tt_npe.py:117-165.  `argparse` ends the program with status 2. -/
def main (fp : FP) (ho : HashOrder) (ord : List (Int × List Int) → List (Int × List Int)) (w : World) (a : Args) :
    Out Nat :=
  if a.device ∉ devices ∨ a.congModel ∉ models then .ok 2
  else a.config >>= fun cfg =>
    if a.workload = "" then .ok 1 else simulate fp ho ord w a cfg

/-- The exit status of the process. -/
def exitStatus : Out Nat → Out Nat
  | .exc _ => .ok 1
  | .std _ => .ok 1
  | .exit => .ok 1
  | x => x

end NPE.Cli
