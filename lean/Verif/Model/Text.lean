import Verif.Model.Format
import Verif.Model.Summary

/-
The texts of statistics and of a configuration: `deviceStats::to_string` and `getEthBwUtilPerCoreStr`,
src/npeStats.cpp:32-34, 87-120 and 887-905, `npeConfig::to_string`, include/npeConfig.hpp:40-70.  Citations relative to
/repo/tt_npe/cpp.

Simplifications: the sign of a NaN and of a zero is not modelled (`fmt` prints "-nan" and "-0.0"); which tenth is taken
for a number in the middle between two is a parameter.
-/

namespace NPE.Text

/-- A text in a field of at least `n` places, to the right: `{:5...}`. -/
def right (n : Nat) (cs : List Char) : List Char := List.replicate (n - cs.length) ' ' ++ cs

/-- `{:.1f}` of a nonnegative number of tenths. -/
def tenths (t : Nat) : List Char := Nat.toDigits 10 (t / 10) ++ '.' :: Nat.toDigits 10 (t % 10)

/-- `{:.1f}` of a `double`.  `nt` is the number of tenths of a nonnegative number, to the nearest one. -/
def figure (nt : ℚ → Nat) : Dbl → List Char
  | .num x => if x < 0 then '-' :: tenths (nt (-x)) else tenths (nt x)
  | .nan => "nan".toList
  | .inf => "inf".toList
  | .ninf => "-inf".toList

/-- A line with a figure in percent: `{:5.1f}%`. -/
def percent (nt : ℚ → Nat) (label : String) (x : Dbl) (after : String) : List Char :=
  label.toList ++ right 5 (figure nt x) ++ '%' :: after.toList ++ ['\n']

/-- A line with a count: `{:5d}`. -/
def count (label : String) (n : Nat) (after : String) : List Char :=
  label.toList ++ right 5 (Nat.toDigits 10 n) ++ after.toList ++ ['\n']

/-- `deviceStats::to_string`, src/npeStats.cpp:87-120; `wall` is `wallclock_runtime_us`. -/
def stats (nt : ℚ → Nat) (wall : Nat) (verbose : Bool) (r : DevReport) : List Char :=
  percent nt "  congestion impact: " (.num r.stats.congestionImpact) "" ++
  count "   estimated cycles: " r.stats.estimated "" ++
  count "      golden cycles: " r.stats.golden "" ++
  (if 0 < r.stats.golden then percent nt "   cycle pred error: " r.summary.cyclePredictionError "" else []) ++
  "\n".toList ++
  percent nt "       DRAM BW Util: " r.summary.dramUtil " (using golden)" ++
  percent nt "       DRAM BW Util: " r.summary.dramUtilSim " (using estimated)" ++
  percent nt "        ETH BW Util: " r.summary.aggregateEthUtil "" ++
  "\n".toList ++
  percent nt "      avg Link util: " r.summary.avgLinkUtil "" ++
  percent nt " avg Mcast link util: " r.summary.avgMcastUtil "" ++
  percent nt "      max Link util: " (.num r.summary.maxLinkUtil) "" ++
  "\n".toList ++
  percent nt "    avg Link demand: " r.summary.avgLinkDemand "" ++
  percent nt "    max Link demand: " (.num r.summary.maxLinkDemand) "" ++
  "\n".toList ++
  percent nt "    avg NIU  demand: " r.summary.avgNiuDemand "" ++
  percent nt "    max NIU  demand: " (.num r.summary.maxNiuDemand) "" ++
  (if verbose then "\n".toList ++ count "   wallclock time: " wall " us" else [])

/-- `npeStats::to_string`, src/npeStats.cpp:32-34: that of the mesh; `at` throws without one. -/
def report (nt : ℚ → Nat) (wall : Nat) (verbose : Bool) (r : Report) : Out (List Char) :=
  match r.lookup MESH_DEVICE with
  | none => .std .outOfRange
  | some d => .ok (stats nt wall verbose d)

/-- The order of `std::sort` in `getEthBwUtilPerCoreStr`, src/npeStats.cpp:894-898. -/
def before (a b : Coord × Dbl) : Bool :=
  decide (a.1.dev < b.1.dev ∨ a.1.dev = b.1.dev ∧ (a.1.row < b.1.row ∨ a.1.row = b.1.row ∧ a.1.col < b.1.col))

/-- One core, src/npeStats.cpp:902: `({},{},{}):{:.1f}%`. -/
def core (nt : ℚ → Nat) (e : Coord × Dbl) : List Char :=
  '(' :: Format.int e.1.dev ++ ',' :: Format.int e.1.row ++ ',' :: Format.int e.1.col ++ ')' :: ':' :: figure nt e.2 ++ ['%']

/-- The loop over the cores, src/npeStats.cpp:900-903. -/
def cores (nt : ℚ → Nat) (l : List (Coord × Dbl)) : List Char :=
  l.foldl (fun cs e => (if cs ≠ [] then cs ++ [' '] else cs) ++ core nt e) []

/-- `getEthBwUtilPerCoreStr`, src/npeStats.cpp:887-905.  `l`: the entries of the hash map in its order; the sort is a
stable one, which makes no difference for different cores. -/
def ethPerCore (nt : ℚ → Nat) (l : List (Coord × Dbl)) : List Char :=
  if l = [] then ['-'] else cores nt (sortBy (fun a b => !before b a) l)

/-- `npeConfig`, include/npeConfig.hpp:15-34. -/
structure FullConfig where
  deviceName : List Char := "wormhole_b0".toList
  congestionModel : List Char := "fast".toList
  workloadJson : List Char := []
  cyclesPerTimestep : Nat := 128
  verbosity : Nat := 0
  visualizations : Bool := false
  inferInjectionRate : Bool := true
  emit : Bool := false
  estimateCongImpact : Bool := true
  isTrace : Bool := false
  removeLocal : Bool := false
  compress : Bool := false
  legacy : Bool := false
  timelinePath : List Char := []
  scaleSchedule : ℚ := 0
  topology : List Char := []
  splitThreshold : Nat := 10000
  deriving DecidableEq

/-- `setVerbosityLevel`, include/npeConfig.hpp:36-39. -/
def FullConfig.setVerbosity (c : FullConfig) (v : Int) : FullConfig := { c with verbosity := (min (max v 0) 3).toNat }

/-- `{}` of a `bool`. -/
def bool (b : Bool) : List Char := (if b then "true" else "false").toList

/-- `"{}"` -/
def quoted (cs : List Char) : List Char := '"' :: cs ++ ['"']

/-- A line of `npeConfig::to_string`. -/
def setting (name : String) (value : List Char) : List Char := '\n' :: name.toList ++ value

/-- `npeConfig::to_string`, include/npeConfig.hpp:40-70; `flt` is `{}` of a `float`. -/
def config (flt : ℚ → List Char) (c : FullConfig) : List Char :=
  "Config {".toList ++
  setting "  verbosity                          = " (List.replicate c.verbosity 'v') ++
  setting "  device_name                        = " c.deviceName ++
  "\n".toList ++
  setting "  workload_is_noc_trace              = " (bool c.isTrace) ++
  setting "  workload_json                      = " (quoted c.workloadJson) ++
  setting "  emit_timeline_file                 = " (bool c.emit) ++
  setting "  timeline_filepath                  = " (quoted c.timelinePath) ++
  "\n".toList ++
  setting "  congestion_model_name              = " c.congestionModel ++
  setting "  estimate_cong_impact               = " (bool c.estimateCongImpact) ++
  setting "  cycles_per_timestep                = " (Nat.toDigits 10 c.cyclesPerTimestep) ++
  setting "  infer_injection_rate_from_src      = " (bool c.inferInjectionRate) ++
  "\n".toList ++
  setting "  compress_timeline_output_file      = " (bool c.compress) ++
  setting "  enable_visualizations              = " (bool c.visualizations) ++
  setting "  remove_localized_unicast_transfers = " (bool c.removeLocal) ++
  setting "  scale_workload_schedule            = " (flt c.scaleSchedule) ++
  setting "  use_legacy_timeline_format         = " (bool c.legacy) ++
  setting "  topology_json                      = " (quoted c.topology) ++
  setting "  timeline_split_threshold_timesteps = " (Nat.toDigits 10 c.splitThreshold) ++
  "\n}".toList

end NPE.Text
