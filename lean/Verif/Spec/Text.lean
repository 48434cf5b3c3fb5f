import Verif.Model.Text
import Verif.Spec.Format

/-
Readers for the texts of statistics and configurations, independent of the functions that print them.
-/

namespace NPE.Spec.Text

/-- A decimal number with a point. -/
def readDecimal (cs : List Char) : Option (ℚ × List Char) := do
  let (w, cs) ← readNat cs
  let cs ← expect ".".toList cs
  let (f, rest) ← readNat cs
  return ((w : ℚ) + f / 10 ^ (cs.takeWhile Char.isDigit).length, rest)

/-- A figure with a sign, or one that is not a number. -/
def readFigure (cs : List Char) : Option (Dbl × List Char) :=
  match cs with
  | 'n' :: 'a' :: 'n' :: r => some (.nan, r)
  | 'i' :: 'n' :: 'f' :: r => some (.inf, r)
  | '-' :: 'i' :: 'n' :: 'f' :: r => some (.ninf, r)
  | '-' :: r => (readDecimal r).map fun p => (.num (-p.1), p.2)
  | r => (readDecimal r).map fun p => (.num p.1, p.2)

/-- Without the spaces at the beginning. -/
def skip (cs : List Char) : List Char := cs.dropWhile (· = ' ')

/-- A line that ends with a figure in percent and a remark. -/
def percentLine (label after : String) (cs : List Char) : Option (Dbl × List Char) := do
  let cs ← expect label.toList cs
  let (x, cs) ← readFigure (skip cs)
  let cs ← expect ("%".toList ++ after.toList ++ "\n".toList) cs
  return (x, cs)

/-- A line that ends with a count and a remark. -/
def countLine (label after : String) (cs : List Char) : Option (Nat × List Char) := do
  let cs ← expect label.toList cs
  let (x, cs) ← readNat (skip cs)
  let cs ← expect (after.toList ++ "\n".toList) cs
  return (x, cs)

/-- What the text of statistics says. -/
structure View where
  impact : Dbl
  estimated : Nat
  golden : Nat
  predError : Option Dbl
  dram : Dbl
  dramSim : Dbl
  eth : Dbl
  avgUtil : Dbl
  avgMcast : Dbl
  maxUtil : Dbl
  avgDemand : Dbl
  maxDemand : Dbl
  avgNiu : Dbl
  maxNiu : Dbl
  wall : Option Nat
  deriving DecidableEq

/-- The line of the prediction error may be missing. -/
def maybeLine (label : String) (cs : List Char) : Option Dbl × List Char :=
  match percentLine label "" cs with
  | some (x, cs) => (some x, cs)
  | none => (none, cs)

/-- The time at the end may be missing. -/
def readWall (cs : List Char) : Option (Option Nat) :=
  if cs = [] then some none
  else do
    let cs ← expect "\n".toList cs
    let (n, cs) ← countLine "   wallclock time: " " us" cs
    if cs = [] then some (some n) else none

/-- The text of statistics. -/
def readStats (cs : List Char) : Option View := do
  let (impact, cs) ← percentLine "  congestion impact: " "" cs
  let (estimated, cs) ← countLine "   estimated cycles: " "" cs
  let (golden, cs) ← countLine "      golden cycles: " "" cs
  let (predError, cs) := maybeLine "   cycle pred error: " cs
  let cs ← expect "\n".toList cs
  let (dram, cs) ← percentLine "       DRAM BW Util: " " (using golden)" cs
  let (dramSim, cs) ← percentLine "       DRAM BW Util: " " (using estimated)" cs
  let (eth, cs) ← percentLine "        ETH BW Util: " "" cs
  let cs ← expect "\n".toList cs
  let (avgUtil, cs) ← percentLine "      avg Link util: " "" cs
  let (avgMcast, cs) ← percentLine " avg Mcast link util: " "" cs
  let (maxUtil, cs) ← percentLine "      max Link util: " "" cs
  let cs ← expect "\n".toList cs
  let (avgDemand, cs) ← percentLine "    avg Link demand: " "" cs
  let (maxDemand, cs) ← percentLine "    max Link demand: " "" cs
  let cs ← expect "\n".toList cs
  let (avgNiu, cs) ← percentLine "    avg NIU  demand: " "" cs
  let (maxNiu, cs) ← percentLine "    max NIU  demand: " "" cs
  let wall ← readWall cs
  return ⟨impact, estimated, golden, predError, dram, dramSim, eth, avgUtil, avgMcast, maxUtil, avgDemand, maxDemand,
    avgNiu, maxNiu, wall⟩

/-- Equal up to half a tenth; what is not a number is the same. -/
def Close : Dbl → Dbl → Prop
  | .num a, .num b => |a - b| ≤ 1 / 20
  | .nan, .nan => True
  | .inf, .inf => True
  | .ninf, .ninf => True
  | _, _ => False

/-- The law of printing with one decimal: the nearest tenth. -/
def Nearest (nt : ℚ → Nat) : Prop := ∀ x, 0 ≤ x → |10 * x - nt x| ≤ 1 / 2

/-- One core: `(device,row,col):figure%`. -/
def readCore (cs : List Char) : Option ((Coord × Dbl) × List Char) := do
  let cs ← expect "(".toList cs
  let (d, cs) ← readInt cs
  let cs ← expect ",".toList cs
  let (r, cs) ← readInt cs
  let cs ← expect ",".toList cs
  let (c, cs) ← readInt cs
  let cs ← expect "):".toList cs
  let (x, cs) ← readFigure cs
  let cs ← expect "%".toList cs
  return ((⟨d, r, c⟩, x), cs)

/-- Cores separated by spaces. -/
def readCores : Nat → List Char → Option (List (Coord × Dbl))
  | 0, _ => none
  | fuel + 1, cs => do
    let (e, cs) ← readCore cs
    if cs = [] then return [e]
    else do
      let cs ← expect " ".toList cs
      let es ← readCores fuel cs
      return e :: es

/-- The text of `getEthBwUtilPerCoreStr`. -/
def readEth (cs : List Char) : Option (List (Coord × Dbl)) :=
  if cs = "-".toList then some [] else readCores cs.length cs

/-- Device, row and column, in this order of importance. -/
def Ascending (l : List (Coord × Dbl)) : Prop :=
  l.Pairwise fun a b => a.1.dev < b.1.dev ∨
    a.1.dev = b.1.dev ∧ (a.1.row < b.1.row ∨ a.1.row = b.1.row ∧ a.1.col < b.1.col)

/-- A setting in the text of a configuration: the rest of its line. -/
def settingLine (name : String) (cs : List Char) : Option (List Char × List Char) := do
  let cs ← expect ("\n".toList ++ name.toList) cs
  return (cs.takeWhile (· ≠ '\n'), cs.dropWhile (· ≠ '\n'))

/-- A truth value. -/
def boolLine (name : String) (cs : List Char) : Option (Bool × List Char) := do
  let (v, cs) ← settingLine name cs
  if v = "true".toList then some (true, cs) else if v = "false".toList then some (false, cs) else none

/-- A text in quotes. -/
def quotedLine (name : String) (cs : List Char) : Option (List Char × List Char) := do
  let (v, cs) ← settingLine name cs
  if 2 ≤ v.length ∧ v.head? = some '"' ∧ v.getLast? = some '"' then some (v.tail.dropLast, cs) else none

/-- A number. -/
def natLine (name : String) (cs : List Char) : Option (Nat × List Char) := do
  let (v, cs) ← settingLine name cs
  let (n, r) ← readNat v
  if r = [] then some (n, cs) else none

/-- The text of a configuration; `rd` reads a `float`. -/
def readConfig (rd : List Char → Option ℚ) (cs : List Char) : Option NPE.Text.FullConfig := do
  let cs ← expect "Config {".toList cs
  let (vs, cs) ← settingLine "  verbosity                          = " cs
  let (deviceName, cs) ← settingLine "  device_name                        = " cs
  let cs ← expect "\n".toList cs
  let (isTrace, cs) ← boolLine "  workload_is_noc_trace              = " cs
  let (workloadJson, cs) ← quotedLine "  workload_json                      = " cs
  let (emit, cs) ← boolLine "  emit_timeline_file                 = " cs
  let (timelinePath, cs) ← quotedLine "  timeline_filepath                  = " cs
  let cs ← expect "\n".toList cs
  let (congestionModel, cs) ← settingLine "  congestion_model_name              = " cs
  let (estimateCongImpact, cs) ← boolLine "  estimate_cong_impact               = " cs
  let (cyclesPerTimestep, cs) ← natLine "  cycles_per_timestep                = " cs
  let (inferInjectionRate, cs) ← boolLine "  infer_injection_rate_from_src      = " cs
  let cs ← expect "\n".toList cs
  let (compress, cs) ← boolLine "  compress_timeline_output_file      = " cs
  let (visualizations, cs) ← boolLine "  enable_visualizations              = " cs
  let (removeLocal, cs) ← boolLine "  remove_localized_unicast_transfers = " cs
  let (f, cs) ← settingLine "  scale_workload_schedule            = " cs
  let scaleSchedule ← rd f
  let (legacy, cs) ← boolLine "  use_legacy_timeline_format         = " cs
  let (topology, cs) ← quotedLine "  topology_json                      = " cs
  let (splitThreshold, cs) ← natLine "  timeline_split_threshold_timesteps = " cs
  if cs = "\n}".toList then
    return { deviceName, congestionModel, workloadJson, cyclesPerTimestep, verbosity := vs.length, visualizations,
             inferInjectionRate, emit, estimateCongImpact, isTrace, removeLocal, compress, legacy, timelinePath,
             scaleSchedule, topology, splitThreshold }
  else none

/-- No text of the configuration has several lines. -/
structure OneLine (c : NPE.Text.FullConfig) : Prop where
  device : '\n' ∉ c.deviceName
  model : '\n' ∉ c.congestionModel
  workload : '\n' ∉ c.workloadJson
  timeline : '\n' ∉ c.timelinePath
  topology : '\n' ∉ c.topology

end NPE.Spec.Text
