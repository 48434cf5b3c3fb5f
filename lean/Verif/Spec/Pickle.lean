import Verif.Model.Pickle

/-
Statistics that the C++ types can hold, and the attributes of the Python class.
-/

namespace NPE.Spec

/-- The value fits a signed 16-bit variable. -/
def Short (n : Int) : Prop := -32768 ≤ n ∧ n < 32768

/-- The value fits a `size_t`. -/
def Size (n : Nat) : Prop := n < 18446744073709551616

instance (n : Int) : Decidable (Short n) := by unfold Short; infer_instance

instance (n : Nat) : Decidable (Size n) := by unfold Size; infer_instance

/-- A `deviceStats` object: counters have 64 bits, coordinates have 16 bits, the ethernet table is a map. -/
structure Storable (s : PyStats) : Prop where
  estimated : Size s.estimatedCycles
  congFree : Size s.estimatedCongFreeCycles
  golden : Size s.goldenCycles
  wall : Size s.wallclockRuntimeUs
  keys : (s.ethUtil.map (·.1)).Nodup
  cores : ∀ e ∈ s.ethUtil, Short e.1.dev ∧ Short e.1.row ∧ Short e.1.col

/-- The scalar attributes of `DeviceStats`, pybind/bindings.cpp:45-65. -/
inductive Attr where
  | flag (b : Bool)
  | count (n : Nat)
  | figure (x : Dbl)
  deriving DecidableEq

/-- `getattr(stats, name)`. -/
def getAttr (s : PyStats) : String → Option Attr
  | "completed" => some (.flag s.completed)
  | "estimated_cycles" => some (.count s.estimatedCycles)
  | "estimated_cong_free_cycles" => some (.count s.estimatedCongFreeCycles)
  | "golden_cycles" => some (.count s.goldenCycles)
  | "cycle_prediction_error" => some (.figure s.cyclePredictionError)
  | "wallclock_runtime_us" => some (.count s.wallclockRuntimeUs)
  | "overall_avg_link_demand" => some (.figure s.avgLinkDemand)
  | "overall_max_link_demand" => some (.figure s.maxLinkDemand)
  | "overall_avg_niu_demand" => some (.figure s.avgNiuDemand)
  | "overall_max_niu_demand" => some (.figure s.maxNiuDemand)
  | "overall_avg_link_util" => some (.figure s.avgLinkUtil)
  | "overall_max_link_util" => some (.figure s.maxLinkUtil)
  | "overall_avg_noc0_link_demand" => some (.figure s.avgNoc0Demand)
  | "overall_avg_noc0_link_util" => some (.figure s.avgNoc0Util)
  | "overall_max_noc0_link_demand" => some (.figure s.maxNoc0Demand)
  | "overall_avg_noc1_link_demand" => some (.figure s.avgNoc1Demand)
  | "overall_avg_noc1_link_util" => some (.figure s.avgNoc1Util)
  | "overall_max_noc1_link_demand" => some (.figure s.maxNoc1Demand)
  | "overall_avg_mcast_write_link_util" => some (.figure s.avgMcastUtil)
  | "dram_bw_util" => some (.figure s.dramUtil)
  | "dram_bw_util_sim" => some (.figure s.dramUtilSim)
  | _ => none

end NPE.Spec
