import Verif.Spec.Engine
import Verif.Spec.Route

/-
Vocabulary for statements about the reported statistics.
-/

namespace NPE.Spec

/-- The timesteps simulated up to cycle `curr` that end at or after cycle `from_`. -/
def intervals (cpt curr from_ : Nat) : List (Nat × Nat) :=
  ((List.range (curr / cpt)).map fun (k : Nat) => (k * cpt, (k + 1) * cpt)).filter
    fun i => decide (from_ ≤ i.2)

/-- A transfer that counts for device `d` (every transfer for the whole mesh, which is device -1)
and is scheduled within the window `g`. -/
def Relevant (d : Int) (g : Nat × Nat) (t : Transfer) : Prop :=
  (d = -1 ∨ t.src.dev = d) ∧ g.1 ≤ t.offset ∧ t.offset ≤ g.2

instance (d : Int) (g : Nat × Nat) (t : Transfer) : Decidable (Relevant d g t) := by
  unfold Relevant; infer_instance

/-- `m` is the largest end cycle among the relevant transfers, or zero if there is none. -/
def LastEnd (ts : List TState) (d : Int) (g : Nat × Nat) (m : Nat) : Prop :=
  (∀ t ∈ ts, Relevant d g t.params → t.endc ≤ m) ∧
  (m = 0 ∨ ∃ t ∈ ts, Relevant d g t.params ∧ t.endc = m)

/-- All transfers of the workload start on chips of the device. -/
def OnChips (dev : Device) (ts : List Transfer) : Prop :=
  ∀ t ∈ ts, 0 ≤ t.src.dev ∧ t.src.dev < dev.chips

end NPE.Spec

namespace NPE.Spec

/-- What the averages of a timestep have to satisfy: multicast write utilisation is part of the
utilisation, which is at most the demand and at most 100 percent; the same for each NoC; the
overall value is the mean of both NoCs; and no average demand is above the largest demand. -/
structure Percentages (r : TimestepStats) : Prop where
  mcast_nonneg : 0 ≤ r.avgMcastUtil
  mcast_le : r.avgMcastUtil ≤ r.avgLinkUtil
  util_le : r.avgLinkUtil ≤ r.avgLinkDemand
  util_100 : r.avgLinkUtil ≤ 100
  noc0_nonneg : 0 ≤ r.avgNoc0Util
  noc0_le : r.avgNoc0Util ≤ r.avgNoc0Demand
  noc0_100 : r.avgNoc0Util ≤ 100
  noc1_nonneg : 0 ≤ r.avgNoc1Util
  noc1_le : r.avgNoc1Util ≤ r.avgNoc1Demand
  noc1_100 : r.avgNoc1Util ≤ 100
  mean_util : r.avgLinkUtil = (r.avgNoc0Util + r.avgNoc1Util) / 2
  mean_demand : r.avgLinkDemand = (r.avgNoc0Demand + r.avgNoc1Demand) / 2
  max_link : r.avgLinkDemand ≤ r.maxLinkDemand
  max_noc0 : r.avgNoc0Demand ≤ r.maxNoc0Demand
  max_noc1 : r.avgNoc1Demand ≤ r.maxNoc1Demand

end NPE.Spec
