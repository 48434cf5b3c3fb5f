import Verif.Spec.Calm

/-
How much the transfers of a workload overload links, sources and sinks.
-/

namespace NPE.Spec

/-- All transfers of the workload at once ask no link, source or sink that is used for more than `A` times its capacity. -/
def OverloadAt (fp : FP) (dev : Device) (s0 : Sim) (A : ℚ) : Prop :=
  ∀ t ∈ s0.ts, ∀ cap w, Passes dev t cap w → (s0.ts.map fun u => (w u : ℚ) * Fluid.own fp dev u.params).sum ≤ A * cap

end NPE.Spec
