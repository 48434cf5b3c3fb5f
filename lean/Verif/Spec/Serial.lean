import Verif.Spec.Fluid
import Verif.Spec.Bottleneck
import Mathlib.Algebra.BigOperators.Intervals

/-
Transfers one at a time: what they need on their own, and timesteps in which anything is transferred.
-/

namespace NPE.Spec.Fluid

/-- A transfer under way. -/
def Prog.going : Prog → Bool
  | .active _ _ => true
  | _ => false

/-- How many of `n` transfers are under way. -/
def underWay (n : Nat) (σ : State) : Nat := ((Finset.range n).filter fun i => (σ i).going).card

/-- The timesteps among the first `K` in which a transfer is under way. -/
def busySteps (fl : ℚ → ℚ) (job : Nat → Job) (n cpt : Nat) (speed : Speed) (K : Nat) : Nat :=
  ((Finset.range K).filter fun k => 0 < underWay n (start job ((k + 1) * cpt) (run fl job cpt speed k))).card

/-- The cycles that a transfer needs at its own bandwidth. -/
def needed (fp : FP) (dev : Device) (t : Transfer) : ℚ := t.totalBytes / own fp dev t

end NPE.Spec.Fluid

namespace NPE.Spec

/-- No link, source or sink that is used is overloaded by a single transfer. -/
def FitsEach (fp : FP) (dev : Device) (s0 : Sim) : Prop :=
  ∀ t ∈ s0.ts, ∀ cap w, Passes dev t cap w → ∀ u ∈ s0.ts, (w u : ℚ) * Fluid.own fp dev u.params ≤ cap

end NPE.Spec
