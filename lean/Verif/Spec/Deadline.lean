import Verif.Spec.Fluid

/-
Bounds on the ends of transfers that can be computed before the run.
-/

namespace NPE.Spec.Fluid

/-- The speed that a transfer would have if all `n` transfers of the workload were active all the time, in exact
arithmetic. -/
def crowded (dev : Device) (job : Nat → Job) (n cpt : Nat) (i : Nat) : ℚ :=
  shared dev job n cpt cpt (fun _ => .active 0 0) i

/-- The same with rounding, if demands are added in the given order. -/
def crowdedIn (fp : FP) (dev : Device) (job : Nat → Job) (cpt : Nat) (order : List Nat) (i : Nat) : ℚ :=
  sharedIn fp dev job cpt (fun _ => order) cpt (fun _ => .active 0 0) i

/-- Whole bytes that are moved in one timestep at speed `v`. -/
def perStep (fl : ℚ → ℚ) (cpt : Nat) (v : ℚ) : Nat := (fl (fl cpt * v)).floor.toNat

/-- `T i` and `D i` are timesteps by which transfer `i` is surely started and finished if it moves at least at speed `v i`:
it is scheduled before the end of timestep `T i`; a transfer that it waits for is finished, and the delay over, by then
(an end can be recorded up to one timestep and `x` cycles ahead of the clock); and there are enough timesteps in between
for its bytes. -/
structure Deadlines (fl : ℚ → ℚ) (job : Nat → Job) (n cpt x : Nat) (v : Nat → ℚ) (T D : Nat → Nat) : Prop where
  first : ∀ i, i < n → 1 ≤ T i
  offset : ∀ i, i < n → (job i).t.offset ≤ T i * cpt
  after : ∀ i, i < n → ∀ p d, (job i).after = some (p, d) → p < n ∧ (D p + 1) * cpt + x + d ≤ T i * cpt
  steps : ∀ i, i < n → T i ≤ D i ∧ (job i).t.totalBytes ≤ (D i - T i) * perStep fl cpt (v i)

end NPE.Spec.Fluid
