import Verif.Spec.Fluid
import Verif.Spec.Bottleneck

/-
Runs in which nothing is overloaded, given by the short description of runs (Spec/Fluid.lean) without congestion.
-/

namespace NPE.Spec.Fluid

/-- What the active ones among `n` transfers ask for at a point: their own bandwidths, weighted by the active part of the
timestep and by how often they are counted at the point. -/
def asked (fp : FP) (dev : Device) (job : Nat → Job) (n cpt : Nat) (w : TState → Nat) (curr : Nat) (σ : State) : ℚ :=
  ((List.range n).map fun j => match σ j with
    | .active c _ => (w ((job j).began c) : ℚ) * (share (curr - cpt) curr ((job j).began c) * own fp dev (job j).t)
    | _ => 0).sum

/-- How many demands these are. -/
def askers (job : Nat → Job) (n : Nat) (w : TState → Nat) (σ : State) : Nat :=
  ((List.range n).map fun j => match σ j with
    | .active c _ => w ((job j).began c)
    | _ => 0).sum

/-- The state in which a timestep of a run without congestion is computed. -/
def during (fp : FP) (dev : Device) (job : Nat → Job) (cpt k : Nat) : State :=
  start job ((k + 1) * cpt) (run fp.f32.fl job cpt (alone fp dev job) k)

/-- In no timestep of the run without congestion is a link, source or sink that an active transfer passes asked for more than
its capacity; `margin` is the part to spare. -/
def Calm (fp : FP) (dev : Device) (job : Nat → Job) (n cpt : Nat) (margin : ℚ) : Prop :=
  ∀ k i c m, i < n → during fp dev job cpt k i = .active c m → ∀ cap w, Passes dev ((job i).began c) cap w →
    asked fp dev job n cpt w ((k + 1) * cpt) (during fp dev job cpt k) * (1 + margin) ≤ cap

/-- No such point has more than 65536 demands at a time. -/
def Few (fp : FP) (dev : Device) (job : Nat → Job) (n cpt : Nat) : Prop :=
  ∀ k i c m, i < n → during fp dev job cpt k i = .active c m → ∀ cap w, Passes dev ((job i).began c) cap w →
    askers job n w (during fp dev job cpt k) ≤ 65536

end NPE.Spec.Fluid

namespace NPE.Spec

/-- Every link, source and sink that is used has capacity for all transfers of the workload at once. -/
def Spacious (fp : FP) (dev : Device) (s0 : Sim) (margin : ℚ) : Prop :=
  ∀ t ∈ s0.ts, ∀ cap w, Passes dev t cap w →
    (s0.ts.map fun u => (w u : ℚ) * Fluid.own fp dev u.params).sum * (1 + margin) ≤ cap

/-- Every link, source and sink has at most 65536 demands of the whole workload. -/
def FewUsers (dev : Device) (s0 : Sim) : Prop :=
  ∀ t ∈ s0.ts, ∀ cap w, Passes dev t cap w → (s0.ts.map w).sum ≤ 65536

end NPE.Spec
