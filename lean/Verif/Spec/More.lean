import Verif.Spec.Fluid

/-
Transfers that have more to move.
-/

namespace NPE.Spec
open NPE.Spec.Fluid

/-- The same way, rate and schedule, and at least as many bytes. -/
structure MoreData (t u : Transfer) : Prop where
  noc : u.noc = t.noc
  src : u.src = t.src
  dst : u.dst = t.dst
  injectionRate : u.injectionRate = t.injectionRate
  offset : u.offset = t.offset
  bytes : t.totalBytes ≤ u.totalBytes

/-- Every transfer of one workload is found in another one, at the place given by `f`, with the same bandwidth and at
least as many bytes. -/
structure Grows (fp : FP) (dev : Device) (s0 s0' : Sim) (f : Nat → Nat) : Prop where
  inj : Function.Injective f
  more : ∀ (i : Nat) (t : TState), s0.ts[i]? = some t →
    ∃ t', s0'.ts[f i]? = some t' ∧ MoreData t.params t'.params ∧ own fp dev t'.params = own fp dev t.params

end NPE.Spec
