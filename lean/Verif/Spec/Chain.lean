import Verif.Spec.Serial
import Verif.Spec.Engine

/-
Chains of transfers that wait for each other.
-/

namespace NPE.Spec

/-- Transfer `i` ends a chain of transfers each of which waits for the one before; `x` is the offset of the first one, with
the delays and with a duration for each transfer added. -/
inductive ChainTime (duration : TState → ℚ) (s : Sim) : Nat → ℚ → Prop
  | first {i : Nat} {t : TState} : s.ts[i]? = some t → ChainTime duration s i (t.params.offset + duration t)
  | next {i j d : Nat} {t : TState} {x : ℚ} : ChainTime duration s j x → WaitsFor s i j d → s.ts[i]? = some t →
      ChainTime duration s i (x + d + duration t)

/-- The time that a transfer needs alone. -/
def aloneTime (fp : FP) (dev : Device) (t : TState) : ℚ := Fluid.needed fp dev t.params

end NPE.Spec
