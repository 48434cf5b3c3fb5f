import Verif.Spec.Engine

/-
Vocabulary for what a transfer may move at most.
-/

namespace NPE.Spec

/-- A rate computation that gives no active transfer with `P` more than `cap`. -/
def WithinCap (r : Rates) (P : Transfer → Prop) (cap : Transfer → ℚ) : Prop :=
  ∀ sot curr g ts live ts' g', live.Nodup → r sot curr g ts live = .ok (ts', g') →
    ∀ (i : Nat) (t : TState), i ∈ live → ts'[i]? = some t → P t.params → t.bw ≤ cap t.params

/-- A rate with the error of two roundings. -/
def rounded (x : ℚ) : ℚ := x * (1 + 1 / 16777216) ^ 2

end NPE.Spec
