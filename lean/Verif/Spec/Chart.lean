import Mathlib.Algebra.Order.Field.Rat
import Mathlib.Data.Rat.Cast.Defs

/-
How a bar chart is to be read: the rows stand for equally spaced values from the label below
to the label above, and likewise the columns from left to right.
-/

namespace NPE.Spec.Chart

/-- Labels of an axis: the smallest and the largest of the values, moved apart by 5% of their
distance (which counts as 1 if all values are equal). -/
def Labels (vs : List ℚ) (lo hi : ℚ) : Prop :=
  ∃ m ∈ vs, ∃ M ∈ vs, (∀ v ∈ vs, m ≤ v ∧ v ≤ M) ∧
    ∃ D, (m = M → D = 1) ∧ (m ≠ M → D = M - m) ∧ lo = m - D / 20 ∧ hi = m + D + D / 20

/-- The value for which position `t` of `n` on an axis stands. -/
def mark (lo hi : ℚ) (n : ℕ) (t : ℤ) : ℚ := lo + t * ((hi - lo) / (n - 1))

end NPE.Spec.Chart
