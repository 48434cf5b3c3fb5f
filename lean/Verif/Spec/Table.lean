import Verif.Model.Device

/-
Vocabulary for statements about the table of transfer bandwidths.
-/

namespace NPE.Spec

/-- A table that starts at size zero with bandwidth zero, has increasing sizes, bandwidths that do
not decrease and are positive from the second entry on, and contains `float` numbers only. -/
structure TableOk (fp : FP) (tbt : List (Nat × ℚ)) : Prop where
  first : ∃ b l, tbt = (0, 0) :: b :: l
  sizes : tbt.Pairwise fun a b => a.1 < b.1
  values : tbt.Pairwise fun a b => a.2 ≤ b.2
  positive : ∀ e ∈ tbt.tail, 0 < e.2
  floats : ∀ e ∈ tbt, fp.f32.Rep e.2

/-- The largest bandwidth and the largest size of the table. -/
def Peak (tbt : List (Nat × ℚ)) (size : Nat) (bw : ℚ) : Prop := tbt.getLast? = some (size, bw)

/-- The difference of neighbouring entries, rounded and added to the lower one, does not exceed the
upper one. -/
def Tight (fp : FP) : List (Nat × ℚ) → Prop
  | [] => True
  | [_] => True
  | a :: b :: l => fp.f32.fl (fp.f32.fl (b.2 - a.2) + a.2) ≤ b.2 ∧ Tight fp (b :: l)

end NPE.Spec
