import Verif.Spec.Generate

/-
What the figures of generated sample data should be.
-/

namespace NPE.Spec.Generate
open NPE.Generate

/-- A link belongs to a NoC. -/
def Belongs : Noc → LinkAttr → Prop
  | .noc0, l => l.type = .noc0East ∨ l.type = .noc0South
  | .noc1, l => l.type = .noc1North ∨ l.type = .noc1West

/-- The mean of a list of numbers. -/
def mean (l : List ℚ) : ℚ := l.sum / l.length

open Classical in
/-- The links of a board that belong to a NoC. -/
noncomputable def nocLinks (devices rows cols : Nat) (noc : Noc) : List LinkAttr :=
  (allLinks devices rows cols).filter fun l => Belongs noc l

/-- Rounding that changes a number by at most `h`. -/
def Within (rnd : ℚ → ℚ) (h : ℚ) : Prop := ∀ x, |rnd x - x| ≤ h

end NPE.Spec.Generate
