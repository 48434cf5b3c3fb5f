import Verif.Model.Generate
import Verif.Spec.Route

/-
What the generated sample data should be, without reference to the script.
-/

namespace NPE.Spec.Generate
open NPE.Generate

/-- A core of a grid. -/
def OnGrid (rows cols : Nat) (c : Coord) : Prop := (0 ≤ c.row ∧ c.row < rows) ∧ (0 ≤ c.col ∧ c.col < cols)

/-- The time from `a` up to but not including `b` has a cycle in common with timestep `t` of `c` cycles. -/
def Meets (a b c t : Int) : Prop := ∃ x, (a ≤ x ∧ x < b) ∧ (t * c ≤ x ∧ x < (t + 1) * c)

/-- Every segment takes time. -/
def Timed (ts : List Transfer) : Prop := ∀ t ∈ ts, ∀ s ∈ t.route, s.start < s.stop

open Classical in
/-- The demand of the transfers on a link in a timestep, if every transfer contributes `per` on the links of a segment. -/
noncomputable def demandOn (per : Transfer → Segment → ℚ) (c t : Int) (ts : List Transfer) (l : LinkAttr) : ℚ :=
  (ts.map fun x => (x.route.map fun s => if Meets s.start s.stop c t then s.links.count l * per x s else 0).sum).sum

/-- All links of a board. -/
def allLinks (devices rows cols : Nat) : List LinkAttr :=
  (List.range devices).flatMap fun (d : Nat) => (List.range rows).flatMap fun (r : Nat) =>
    (List.range cols).flatMap fun (c : Nat) =>
      [LinkType.noc0East, .noc0South, .noc1North, .noc1West].map fun ty => ⟨⟨d, r, c⟩, ty⟩

/-- The mean of a quantity over all links of a board. -/
def meanOver (devices rows cols : Nat) (f : LinkAttr → ℚ) : ℚ :=
  ((allLinks devices rows cols).map f).sum / (allLinks devices rows cols).length

end NPE.Spec.Generate
