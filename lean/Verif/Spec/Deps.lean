import Verif.Spec.Engine

/-
Vocabulary for statements about dependencies between transfers, independent of the bucket and
checkpoint machinery of the engine.
-/

namespace NPE.Spec

/-- The kind of the first link of a route; `none` for a route without links. -/
def FirstLink (dev : Device) (t : TState) (k : Option LinkType) : Prop :=
  match t.route with
  | [] => k = none
  | l :: _ => ∃ a, dev.getLinkAttributes l = .ok a ∧ k = some a.type

/-- Two transfers leave a core at the same grid position, on the same NoC, over the same kind of
first link.  The chip is not compared. -/
def SameLane (dev : Device) (t u : TState) : Prop :=
  t.params.noc = u.params.noc ∧ t.params.src.row = u.params.src.row ∧
  t.params.src.col = u.params.src.col ∧ ∃ k, FirstLink dev t k ∧ FirstLink dev u k

/-- Position of transfers in the schedule: by scheduled offset, then by id. -/
def Earlier (s : Sim) (j i : Nat) : Prop :=
  ∃ tj ti, s.ts[j]? = some tj ∧ s.ts[i]? = some ti ∧
    (tj.params.offset < ti.params.offset ∨ (tj.params.offset = ti.params.offset ∧ j < i))

/-- As `SameLane`, but the cores are on the same chip, too. -/
def SameCoreLane (dev : Device) (t u : TState) : Prop :=
  t.params.noc = u.params.noc ∧ t.params.src = u.params.src ∧
  ∃ k, FirstLink dev t k ∧ FirstLink dev u k

/-- Transfers `j` and `i` exist and share a lane. -/
def LaneMates (lane : TState → TState → Prop) (s : Sim) (j i : Nat) : Prop :=
  ∃ tj ti, s.ts[j]? = some tj ∧ s.ts[i]? = some ti ∧ lane tj ti

/-- `j` is the lane mate two places before `i`: exactly one lane mate lies between them. -/
def TwoBefore (lane : TState → TState → Prop) (s : Sim) (j i : Nat) : Prop :=
  LaneMates lane s j i ∧ Earlier s j i ∧
    ∃! k, LaneMates lane s k i ∧ Earlier s j k ∧ Earlier s k i

/-- The transfer names a parent inside a group (-1 stands for "none"). -/
def NamesParent (t : Transfer) : Prop := t.groupId ≠ -1 ∧ t.groupParent ≠ -1

/-- `p` is the segment that `t` names as its parent. -/
def IsParent (p t : Transfer) : Prop :=
  p.groupId = t.groupId ∧ p.groupIdx = t.groupParent ∧ p.groupIdx ≠ -1

end NPE.Spec
