import Verif.Spec.Fluid

/-
Moving and mirroring workloads on the torus.
-/

namespace NPE.Spec

/-- The position `dr` rows below and `dc` columns to the right, around the edges. -/
def shiftBy (rows cols : Nat) (dr dc : Int) (c : Coord) : Coord := ⟨c.dev, (c.row + dr) % rows, (c.col + dc) % cols⟩

/-- The mirror image at the other diagonal: rows count backwards as columns, columns backwards as rows. -/
def mirrored (rows cols : Nat) (c : Coord) : Coord := ⟨c.dev, (-c.col) % cols, (-c.row) % rows⟩

/-- The other NoC. -/
def otherNoc : Noc → Noc
  | .noc0 => .noc1
  | .noc1 => .noc0

/-- Exchange of the NoCs' directions: the first one of NoC 0 (east) with the first one of NoC 1 (north), the second one
(south) with the second one (west). -/
def otherLink : LinkType → LinkType
  | .noc0East => .noc1North
  | .noc0South => .noc1West
  | .noc1North => .noc0East
  | .noc1West => .noc0South

/-- The transfer between other cores, on a given NoC. -/
def relocated (pos : Coord → Coord) (noc : Noc → Noc) (t : Transfer) : Transfer :=
  { t with
    noc := noc t.noc
    src := pos t.src
    dst := match t.dst with
      | .unicast d => .unicast (pos d)
      | .mcast gs => .mcast gs }

/-- A unicast between two cores of a chip. -/
def Within (dev : Device) (t : Transfer) : Prop :=
  IsCore dev t.src ∧ ∃ d, t.dst = .unicast d ∧ IsCore dev d ∧ d.dev = t.src.dev

/-- The device with rows and columns exchanged; `core` says where the cores of each type are. -/
def transposed (dev : Device) (core : Nat → Nat → CoreType) : Device :=
  { dev with rows := dev.cols, cols := dev.rows, coreTable := core }

/-- The link of the other NoC between the same two cores, in the opposite direction. -/
def opposite (rows cols : Nat) (l : LinkAttr) : LinkAttr :=
  ⟨linkTarget rows cols l, match l.type with
    | .noc0East => .noc1West
    | .noc0South => .noc1North
    | .noc1North => .noc0South
    | .noc1West => .noc0East⟩

/-- The same position on the chip with another number. -/
def onChips (chip : Int → Int) (c : Coord) : Coord := ⟨chip c.dev, c.row, c.col⟩

/-- Different numbers below `n'` for the chips with numbers below `n`. -/
def Numbering (n n' : Nat) (chip : Int → Int) : Prop :=
  (∀ d : Int, 0 ≤ d ∧ d < n → 0 ≤ chip d ∧ chip d < n') ∧
  ∀ d e : Int, 0 ≤ d ∧ d < n → 0 ≤ e ∧ e < n → chip d = chip e → d = e

/-- A board with another number of the same chips. -/
def withChips (dev : Device) (n : Nat) : Device := { dev with chips := n }

end NPE.Spec
