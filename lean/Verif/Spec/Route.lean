import Verif.Model.Device

/-
Specifications for routing: paths on a torus, independent of the routing code.
-/

namespace NPE.Spec

/-- The core reached over a link: links go to the neighbour in one direction and wrap around. -/
def linkTarget (rows cols : Nat) (l : LinkAttr) : Coord :=
  match l.type with
  | .noc0East => ⟨l.coord.dev, l.coord.row, (l.coord.col + 1) % cols⟩
  | .noc0South => ⟨l.coord.dev, (l.coord.row + 1) % rows, l.coord.col⟩
  | .noc1North => ⟨l.coord.dev, (l.coord.row - 1) % rows, l.coord.col⟩
  | .noc1West => ⟨l.coord.dev, l.coord.row, (l.coord.col - 1) % cols⟩

/-- A connected sequence of links from one core to another. -/
inductive IsPath (rows cols : Nat) : Coord → List LinkAttr → Coord → Prop where
  | nil (c : Coord) : IsPath rows cols c [] c
  | cons {l : LinkAttr} {ls : List LinkAttr} {e : Coord} :
      IsPath rows cols (linkTarget rows cols l) ls e → IsPath rows cols l.coord (l :: ls) e

/-- The links a NoC owns. -/
def nocLinks : Noc → List LinkType
  | .noc0 => [.noc0East, .noc0South]
  | .noc1 => [.noc1North, .noc1West]

/-- Dimension order: NoC 0 goes east, then south; NoC 1 goes north, then west. -/
def DimOrdered (noc : Noc) (ls : List LinkAttr) : Prop :=
  ∃ a b, ls = a ++ b ∧
    match noc with
    | .noc0 => (∀ l ∈ a, l.type = .noc0East) ∧ ∀ l ∈ b, l.type = .noc0South
    | .noc1 => (∀ l ∈ a, l.type = .noc1North) ∧ ∀ l ∈ b, l.type = .noc1West

/-- Number of links between two cores in the directions of a NoC. -/
def hops (rows cols : Nat) (noc : Noc) (s e : Coord) : Int :=
  match noc with
  | .noc0 => (e.col - s.col) % cols + (e.row - s.row) % rows
  | .noc1 => (s.col - e.col) % cols + (s.row - e.row) % rows

/-- The device's link identifiers `ids` denote the links `ls`. -/
def Denotes (dev : Device) (ids : List Int) (ls : List LinkAttr) : Prop :=
  List.Forall₂ (fun i l => dev.getLinkAttributes i = .ok l) ids ls

/-- A core of the device. -/
def IsCore (dev : Device) (c : Coord) : Prop :=
  (0 ≤ c.dev ∧ c.dev < dev.chips) ∧ (0 ≤ c.row ∧ c.row < dev.rows) ∧ (0 ≤ c.col ∧ c.col < dev.cols)

/-- Sanity of a device description: a non-empty grid, at most 2^15 links, and one chip unless
it is a multichip model. -/
structure DeviceOk (dev : Device) : Prop where
  rows_pos : 0 < dev.rows
  cols_pos : 0 < dev.cols
  chips_pos : 0 < dev.chips
  ids : dev.chips * (dev.rows * (dev.cols * 4)) ≤ 32768
  single : dev.multichip = false → dev.chips = 1

end NPE.Spec

namespace NPE.Spec

/-- The integers from `a` to `b` in increasing order. -/
def span (a b : Int) : List Int := (List.range (b + 1 - a).toNat).map fun (k : Nat) => a + k

/-- The cores of a rectangle in row-major order. -/
def cells (g : CoordGrid) : List Coord :=
  (span g.lo.row g.hi.row).flatMap fun r => (span g.lo.col g.hi.col).map fun c => ⟨g.lo.dev, r, c⟩

/-- A core inside a rectangle. -/
def InRect (g : CoordGrid) (c : Coord) : Prop :=
  c.dev = g.lo.dev ∧ (g.lo.row ≤ c.row ∧ c.row ≤ g.hi.row) ∧ (g.lo.col ≤ c.col ∧ c.col ≤ g.hi.col)

/-- The far edge of a rectangle: the last row for NoC 0, the last column for NoC 1. -/
def farEdge (noc : Noc) (g : CoordGrid) (c : Coord) : Prop :=
  match noc with
  | .noc0 => c.row = g.hi.row ∧ g.lo.col ≤ c.col ∧ c.col ≤ g.hi.col
  | .noc1 => c.col = g.hi.col ∧ g.lo.row ≤ c.row ∧ c.row ≤ g.hi.row

/-- A rectangle with its start above and left of its end whose corners are 16-bit numbers. -/
structure RectOk (g : CoordGrid) : Prop where
  rows : g.lo.row ≤ g.hi.row
  cols : g.lo.col ≤ g.hi.col
  rlo : -32768 ≤ g.lo.row
  rhi : g.hi.row < 32767
  clo : -32768 ≤ g.lo.col
  chi : g.hi.col ≤ 32767

end NPE.Spec
