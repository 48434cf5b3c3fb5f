import Verif.Model.Workload

/-
Specifications for workload properties, written over the plain data, not the model's functions.
-/

namespace NPE.Spec

/-- The point lies on a grid of `rows × cols`. -/
def OnGrid (rows cols : Nat) (c : Coord) : Prop :=
  (0 ≤ c.row ∧ c.row < rows) ∧ (0 ≤ c.col ∧ c.col < cols)

/-- A unicast transfer that a device with `chips` chips of `rows × cols` cores can execute. -/
structure UnicastOk (rows cols chips : Nat) (t : Transfer) (d : Coord) : Prop where
  dst : t.dst = .unicast d
  packets : 1 ≤ t.numPackets
  size : 1 ≤ t.packetSize
  srcOn : OnGrid rows cols t.src
  dstOn : OnGrid rows cols d
  sameChip : d.dev = t.src.dev
  chip : 0 ≤ t.src.dev ∧ t.src.dev < chips

/-- Everything of a transfer except the identifiers assigned by the workload. -/
def content (t : Transfer) : Transfer := { t with phaseId := 0, id := 0 }

/-- A unicast transfer between two cores of the same two-by-two tile of one chip. -/
def IsLocalUnicast (t : Transfer) : Prop :=
  ∃ d, t.dst = .unicast d ∧ d.dev = t.src.dev ∧ d.row / 2 = t.src.row / 2 ∧
    d.col / 2 = t.src.col / 2

instance (t : Transfer) : Decidable (IsLocalUnicast t) := by
  unfold IsLocalUnicast
  cases h : t.dst with
  | unicast c =>
    exact decidable_of_iff (c.dev = t.src.dev ∧ c.row / 2 = t.src.row / 2 ∧
      c.col / 2 = t.src.col / 2) (by simp)
  | mcast gs => exact isFalse (by simp)

/-- Two workloads agree on everything but phases and identifiers. -/
def SameMetadata (a b : Workload) : Prop :=
  a.sourcePath = b.sourcePath ∧ a.numTransferGroups = b.numTransferGroups ∧
    (∀ k, a.golden.lookup k = b.golden.lookup k) ∧ a.zones = b.zones

end NPE.Spec
