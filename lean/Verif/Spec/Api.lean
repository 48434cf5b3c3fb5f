import Verif.Spec.Route
import Verif.Spec.Workload

/-
Vocabulary for statements about whole runs: which transfers a device can execute.
-/

namespace NPE.Spec

/-- A destination that the device can reach from chip `d`: a core of that chip, or one rectangle of
cores of that chip with its start above and left of its end. -/
inductive Reachable (dev : Device) (d : Int) : Dest → Prop where
  | core (e : Coord) : IsCore dev e → e.dev = d → Reachable dev d (.unicast e)
  | rect (g : CoordGrid) : OnGrid dev.rows dev.cols g.lo → OnGrid dev.rows dev.cols g.hi →
      g.lo.row ≤ g.hi.row → g.lo.col ≤ g.hi.col → g.lo.dev = d → Reachable dev d (.mcast [g])

/-- A transfer that the device can execute.  A transfer with a parent in a group has to be a
unicast on a Wormhole device. -/
structure Executable (dev : Device) (t : Transfer) : Prop where
  packets : 1 ≤ t.numPackets
  size : 1 ≤ t.packetSize ∧ t.packetSize < 4294967296
  bytes : 1 ≤ t.totalBytes
  src : IsCore dev t.src
  dst : Reachable dev t.src.dev t.dst
  parent : t.groupId ≠ -1 → t.groupParent ≠ -1 → dev.arch = .wormholeB0 ∧ ∃ e, t.dst = .unicast e

end NPE.Spec
