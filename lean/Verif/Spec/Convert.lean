import Verif.Spec.Ingest
import Verif.Spec.Api

/-
Which traces can be converted and simulated (C69, C110), stated about the events of the trace.
-/

namespace NPE.Spec.Trace

/-- The metadata of an event asks for a path through the fabric. -/
def UsesFabric (e : Json) : Prop := ∃ f r, fabric e = some f ∧ r ∈ (routes f).getD []

/-- A trace of a device.  The profiler writes such traces: every event names its processor, the first event is the
start of a zone, zones are nested, and every chip of the device appears. -/
structure WellFormed (chips : Nat) (evs : List Json) : Prop where
  /-- the first event belongs to a core with zones -/
  first : ∃ e rest c, evs = e :: rest ∧ core e = some c ∧ c ≠ (⟨-1, -1, -1⟩, .brisc) ∧ ∀ t0, zonesOf evs t0 c ≠ []
  /-- every event names a processor -/
  procs : ∀ e ∈ evs, ∃ c, core e = some c
  /-- zones start or end -/
  phases : ∀ e ∈ evs, e.strD "zone_phase" = "" ∨ e.strD "zone_phase" = "ZONE_START" ∨ e.strD "zone_phase" = "ZONE_END"
  /-- zones are nested; some may be open at the end -/
  nested : ∀ t0, IsOrigin evs t0 → ∀ c, ∃ st, Opening (zonesOf evs t0 c) st
  /-- multicast rectangles are given by their upper left and lower right corner -/
  corners : ∀ e ∈ evs, ∀ g, dest [] e = .mcast [g] → g.lo.row ≤ g.hi.row ∧ g.lo.col ≤ g.hi.col
  /-- every chip has events, or time starts at zero -/
  active : (∃ e ∈ evs, time e = 0) ∨ ∀ d : Int, 0 ≤ d → d < chips → ∃ e ∈ evs, Counts d e
  /-- timestamps are numbers of cycles -/
  times : ∀ e ∈ evs, 0 ≤ time e ∧ time e < 2 ^ 53

/-- The device can execute a data movement. -/
structure Feasible (dev : Device) (i : Item) : Prop where
  bytes : 1 ≤ i.packetSize
  src : IsCore dev i.src
  dst : Reachable dev i.src.dev i.dst

end NPE.Spec.Trace
