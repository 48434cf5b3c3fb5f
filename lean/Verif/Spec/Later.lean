import Verif.Spec.Ingest

/-
When two events of traces say the same, apart from the time.
-/

namespace NPE.Spec.Trace

/-- Numbers of an event that mean something. -/
def numbers : List String := ["sx", "sy", "dx", "dy", "num_bytes", "src_device_id", "dst_device_id",
  "mcast_start_x", "mcast_start_y", "mcast_end_x", "mcast_end_y"]

/-- Texts of an event that mean something. -/
def texts : List String := ["type", "proc", "noc", "zone", "zone_phase"]

/-- Event `e'` says the same as `e`, `d` cycles later.  The order of the fields, and fields of other names, do not
matter. -/
structure Later (d : Int) (e e' : Json) : Prop where
  time : time e' = time e + d
  numbers : ∀ k ∈ numbers, e'.int? k = e.int? k
  texts : ∀ k ∈ texts, e'.strD k = e.strD k
  fabric : fabric e' = fabric e

end NPE.Spec.Trace
