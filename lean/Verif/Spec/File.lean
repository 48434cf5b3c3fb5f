import Verif.Spec.Ingest

/-
What a loaded workload file should contain (C61, C70), stated about the entries of the file.
-/

namespace NPE.Spec.File

/-- The entry has an integer field. -/
def Has (t : Json) (k : String) : Prop := t.int? k ≠ none

instance (t : Json) (k : String) : Decidable (Has t k) := by unfold Has; infer_instance

/-- The entry names a unicast destination: a coordinate other than (-1, -1). -/
def Unicast (t : Json) : Prop := t.intD "dst_x" (-1) ≠ -1 ∨ t.intD "dst_y" (-1) ≠ -1

instance (t : Json) : Decidable (Unicast t) := by unfold Unicast; infer_instance

/-- The entry names all corners of a multicast rectangle. -/
def Multicast (t : Json) : Prop :=
  Has t "mcast_start_x" ∧ Has t "mcast_start_y" ∧ Has t "mcast_end_x" ∧ Has t "mcast_end_y"

instance (t : Json) : Decidable (Multicast t) := by unfold Multicast; infer_instance

/-- The NoC the entry names. -/
def noc? (t : Json) : Option String := (t.field "noc_type").bind Json.asStr

/-- All mandatory fields are there. -/
def Complete (t : Json) : Prop :=
  (Has t "packet_size" ∧ Has t "num_packets" ∧ Has t "src_x" ∧ Has t "src_y") ∧
  (Unicast t ∨ Multicast t) ∧ noc? t ≠ none

instance (t : Json) : Decidable (Complete t) := by unfold Complete; infer_instance

/-- What a transfer carries, apart from identifiers. -/
structure Entry where
  packetSize : Int
  numPackets : Int
  src : Coord
  dst : Dest
  rate : ℚ
  offset : Int
  noc : Noc
  type : String
  zonePath : String
  group : Int × Int × Int
  deriving DecidableEq

/-- The transfer an entry of the file describes.  Numbers are kept with 32 bits, coordinates with 16. -/
def entry (fp : FP) (t : Json) : Entry :=
  let chip := t.intD "device_id" 0
  { packetSize := t.intD "packet_size" 0 % 4294967296
    numPackets := t.intD "num_packets" 0 % 4294967296
    src := Trace.coord chip (t.intD "src_y" 0) (t.intD "src_x" 0)
    dst :=
      if Unicast t then .unicast (Trace.coord chip (t.intD "dst_y" (-1)) (t.intD "dst_x" (-1)))
      else .mcast [⟨Trace.coord chip (t.intD "mcast_start_y" 0) (t.intD "mcast_start_x" 0),
        Trace.coord chip (t.intD "mcast_end_y" 0) (t.intD "mcast_end_x" 0)⟩]
    rate := fp.f32.fl (((t.field "injection_rate").bind (Json.asDouble fp)).getD 0)
    offset := t.intD "phase_cycle_offset" 0 % 4294967296
    noc := Trace.noc ((noc? t).getD "")
    type := t.strD "noc_event_type"
    zonePath := ""
    group := (-1, -1, -1) }

/-- The same of a transfer of the workload. -/
def content (t : Transfer) : Entry :=
  ⟨t.packetSize, t.numPackets, t.src, t.dst, t.injectionRate, t.offset, t.noc, t.eventType, t.zonePath,
    (t.groupId, t.groupIdx, t.groupParent)⟩

/-- The list of a field. -/
def list? (j : Json) (k : String) : Option (List Json) := (j.field k).bind Json.asArr

end NPE.Spec.File
