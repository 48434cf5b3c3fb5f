import Verif.Model.Bindings
import Verif.Spec.File

/-
When an entry of a workload file says the same as the arguments given in Python (C140).
-/

namespace NPE.Spec.Bind
open NPE.Bind

/-- The destination of the entry is the one of the arguments, on the given chip. -/
def SameDst (t : Json) (chip : Int) : DstArg → Prop
  | .core c => c.1 = chip ∧ t.intD "dst_x" (-1) = c.2.2 ∧ t.intD "dst_y" (-1) = c.2.1 ∧ ¬ (c.2.1 = -1 ∧ c.2.2 = -1)
  | .rect a b => a.1 = chip ∧ b.1 = chip ∧ t.intD "dst_x" (-1) = -1 ∧ t.intD "dst_y" (-1) = -1 ∧
    t.int? "mcast_start_x" = some a.2.2 ∧ t.int? "mcast_start_y" = some a.2.1 ∧
    t.int? "mcast_end_x" = some b.2.2 ∧ t.int? "mcast_end_y" = some b.2.1

/-- The name of a NoC in a file. -/
def nocText : Noc → String
  | .noc0 => "NOC_0"
  | .noc1 => "NOC_1"

/-- The entry of the file says what the arguments say.  (The type of the event cannot be given in Python.) -/
structure Says (fp : FP) (a : Args) (t : Json) : Prop where
  packetSize : t.int? "packet_size" = some a.packetSize
  numPackets : t.int? "num_packets" = some a.numPackets
  chip : t.intD "device_id" 0 = a.src.1
  srcY : t.int? "src_y" = some a.src.2.1
  srcX : t.int? "src_x" = some a.src.2.2
  dst : SameDst t a.src.1 a.dst
  rate : ((t.field "injection_rate").bind (Json.asDouble fp)).getD 0 = a.injectionRate
  offset : t.intD "phase_cycle_offset" 0 = a.offset
  noc : (t.field "noc_type").bind Json.asStr = some (nocText a.noc)
  type : t.strD "noc_event_type" = ""

/-- The file lists the same phases, and the same golden cycles if any. -/
structure SaysAll (fp : FP) (phases : List (List Args)) (golden : Option Int) (j : Json) : Prop where
  obj : ∃ o, j = .obj o
  phases : ∃ l, (j.field "phases").bind Json.asArr = some l ∧ List.Forall₂ (fun as ph =>
    ∃ ts, (Json.field "transfers" ph).bind Json.asArr = some ts ∧ List.Forall₂ (Says fp) as ts) phases l
  golden : match golden with
    | none => (j.field "golden_result").bind (Json.field "cycles") = none
    | some n => ∃ c, (j.field "golden_result").bind (Json.field "cycles") = some c ∧ 0 ≤ n ∧ c.asUint = some n.toNat

end NPE.Spec.Bind
