import Verif.Spec.Ingest

/-
The format of traces as it is documented in tt_npe/doc/noc_trace_format.md.
-/

namespace NPE.Spec.TraceDoc

/-- What an event does. -/
inductive Role where
  /-- it moves data -/
  | moves
  /-- it prepares later events -/
  | prepares
  /-- it waits, or concerns a semaphore -/
  | syncs
  deriving DecidableEq

/-- The documented types of events, doc/noc_trace_format.md:49-83. -/
def types : List (String × Role) :=
  [("READ", .moves), ("READ_SET_STATE", .prepares), ("READ_SET_TRID", .prepares), ("READ_WITH_STATE", .moves),
   ("READ_WITH_STATE_AND_TRID", .moves), ("READ_BARRIER_START", .syncs), ("READ_BARRIER_END", .syncs),
   ("READ_BARRIER_WITH_TRID", .syncs), ("READ_DRAM_SHARDED_SET_STATE", .prepares), ("READ_DRAM_SHARDED_WITH_STATE", .moves),
   ("WRITE", .moves), ("WRITE_WITH_TRID", .moves), ("WRITE_INLINE", .moves), ("WRITE_MULTICAST", .moves),
   ("WRITE_SET_STATE", .prepares), ("WRITE_WITH_STATE", .moves), ("WRITE_WITH_TRID_SET_STATE", .prepares),
   ("WRITE_WITH_TRID_WITH_STATE", .moves), ("WRITE_BARRIER_START", .syncs), ("WRITE_BARRIER_END", .syncs),
   ("WRITE_BARRIER_WITH_TRID", .syncs), ("WRITE_FLUSH", .syncs),
   ("FULL_BARRIER", .syncs), ("ATOMIC_BARRIER", .syncs), ("SEMAPHORE_INC", .syncs), ("SEMAPHORE_WAIT", .syncs),
   ("SEMAPHORE_SET", .syncs)]

/-- The event has a documented type. -/
def Known (e : Json) : Prop := ∃ r, (Trace.type e, r) ∈ types

/-- The event moves data. -/
def Moves (e : Json) : Prop := (Trace.type e, Role.moves) ∈ types

instance (e : Json) : Decidable (Moves e) := by unfold Moves; infer_instance

/-- An event with the documented fields, doc/noc_trace_format.md:26-42: a processor, a NoC, a size and a destination if the type
has them, and none of the fields of zones and of the fabric, which are not documented. -/
structure InFormat (e : Json) : Prop where
  known : Known e
  proc : e.strD "proc" = "BRISC" ∨ e.strD "proc" = "NCRISC"
  noc : e.strD "noc" = "NOC_0" ∨ e.strD "noc" = "NOC_1"
  size : Trace.type e = "READ" ∨ Trace.type e = "WRITE" → e.intD "num_bytes" 0 ≠ 0
  corners : Trace.type e = "WRITE_MULTICAST" → Trace.hasCorners e
  zone : e.strD "zone" = ""
  fabric : Trace.fabric e = none

/-- The start or end of a zone, which is no documented event but needed by the conversion. -/
def IsZone (e : Json) : Prop := Trace.type e = "" ∧ Trace.fabric e = none

/-- The documented order, doc/noc_trace_format.md:2-5: by source location, then processor, then time. -/
def Before (e e' : Json) : Prop :=
  e.intD "sx" (-1) < e'.intD "sx" (-1) ∨ e.intD "sx" (-1) = e'.intD "sx" (-1) ∧
    (e.intD "sy" (-1) < e'.intD "sy" (-1) ∨ e.intD "sy" (-1) = e'.intD "sy" (-1) ∧
      (e.strD "proc" = "BRISC" ∧ e'.strD "proc" = "NCRISC" ∨
        e.strD "proc" = e'.strD "proc" ∧ Trace.time e ≤ Trace.time e'))

instance (e e' : Json) : Decidable (Before e e') := by unfold Before; infer_instance

/-- The events of the same core and processor. -/
def SameCore (e e' : Json) : Prop :=
  e.intD "sx" (-1) = e'.intD "sx" (-1) ∧ e.intD "sy" (-1) = e'.intD "sy" (-1) ∧ e.strD "proc" = e'.strD "proc"

/-- Documented types of moving events that the conversion does not know; writes are called `WRITE_` in its list. -/
def ignored : List String := ["WRITE", "WRITE_WITH_TRID", "WRITE_INLINE", "WRITE_WITH_TRID_WITH_STATE"]

end NPE.Spec.TraceDoc
