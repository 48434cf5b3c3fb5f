import Verif.Spec.Stats
import Verif.Spec.Workload

/-
Vocabulary for statements about the summary of a run: who causes traffic where.
-/

namespace NPE.Spec

/-- A core of the given type, anywhere on a chip. -/
def CoreIs (dev : Device) (ty : CoreType) (c : Coord) : Prop :=
  OnGrid dev.rows dev.cols c ∧ dev.coreTable c.row.toNat c.col.toNat = ty

instance (dev : Device) (ty : CoreType) (c : Coord) : Decidable (CoreIs dev ty c) := by
  unfold CoreIs OnGrid; infer_instance

/-- The transfer is a unicast to a core of the given type. -/
def WritesTo (dev : Device) (ty : CoreType) (t : Transfer) : Prop := ∃ e, t.dst = .unicast e ∧ CoreIs dev ty e

instance (dev : Device) (ty : CoreType) (t : Transfer) : Decidable (WritesTo dev ty t) :=
  match h : t.dst with
  | .unicast e => if hc : CoreIs dev ty e then isTrue ⟨e, h, hc⟩
      else isFalse fun ⟨e', he, hc'⟩ => by rw [h] at he; cases he; exact hc hc'
  | .mcast _ => isFalse fun ⟨e', he, _⟩ => by rw [h] at he; exact absurd he nofun

/-- The transfer starts on device `d`; -1 is the whole mesh. -/
def OfDevice (d : Int) (t : Transfer) : Prop := d = -1 ∨ t.src.dev = d

instance (d : Int) (t : Transfer) : Decidable (OfDevice d t) := by unfold OfDevice; infer_instance

/-- Bytes of the transfers of device `d` that are read from DRAM or written to DRAM by unicast. -/
def dramTraffic (dev : Device) (d : Int) (ts : List Transfer) : Nat :=
  ((ts.filter fun t => OfDevice d t ∧ (CoreIs dev .dram t.src ∨ WritesTo dev .dram t)).map (·.totalBytes)).sum

/-- Bytes of the transfers of device `d` that are written to core `c`. -/
def writtenTo (d : Int) (c : Coord) (ts : List Transfer) : Nat :=
  ((ts.filter fun t => OfDevice d t ∧ t.dst = .unicast c).map (·.totalBytes)).sum

/-- Bytes per cycle of all DRAM banks of one chip. -/
def chipDramBandwidth (dev : Device) : ℚ := dev.numBanks * ((dev.injRate .dram + dev.absRate .dram) / 2)

/-- All transfers start on the grid, and unicasts end on the grid. -/
def EndsOnGrid (dev : Device) (ts : List Transfer) : Prop :=
  ∀ t ∈ ts, OnGrid dev.rows dev.cols t.src ∧ ∀ e, t.dst = .unicast e → OnGrid dev.rows dev.cols e

end NPE.Spec
