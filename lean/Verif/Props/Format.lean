import Verif.Proofs.Format

/-
C108: the texts of destinations (include/npeUtil.hpp:487-540).
-/

namespace NPE.Props

open Spec

/-- A reader of the texts gets every destination back. -/
def C108_claim : Prop := ∀ d : Dest, readDest (Format.dest d) = some d

/-- It does not: the text names the device of the first corner only, so a rectangle with corners on two chips is
printed like one on a single chip. -/
theorem C108_violated : ¬ C108_claim ∧
    ∃ d e : Dest, d ≠ e ∧ Format.dest d = Format.dest e := by
  have h : ∃ d e : Dest, d ≠ e ∧ Format.dest d = Format.dest e :=
    ⟨.mcast [⟨⟨0, 1, 1⟩, ⟨0, 2, 2⟩⟩], .mcast [⟨⟨0, 1, 1⟩, ⟨1, 2, 2⟩⟩], by decide, rfl⟩
  refine ⟨fun hc => ?_, h⟩
  obtain ⟨d, e, hne, he⟩ := h
  have := (hc d).symm.trans ((congrArg readDest he).trans (hc e))
  exact hne (Option.some.inj this)

/-- Coordinates, and sets of rectangles that lie on one chip each, can be read back from their texts, so different
ones have different texts; the text of any other set is that of the set moved to the chips of the first
corners. -/
theorem C108_partial :
    (∀ c : Coord, readDest (Format.dest (.unicast c)) = some (.unicast c)) ∧
    (∀ gs : List CoordGrid, OneDeviceEach gs → readDest (Format.dest (.mcast gs)) = some (.mcast gs)) ∧
    ∀ gs : List CoordGrid, ∃ hs, OneDeviceEach hs ∧ hs.length = gs.length ∧
      (∀ i : Nat, ∀ g, gs[i]? = some g → hs[i]? = some ⟨g.lo, ⟨g.lo.dev, g.hi.row, g.hi.col⟩⟩) ∧
      readDest (Format.dest (.mcast gs)) = some (.mcast hs) := by
  refine ⟨Format.readDest_coord, fun gs h => ?_, fun gs => ?_⟩
  · rw [Format.readDest_mcast]
    congr 2
    refine (List.map_congr_left fun g hg => ?_).trans (List.map_id _)
    obtain ⟨lo, ⟨hd, hr, hc⟩⟩ := g
    have := h _ hg
    simp only at this
    rw [this]
    rfl
  · refine ⟨_, ?_, ?_, ?_, Format.readDest_mcast gs⟩
    · intro h hm
      obtain ⟨g, _, rfl⟩ := List.mem_map.mp hm
      rfl
    · rw [List.length_map]
    · intro i g hg
      rw [List.getElem?_map, hg]
      rfl

-- the text that test/test_npe_util.cpp:263 expects, and a negative coordinate
example : Format.dest (.mcast [⟨⟨0, 1, 1⟩, ⟨0, 2, 2⟩⟩, ⟨⟨1, 3, 3⟩, ⟨1, 4, 4⟩⟩, ⟨⟨2, 5, 5⟩, ⟨2, 5, 7⟩⟩]) =
      "Dev0(1,1)-(2,2), Dev1(3,3)-(4,4), Dev2(5,5)-(5,7)".toList ∧
    readDest "Dev-1(12,-30)".toList = some (.unicast ⟨-1, 12, -30⟩) := by decide +kernel

end NPE.Props
