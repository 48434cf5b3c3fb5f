import Verif.Proofs.Hash

/-
The coordinates of all boards have different keys: one pass over the whole table.
-/

namespace NPE.Hash

theorem allCoords_apart : apart 32 1 (overBoard 36 12 17 keyN) = true := by decide +kernel

theorem allCoords_distinct : (allCoords.map lowKey).Nodup := by
  unfold allCoords
  rw [overBoard_eq (g := keyN) fun d hd r hr c hc => lowKey_eq (by omega) (by omega) (by omega)]
  exact apart_nodup _ _ _ allCoords_apart

theorem lowKey_inj {a b : Coord} (ha : a ∈ allCoords) (hb : b ∈ allCoords) (h : lowKey a = lowKey b) : a = b :=
  List.inj_on_of_nodup_map allCoords_distinct ha hb h

end NPE.Hash
