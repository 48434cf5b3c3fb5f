import Verif.Proofs.Table

/-
Lower bounds for the bandwidths of larger packets.
-/

namespace NPE
open Spec

/-- The blend is not much below both its parts. -/
theorem blended_ge (fp : FP) {maxBw s m : ℚ} {n : Nat} (hn : 0 < n) (h0 : 0 ≤ m) (hm : m ≤ maxBw) (hs : m ≤ s) :
    m * (1 - 1 / 2097152) ≤ blended fp maxBw s n := by
  obtain ⟨h1, _⟩ := steadyRatio_bounds fp hn
  obtain ⟨h2, _⟩ := firstRatio_bounds fp hn
  have h3 := (ratio_sum fp hn).1
  unfold blended
  set a := firstRatio fp n
  set b := steadyRatio fp n
  have ha : 0 ≤ a * maxBw := mul_nonneg h2 (h0.trans hm)
  have hb : 0 ≤ b * s := mul_nonneg h1 (h0.trans hs)
  have e1 := fp.f32.fl_ge_err ha
  have e2 := fp.f32.fl_ge_err hb
  have e3 := fp.f32.fl_ge_err (add_nonneg (fp.f32.fl_nonneg ha) (fp.f32.fl_nonneg hb))
  have f1 : a * m ≤ a * maxBw := mul_le_mul_of_nonneg_left hm h2
  have f2 : b * m ≤ b * s := mul_le_mul_of_nonneg_left hs h1
  have f3 : m * (1 - 3 * ulp24) ≤ (b + a) * m := by
    rw [mul_comm m]; exact mul_le_mul_of_nonneg_right h3 h0
  unfold ulp24 at f3
  linarith

/-- Packets of at least 512 bytes on Wormhole. -/
theorem wormhole_steady_ge (fp : FP) (m : Bool) (k : Nat) {ps : Nat} (h : 512 ≤ ps) :
    (1799 / 100 : ℚ) ≤ steadyAt fp ps (wormhole fp m k).tbt := by
  have hr := (wormhole_table fp m k).rising
  have hx0 : 0 ≤ fp.f32.fl (101 / 10) := fp.f32.fl_nonneg (by norm_num)
  have hx : fp.f32.fl (101 / 10) ≤ 18 := by exact_mod_cast fl_le_nat fp 18 (by norm_num) (by norm_num)
  show _ ≤ steadyAt fp ps [(0, 0), (128, fp.f32.fl (11/2)), (256, fp.f32.fl (101/10)), (512, 18), (1024, fp.f32.fl (137/5)),
    (2048, 30), (8192, 30)]
  have hr : Rising fp [(0, 0), (128, fp.f32.fl (11/2)), (256, fp.f32.fl (101/10)), (512, 18), (1024, fp.f32.fl (137/5)),
    (2048, 30), (8192, 30)] := hr
  rw [steadyAt, if_neg (by simp only; omega), steadyAt, if_neg (by simp only; omega), steadyAt]
  split
  · rename_i h'
    obtain rfl : ps = 512 := Nat.le_antisymm h' h
    have := steadyBw_end fp (a := (256, fp.f32.fl (101/10))) (b := (512, 18)) (by simp)
    simp only at this
    rw [this]
    have e1 := fp.f32.fl_ge_err (x := 18 - fp.f32.fl (101 / 10)) (by linarith)
    have e2 := fp.f32.fl_nonneg (x := 18 - fp.f32.fl (101 / 10)) (by linarith)
    have e3 := fp.f32.fl_ge_err (x := fp.f32.fl (18 - fp.f32.fl (101 / 10)) + fp.f32.fl (101 / 10)) (by linarith)
    linarith
  · have := steadyAt_ge _ _ hr.tail.tail.tail (ps := ps) h
    simp only at this
    linarith

/-- The bandwidth of such transfers. -/
theorem wormhole_bw_ge (fp : FP) (m : Bool) (k : Nat) {ps n : Nat} (h : 512 ≤ ps) (hn : 0 < n) :
    ∃ b, interpolateBW fp (wormhole fp m k).tbt (wormhole fp m k).maxBw ps n = .ok b ∧ 17 ≤ b := by
  obtain ⟨_, _, _, _, _, m3⟩ := interpolateBW_eq (fp := fp) (dev := wormhole fp m k) (wormhole_table fp m k)
    (size := 8192) (bw := 30) rfl (ps := ps) (by omega) (n := n) hn
  refine ⟨_, m3, ?_⟩
  split
  · have := blended_ge fp hn (m := 1799 / 100) (by norm_num) (maxBw := 30) (by norm_num) (wormhole_steady_ge fp m k h)
    linarith
  · norm_num

end NPE
