import Verif.Proofs.Table

/-
The blend of a bandwidth with itself is that bandwidth in IEEE arithmetic, for bandwidths with an even significand.
-/

namespace NPE
open Spec

theorem rep_zpow {p : ℕ} (hp : 1 ≤ p) {x : ℚ} (k j : ℤ) (e : x = k * (2 : ℚ) ^ j) (hk : |k| ≤ 2 ^ p) : roundP p x = x := by
  rw [e]; exact roundP_rep hp k j hk

/-- Rounding commutes with powers of two. -/
theorem roundP_scale {p : ℕ} {x : ℚ} (hx : 0 < x) (j : ℤ) : roundP p (x * (2 : ℚ) ^ j) = roundP p x * (2 : ℚ) ^ j := by
  have h1 : (2 : ℚ) ^ Int.log 2 x ≤ x := by
    exact_mod_cast Int.zpow_log_le_self (R := ℚ) (b := 2) (by norm_num) hx
  have h2 : x < (2 : ℚ) ^ (Int.log 2 x + 1) := by
    exact_mod_cast Int.lt_zpow_succ_log_self (R := ℚ) (b := 2) (by norm_num) x
  have hj : (0 : ℚ) < (2 : ℚ) ^ j := by positivity
  rw [roundP_eval (Int.log 2 x) hx h1 h2, roundP_eval (Int.log 2 x + j) (by positivity)
    (by rw [zpow_add₀ (by norm_num)]; exact mul_le_mul_of_nonneg_right h1 hj.le)
    (by rw [show Int.log 2 x + j + 1 = Int.log 2 x + 1 + j by ring, zpow_add₀ (by norm_num)]
        exact mul_lt_mul_of_pos_right h2 hj),
    show Int.log 2 x + j + 1 - (p : ℤ) = Int.log 2 x + 1 - p + j by ring, zpow_add₀ (by norm_num) _ j,
    mul_div_mul_right _ _ hj.ne', mul_assoc]

theorem steadyRatio_half {n : Nat} (hn : 2 ≤ n) : 1 / 2 ≤ steadyRatio .ieee n := by
  have hq : (2 : ℚ) ≤ n := by exact_mod_cast hn
  have h1 : roundP 24 ((n : ℚ) * (2 : ℚ) ^ (-1 : ℤ)) ≤ roundP 24 ((n : ℚ) - 1) :=
    roundP_mono (by norm_num) (by norm_num; linarith)
  rw [roundP_scale (by linarith)] at h1
  have hpos : 0 < FP.ieee.f32.fl n := fl_nat_pos (by omega)
  have h2 : (1 : ℚ) / 2 ≤ FP.ieee.f32.fl ((n : ℚ) - 1) / FP.ieee.f32.fl n := by
    rw [le_div_iff₀ hpos]
    refine le_trans (le_of_eq ?_) h1
    norm_num
    show 1 / 2 * roundP 24 n = _
    ring
  have h3 : FP.ieee.f32.fl (1 / 2) = 1 / 2 := rep_zpow (by norm_num) 1 (-1) (by norm_num) (by norm_num)
  rw [← h3]
  exact FP.ieee.f32.mono h2

theorem steadyRatio_form {n : Nat} (hn : 2 ≤ n) : ∃ k : ℤ, 2 ^ 23 ≤ k ∧ k ≤ 2 ^ 24 ∧
    steadyRatio .ieee n = k * (2 : ℚ) ^ (-24 : ℤ) := by
  have h1 := steadyRatio_half hn
  have h2 := (steadyRatio_bounds .ieee (n := n) (by omega)).2
  set s := steadyRatio .ieee n with hs
  have hid : roundP 24 s = s := FP.ieee.f32.idem _
  rcases lt_or_eq_of_le h2 with h | h
  · rw [roundP_eval (-1) (by linarith) (by norm_num; linarith) (by norm_num; exact h)] at hid
    have e : ((-1 : ℤ) + 1 - (24 : ℕ)) = -24 := by norm_num
    rw [e] at hid
    refine ⟨_, ?_, ?_, hid.symm⟩
    · have : ((8388608 : ℤ) : ℚ) ≤ s / (2 : ℚ) ^ (-24 : ℤ) := by
        rw [le_div_iff₀ (by positivity)]; norm_num; linarith
      have := rne_mono this
      rw [rne_int] at this
      exact this
    · have : s / (2 : ℚ) ^ (-24 : ℤ) ≤ ((16777216 : ℤ) : ℚ) := by
        rw [div_le_iff₀ (by positivity)]; norm_num; linarith
      have := rne_mono this
      rw [rne_int] at this
      exact this
  · exact ⟨2 ^ 24, by norm_num, by norm_num, by rw [h]; norm_num⟩

theorem firstRatio_exact {n : Nat} (hn : 2 ≤ n) : firstRatio .ieee n = 1 - steadyRatio .ieee n := by
  obtain ⟨k, h1, h2, h3⟩ := steadyRatio_form hn
  have e : 1 - steadyRatio .ieee n = ((2 ^ 24 - k : ℤ) : ℚ) * (2 : ℚ) ^ (-24 : ℤ) := by
    rw [h3]; push_cast; rw [sub_mul]; norm_num
  have hk : |(2 ^ 24 - k : ℤ)| ≤ 2 ^ 24 := by rw [abs_le]; constructor <;> linarith
  unfold firstRatio
  have h64 : FP.ieee.f64.fl (1 - steadyRatio .ieee n) = 1 - steadyRatio .ieee n :=
    rep_zpow (by norm_num) _ _ e (le_trans hk (by norm_num))
  have h32 : FP.ieee.f32.fl (1 - steadyRatio .ieee n) = 1 - steadyRatio .ieee n :=
    rep_zpow (by norm_num) _ _ e hk
  rw [h64, h32]

theorem steadyRatio_two : steadyRatio .ieee 2 = 1 / 2 := by
  have h1 : FP.ieee.f32.fl 1 = 1 := FP.ieee.f32.fl_one
  have h2 : FP.ieee.f32.fl 2 = 2 := by
    have := FP.ieee.f32.int_exact 2 (by norm_num)
    exact_mod_cast this
  have h3 : FP.ieee.f32.fl (1 / 2) = 1 / 2 := rep_zpow (by norm_num) 1 (-1) (by norm_num) (by norm_num)
  unfold steadyRatio
  norm_num [h1, h2]
  norm_num at h3
  exact h3

theorem steadyRatio_three {n : Nat} (hn : 3 ≤ n) : 3 / 5 ≤ steadyRatio .ieee n := by
  have hq : (3 : ℚ) ≤ n := by exact_mod_cast hn
  have a := FP.ieee.f32.fl_ge_err (x := (n : ℚ) - 1) (by linarith)
  have b := FP.ieee.f32.fl_le_err (x := (n : ℚ)) (by linarith)
  have hpos : 0 < FP.ieee.f32.fl n := fl_nat_pos (by omega)
  have h2 : (61 : ℚ) / 100 ≤ FP.ieee.f32.fl ((n : ℚ) - 1) / FP.ieee.f32.fl n := by
    rw [le_div_iff₀ hpos]
    linarith
  have c := FP.ieee.f32.fl_ge_err (x := FP.ieee.f32.fl ((n : ℚ) - 1) / FP.ieee.f32.fl n) (by linarith)
  unfold steadyRatio
  linarith

/-- The nearest number to one that is off by at most half a unit is the number itself if its significand is even. -/
theorem round_near {M S : ℚ} {m j : ℤ} (hm : M = m * (2 : ℚ) ^ j) (h1 : 2 ^ 23 < m) (h2 : m < 2 ^ 24) (he : m % 2 = 0)
    (l : M - (2 : ℚ) ^ j / 2 ≤ S) (r : S ≤ M + (2 : ℚ) ^ j / 2) : roundP 24 S = M := by
  have hu : (0 : ℚ) < (2 : ℚ) ^ j := by positivity
  have q1 : (8388609 : ℚ) ≤ m := by exact_mod_cast (by norm_num at h1; omega : (8388609 : ℤ) ≤ m)
  have q2 : (m : ℚ) ≤ 16777214 := by exact_mod_cast (by norm_num at h2; omega : m ≤ (16777214 : ℤ))
  have hj : (2 : ℚ) ^ (j + 23) = 8388608 * (2 : ℚ) ^ j := by rw [zpow_add₀ (by norm_num)]; norm_num; ring
  have hj' : (2 : ℚ) ^ (j + 23 + 1) = 16777216 * (2 : ℚ) ^ j := by
    rw [show j + 23 + 1 = j + 24 by ring, zpow_add₀ (by norm_num)]; norm_num; ring
  have ev : ∀ y : ℚ, 8388608 ≤ y → y < 16777216 → roundP 24 (y * (2 : ℚ) ^ j) = rne y * (2 : ℚ) ^ j := by
    intro y h1 h2
    rw [roundP_eval (j + 23) (by nlinarith) (by rw [hj]; exact mul_le_mul_of_nonneg_right h1 hu.le)
      (by rw [hj']; exact mul_lt_mul_of_pos_right h2 hu), show j + 23 + 1 - ((24 : ℕ) : ℤ) = j by push_cast; ring,
      mul_div_assoc, div_self hu.ne', mul_one]
  have lo : rne ((m : ℚ) - 1 / 2) = m := by
    have hf : ⌊(m : ℚ) - 1 / 2⌋ = m - 1 := by
      rw [Int.floor_eq_iff]; push_cast; constructor <;> linarith
    unfold rne
    rw [hf]
    push_cast
    rw [if_neg (by linarith), if_neg (by linarith), if_neg (by omega)]
    ring
  have hi : rne ((m : ℚ) + 1 / 2) = m := by
    have hf : ⌊(m : ℚ) + 1 / 2⌋ = m := by
      rw [Int.floor_eq_iff]; constructor <;> linarith
    unfold rne
    rw [hf, if_neg (by linarith), if_neg (by linarith), if_pos he]
  have a1 := ev ((m : ℚ) - 1 / 2) (by linarith) (by linarith)
  have a2 := ev ((m : ℚ) + 1 / 2) (by linarith) (by linarith)
  rw [lo, ← hm] at a1
  rw [hi, ← hm] at a2
  apply le_antisymm
  · rw [← a2]
    exact roundP_mono (by norm_num) (le_trans r (le_of_eq (by rw [hm]; ring)))
  · rw [← a1]
    exact roundP_mono (by norm_num) (le_trans (le_of_eq (by rw [hm]; ring)) l)

/-- Parts of a number with an even significand add up to it again. -/
theorem parts_add {M s : ℚ} {m j : ℤ} (hm : M = m * (2 : ℚ) ^ j) (h1 : 2 ^ 23 < m) (h2 : m < 2 ^ 24) (he : m % 2 = 0)
    (hs0 : 1 / 2 ≤ s) (hs1 : s ≤ 1) (hs : 8388608 ≤ s * m) :
    roundP 24 (roundP 24 ((1 - s) * M) + roundP 24 (s * M)) = M := by
  have hu : (0 : ℚ) < (2 : ℚ) ^ j := by positivity
  have q1 : (8388609 : ℚ) ≤ m := by exact_mod_cast (by norm_num at h1; omega : (8388609 : ℤ) ≤ m)
  have q2 : (m : ℚ) ≤ 16777214 := by exact_mod_cast (by norm_num at h2; omega : m ≤ (16777214 : ℤ))
  have hj : (2 : ℚ) ^ (j + 23) = 8388608 * (2 : ℚ) ^ j := by rw [zpow_add₀ (by norm_num)]; norm_num; ring
  have hj' : (2 : ℚ) ^ (j + 23 + 1) = 16777216 * (2 : ℚ) ^ j := by
    rw [show j + 23 + 1 = j + 24 by ring, zpow_add₀ (by norm_num)]; norm_num; ring
  have hsm : s * m ≤ m := by nlinarith
  have ea : roundP 24 (s * M) = rne (s * m) * (2 : ℚ) ^ j := by
    rw [hm, ← mul_assoc, roundP_eval (j + 23) (by nlinarith) (by rw [hj]; exact mul_le_mul_of_nonneg_right hs hu.le)
      (by rw [hj']; exact mul_lt_mul_of_pos_right (by linarith) hu), show j + 23 + 1 - ((24 : ℕ) : ℤ) = j by push_cast; ring,
      mul_div_assoc, div_self hu.ne', mul_one]
  have er := abs_le.mp (rne_err (s * m))
  set R := rne (s * m) with hR
  set K : ℤ := m - R with hK
  have hKq : (K : ℚ) = m - R := by rw [hK]; push_cast; ring
  have hK0 : 0 ≤ K := by
    have : ((-1 : ℤ) : ℚ) < K := by push_cast; rw [hKq]; linarith
    have : -1 < K := by exact_mod_cast this
    omega
  have hK1 : 2 * K ≤ m + 1 := by
    have : 2 * (K : ℚ) ≤ m + 1 := by rw [hKq]; nlinarith
    exact_mod_cast this
  have hj1 : (2 : ℚ) ^ (j - 1) = (2 : ℚ) ^ j / 2 := by rw [zpow_sub₀ (by norm_num)]; norm_num
  have rl : roundP 24 ((K - 1 / 2) * (2 : ℚ) ^ j) = (K - 1 / 2) * (2 : ℚ) ^ j :=
    rep_zpow (by norm_num) (2 * K - 1) (j - 1) (by rw [hj1]; push_cast; ring)
      (by norm_num at h2 ⊢; rw [abs_le]; constructor <;> omega)
  have rr : roundP 24 ((K + 1 / 2) * (2 : ℚ) ^ j) = (K + 1 / 2) * (2 : ℚ) ^ j :=
    rep_zpow (by norm_num) (2 * K + 1) (j - 1) (by rw [hj1]; push_cast; ring)
      (by norm_num at h2 ⊢; rw [abs_le]; constructor <;> omega)
  have b1 : (K - 1 / 2) * (2 : ℚ) ^ j ≤ roundP 24 ((1 - s) * M) := by
    rw [← rl]
    refine roundP_mono (by norm_num) ?_
    rw [hm, ← mul_assoc]
    exact mul_le_mul_of_nonneg_right (by rw [hKq]; linarith) hu.le
  have b2 : roundP 24 ((1 - s) * M) ≤ (K + 1 / 2) * (2 : ℚ) ^ j := by
    rw [← rr]
    refine roundP_mono (by norm_num) ?_
    rw [hm, ← mul_assoc]
    exact mul_le_mul_of_nonneg_right (by rw [hKq]; linarith) hu.le
  rw [hm] at b1 b2
  refine round_near hm h1 h2 he ?_ ?_
  · rw [ea, hm]
    calc _ = (K - 1 / 2) * (2 : ℚ) ^ j + R * (2 : ℚ) ^ j := by rw [hKq]; ring
      _ ≤ _ := by linarith
  · rw [ea, hm]
    calc _ ≤ (K + 1 / 2) * (2 : ℚ) ^ j + R * (2 : ℚ) ^ j := by linarith
      _ = _ := by rw [hKq]; ring

/-- Blending a bandwidth with itself. -/
theorem blended_self {M : ℚ} {m j : ℤ} (hm : M = m * (2 : ℚ) ^ j) (h1 : 13981014 < m) (h2 : m < 2 ^ 24) (he : m % 2 = 0)
    {n : Nat} (hn : 0 < n) : blended .ieee M M n = M := by
  have hrep : FP.ieee.f32.fl M = M := rep_zpow (by norm_num) m j hm (by rw [abs_of_pos (by omega)]; exact h2.le)
  have q1 : (13981014 : ℚ) ≤ m := by exact_mod_cast h1.le
  by_cases c1 : n = 1
  · rw [c1]; exact blended_one .ieee hrep
  · have hs := (steadyRatio_bounds .ieee hn).2
    unfold blended
    rw [firstRatio_exact (by omega)]
    by_cases c2 : n = 2
    · rw [c2, steadyRatio_two]
      have hh : FP.ieee.f32.fl (1 / 2 * M) = 1 / 2 * M :=
        rep_zpow (by norm_num) m (j - 1) (by rw [hm, zpow_sub₀ (by norm_num)]; norm_num; ring)
          (by rw [abs_of_pos (by omega)]; exact h2.le)
      rw [show (1 - 1 / 2 : ℚ) = 1 / 2 by norm_num, hh, show 1 / 2 * M + 1 / 2 * M = M by ring, hrep]
    · have h3 := steadyRatio_three (n := n) (by omega)
      exact parts_add hm (by norm_num; omega) h2 he (by linarith) hs (by nlinarith)

end NPE
