import Verif.Proofs.Binary

/-
The error of `double` arithmetic, smaller than the one required of every `Rounding`.
-/

namespace NPE

/-- The law of `double` arithmetic: half a unit in the last of 53 places. -/
def FP.Double (fp : FP) : Prop := ∀ x : ℚ, |fp.f64.fl x - x| ≤ |x| / 9007199254740992

theorem roundP_err_double (x : ℚ) : |roundP 53 x - x| ≤ |x| / 9007199254740992 := by
  have key : ∀ x : ℚ, 0 < x → |roundP 53 x - x| ≤ x / 9007199254740992 := by
    intro x hx
    have hu := ulp_pos 53 x
    obtain ⟨h1, _⟩ := div_ulp_bounds (p := 53) hx
    rw [roundP, if_neg hx.ne']
    have e : (rne (x / ulp 53 x) : ℚ) * ulp 53 x - x
        = ((rne (x / ulp 53 x) : ℚ) - x / ulp 53 x) * ulp 53 x := by
      rw [sub_mul, div_mul_cancel₀ _ hu.ne']
    rw [e, abs_mul, abs_of_pos hu]
    have h3 : |(rne (x / ulp 53 x) : ℚ) - x / ulp 53 x| * ulp 53 x ≤ 1 / 2 * ulp 53 x :=
      mul_le_mul_of_nonneg_right (rne_err _) hu.le
    rw [le_div_iff₀ hu] at h1
    have h5 : (2 : ℚ) ^ (((53 : ℕ) : ℤ) - 1) = 4503599627370496 := by norm_num
    rw [h5] at h1
    linarith
  rcases lt_trichotomy x 0 with h | h | h
  · have := key (-x) (by linarith)
    rw [roundP_neg, ← abs_neg] at this
    rw [abs_of_neg h]
    have e : -(-roundP 53 x - -x) = roundP 53 x - x := by ring
    rwa [e] at this
  · simp [h, roundP_zero]
  · rw [abs_of_pos h]; exact key x h

theorem ieee_double : FP.ieee.Double := roundP_err_double

theorem exact_double : FP.exact.Double := by
  intro x
  show |x - x| ≤ _
  rw [sub_self, abs_zero]
  positivity

/-- Reciprocals of different numbers up to 2^52 are different. -/
theorem FP.Double.reciprocal {fp : FP} (hd : fp.Double) {a b : Nat} (ha : 0 < a) (hb : b ≤ 4503599627370496)
    (h : a < b) : fp.f64.fl (1 / b) < fp.f64.fl (1 / a) := by
  have ha' : (0 : ℚ) < a := by exact_mod_cast ha
  have hb' : (0 : ℚ) < b := by exact_mod_cast (ha.trans h)
  have h1 := hd (1 / b)
  have h2 := hd (1 / a)
  rw [abs_of_pos (show (0 : ℚ) < 1 / b by positivity), abs_le] at h1
  rw [abs_of_pos (show (0 : ℚ) < 1 / a by positivity), abs_le] at h2
  have h3 : (a : ℚ) + 1 ≤ b := by exact_mod_cast h
  have h4 : (b : ℚ) ≤ 4503599627370496 := by exact_mod_cast hb
  have key : 1 / (b : ℚ) * (1 + 1 / 9007199254740992) < 1 / (a : ℚ) * (1 - 1 / 9007199254740992) := by
    rw [div_mul_eq_mul_div, div_mul_eq_mul_div, div_lt_div_iff₀ hb' ha']
    linarith
  linarith [h1.2, h2.1]

end NPE
