import Verif.Model.Rounding
import Mathlib.Data.Int.Log
import Mathlib.Tactic.Ring
import Mathlib.Tactic.FieldSimp
import Mathlib.Tactic.Positivity
import Mathlib.Algebra.Order.Field.Power
import Mathlib.Tactic.NormNum.Parity

/-
Round-to-nearest, ties-to-even, with a p-bit significand and unbounded exponent: the rounding
that IEEE-754 binary32 (p = 24) and binary64 (p = 53) apply to results in their normal range.
It satisfies the laws of `Rounding`, so the theorems parametric in a rounding apply to it.
-/

namespace NPE

/-- Round to the nearest integer, ties to even. -/
def rne (y : ℚ) : ℤ :=
  if y - ⌊y⌋ < 1/2 then ⌊y⌋
  else if 1/2 < y - ⌊y⌋ then ⌊y⌋ + 1
  else if ⌊y⌋ % 2 = 0 then ⌊y⌋ else ⌊y⌋ + 1

theorem rne_int (n : ℤ) : rne (n : ℚ) = n := by
  simp [rne]

theorem rne_ge_floor (y : ℚ) : ⌊y⌋ ≤ rne y := by
  unfold rne; split_ifs <;> omega

theorem rne_le_floor (y : ℚ) : rne y ≤ ⌊y⌋ + 1 := by
  unfold rne; split_ifs <;> omega

theorem rne_mono {x y : ℚ} (h : x ≤ y) : rne x ≤ rne y := by
  have hf : ⌊x⌋ ≤ ⌊y⌋ := Int.floor_le_floor h
  rcases lt_or_eq_of_le hf with hlt | heq
  · have h1 := rne_le_floor x
    have h2 := rne_ge_floor y
    omega
  · unfold rne
    rw [heq]
    have : x - (⌊y⌋ : ℚ) ≤ y - ⌊y⌋ := by linarith
    split_ifs <;> first | omega | (exfalso; linarith)

theorem rne_neg (y : ℚ) : rne (-y) = - rne y := by
  by_cases hi : (⌊y⌋ : ℚ) = y
  · rw [← hi]
    have : (-(⌊y⌋ : ℚ)) = ((-⌊y⌋ : ℤ) : ℚ) := by push_cast; ring
    rw [this, rne_int, rne_int]
  · have h1 : (⌊y⌋ : ℚ) < y := lt_of_le_of_ne (Int.floor_le y) hi
    have h2 : y < ⌊y⌋ + 1 := Int.lt_floor_add_one y
    have hfl : ⌊-y⌋ = -⌊y⌋ - 1 := by
      rw [Int.floor_eq_iff]
      push_cast
      constructor <;> linarith
    unfold rne
    rw [hfl]
    push_cast
    split_ifs <;> first | omega | (exfalso; linarith)

/-- Weight of the last significand bit for numbers of magnitude `|x|`. -/
def ulp (p : ℕ) (x : ℚ) : ℚ := (2 : ℚ) ^ (Int.log 2 |x| + 1 - p)

/-- Round to nearest even with a `p`-bit significand. -/
def roundP (p : ℕ) (x : ℚ) : ℚ := if x = 0 then 0 else rne (x / ulp p x) * ulp p x

theorem ulp_pos (p : ℕ) (x : ℚ) : 0 < ulp p x := by unfold ulp; positivity

theorem ulp_neg (p : ℕ) (x : ℚ) : ulp p (-x) = ulp p x := by unfold ulp; rw [abs_neg]

theorem roundP_zero (p : ℕ) : roundP p 0 = 0 := by simp [roundP]

theorem roundP_neg (p : ℕ) (x : ℚ) : roundP p (-x) = - roundP p x := by
  unfold roundP
  by_cases h : x = 0
  · simp [h]
  · rw [if_neg h, if_neg (neg_ne_zero.mpr h), ulp_neg, neg_div, rne_neg]
    push_cast; ring

theorem div_ulp_bounds {p : ℕ} {x : ℚ} (hx : 0 < x) :
    (2 : ℚ) ^ ((p : ℤ) - 1) ≤ x / ulp p x ∧ x / ulp p x < (2 : ℚ) ^ (p : ℤ) := by
  have habs : |x| = x := abs_of_pos hx
  have hu := ulp_pos p x
  rw [le_div_iff₀ hu, div_lt_iff₀ hu]
  unfold ulp
  rw [habs, ← zpow_add₀ (by norm_num), ← zpow_add₀ (by norm_num)]
  have h1 := Int.zpow_log_le_self (R := ℚ) (b := 2) (by norm_num) hx
  have h2 := Int.lt_zpow_succ_log_self (R := ℚ) (b := 2) (by norm_num) x
  constructor
  · have e : (p : ℤ) - 1 + (Int.log 2 x + 1 - p) = Int.log 2 x := by ring
    rw [e]; exact_mod_cast h1
  · have e : (p : ℤ) + (Int.log 2 x + 1 - p) = Int.log 2 x + 1 := by ring
    rw [e]; exact_mod_cast h2

theorem pow_int_cast (p : ℕ) : ((2 ^ p : ℤ) : ℚ) = (2 : ℚ) ^ (p : ℤ) := by
  push_cast; rw [zpow_natCast]

theorem roundP_bounds {p : ℕ} (hp : 1 ≤ p) {x : ℚ} (hx : 0 < x) :
    (2 : ℚ) ^ (Int.log 2 x) ≤ roundP p x ∧ roundP p x ≤ (2 : ℚ) ^ (Int.log 2 x + 1) := by
  obtain ⟨h1, h2⟩ := div_ulp_bounds (p := p) hx
  have hu := ulp_pos p x
  have habs : |x| = x := abs_of_pos hx
  rw [roundP, if_neg hx.ne']
  obtain ⟨q, rfl⟩ : ∃ q, p = q + 1 := ⟨p - 1, by omega⟩
  have hr1 : (2 : ℤ) ^ q ≤ rne (x / ulp (q + 1) x) := by
    have : ((2 ^ q : ℤ) : ℚ) ≤ x / ulp (q + 1) x := by
      rw [pow_int_cast]; simpa using h1
    have := rne_mono this
    rwa [rne_int] at this
  have hr2 : rne (x / ulp (q + 1) x) ≤ (2 : ℤ) ^ (q + 1) := by
    have : x / ulp (q + 1) x ≤ ((2 ^ (q + 1) : ℤ) : ℚ) := by
      rw [pow_int_cast]; exact h2.le
    have := rne_mono this
    rwa [rne_int] at this
  constructor
  · have : (2 : ℚ) ^ (Int.log 2 x) = ((2 ^ q : ℤ) : ℚ) * ulp (q + 1) x := by
      rw [pow_int_cast, ulp, habs, ← zpow_add₀ (by norm_num)]
      congr 1; push_cast; ring
    rw [this]
    exact mul_le_mul_of_nonneg_right (by exact_mod_cast hr1) hu.le
  · have : (2 : ℚ) ^ (Int.log 2 x + 1) = ((2 ^ (q + 1) : ℤ) : ℚ) * ulp (q + 1) x := by
      rw [pow_int_cast, ulp, habs, ← zpow_add₀ (by norm_num)]
      congr 1; push_cast; ring
    rw [this]
    exact mul_le_mul_of_nonneg_right (by exact_mod_cast hr2) hu.le

theorem roundP_mono_pos {p : ℕ} (hp : 1 ≤ p) {x y : ℚ} (hx : 0 < x) (h : x ≤ y) :
    roundP p x ≤ roundP p y := by
  have hy : 0 < y := lt_of_lt_of_le hx h
  have hlog : Int.log 2 x ≤ Int.log 2 y := Int.log_mono_right hx h
  rcases lt_or_eq_of_le hlog with hlt | heq
  · have h1 := (roundP_bounds hp hx).2
    have h2 := (roundP_bounds hp hy).1
    have h3 : (2 : ℚ) ^ (Int.log 2 x + 1) ≤ (2 : ℚ) ^ (Int.log 2 y) :=
      zpow_le_zpow_right₀ (by norm_num) (by omega)
    linarith
  · have hu : ulp p x = ulp p y := by unfold ulp; rw [abs_of_pos hx, abs_of_pos hy, heq]
    rw [roundP, roundP, if_neg hx.ne', if_neg hy.ne', hu]
    have hpos := ulp_pos p y
    have := rne_mono (div_le_div_of_nonneg_right h hpos.le)
    exact mul_le_mul_of_nonneg_right (by exact_mod_cast this) hpos.le

theorem roundP_nonneg {p : ℕ} (hp : 1 ≤ p) {x : ℚ} (hx : 0 ≤ x) : 0 ≤ roundP p x := by
  rcases lt_or_eq_of_le hx with h | h
  · exact le_trans (by positivity) (roundP_bounds hp h).1
  · rw [← h, roundP_zero]

theorem roundP_mono {p : ℕ} (hp : 1 ≤ p) {x y : ℚ} (h : x ≤ y) : roundP p x ≤ roundP p y := by
  rcases lt_trichotomy x 0 with hx | hx | hx
  · rcases lt_or_ge y 0 with hy | hy
    · have := roundP_mono_pos hp (x := -y) (y := -x) (by linarith) (by linarith)
      rw [roundP_neg, roundP_neg] at this
      linarith
    · have h1 := roundP_nonneg hp hy
      have h2 := roundP_nonneg hp (x := -x) (by linarith)
      rw [roundP_neg] at h2
      linarith
  · subst hx; rw [roundP_zero]; exact roundP_nonneg hp h
  · exact roundP_mono_pos hp hx h

/-- Numbers with a significand of at most `p` bits are not changed. -/
theorem roundP_rep {p : ℕ} (hp : 1 ≤ p) (k : ℤ) (j : ℤ) (hk : |k| ≤ 2 ^ p) :
    roundP p (k * (2 : ℚ) ^ j) = k * (2 : ℚ) ^ j := by
  -- it suffices that the quotient by the ulp is an integer
  have key : ∀ k : ℤ, 0 < k → k ≤ 2 ^ p → roundP p (k * (2 : ℚ) ^ j) = k * (2 : ℚ) ^ j := by
    intro k hk0 hkp
    have hk0' : (0 : ℚ) < k := by exact_mod_cast hk0
    set x : ℚ := k * (2 : ℚ) ^ j with hxdef
    have hx : 0 < x := by positivity
    have habs : |x| = x := abs_of_pos hx
    have hint : ∃ m : ℤ, x / ulp p x = m := by
      set e := Int.log 2 x with he
      by_cases hj : e + 1 - p ≤ j
      · obtain ⟨n, hn⟩ := Int.eq_ofNat_of_zero_le (show 0 ≤ j - (e + 1 - p) by omega)
        refine ⟨k * 2 ^ n, ?_⟩
        rw [div_eq_iff (ulp_pos p x).ne', ulp, habs, ← he, hxdef]
        push_cast
        rw [mul_assoc, ← zpow_natCast, ← zpow_add₀ (by norm_num)]
        congr 2; omega
      · -- then k = 2^p
        have h1 : (2 : ℚ) ^ e ≤ x := by
          have := Int.zpow_log_le_self (R := ℚ) (b := 2) (by norm_num) hx
          exact_mod_cast this
        have h2 : x ≤ (2 : ℚ) ^ ((p : ℤ) + j) := by
          rw [hxdef, zpow_add₀ (by norm_num), ← pow_int_cast]
          exact mul_le_mul_of_nonneg_right (by exact_mod_cast hkp) (by positivity)
        have h3 : e ≤ p + j := by
          by_contra hc
          have : (2 : ℚ) ^ ((p : ℤ) + j) < (2 : ℚ) ^ e := zpow_lt_zpow_right₀ (by norm_num) (by omega)
          linarith
        have h4 : e = p + j := by omega
        have h5 : x = (2 : ℚ) ^ e := le_antisymm (by rw [h4]; exact h2) h1
        obtain ⟨q, rfl⟩ : ∃ q, p = q + 1 := ⟨p - 1, by omega⟩
        refine ⟨2 ^ q, ?_⟩
        rw [div_eq_iff (ulp_pos _ x).ne', ulp, habs, ← he, pow_int_cast, ← zpow_add₀ (by norm_num)]
        rw [h5]; congr 1; push_cast; ring
    obtain ⟨m, hm⟩ := hint
    rw [roundP, if_neg hx.ne', hm, rne_int, ← hm, div_mul_cancel₀ _ (ulp_pos p x).ne']
  rcases lt_trichotomy k 0 with h | h | h
  · have := key (-k) (by omega) (by rw [abs_of_neg h] at hk; exact hk)
    have e : ((-k : ℤ) : ℚ) * (2 : ℚ) ^ j = -(k * (2 : ℚ) ^ j) := by push_cast; ring
    rw [e, roundP_neg] at this
    linarith
  · subst h; simp [roundP_zero]
  · exact key k h (by rw [abs_of_pos h] at hk; exact hk)

/-- Every rounded number has a `p`-bit significand. -/
theorem roundP_form {p : ℕ} (_hp : 1 ≤ p) (x : ℚ) :
    ∃ (k j : ℤ), |k| ≤ 2 ^ p ∧ roundP p x = k * (2 : ℚ) ^ j := by
  have key : ∀ x : ℚ, 0 < x → ∃ (k j : ℤ), |k| ≤ 2 ^ p ∧ roundP p x = k * (2 : ℚ) ^ j := by
    intro x hx
    refine ⟨rne (x / ulp p x), Int.log 2 |x| + 1 - p, ?_, ?_⟩
    · obtain ⟨h1, h2⟩ := div_ulp_bounds (p := p) hx
      have hle : x / ulp p x ≤ ((2 ^ p : ℤ) : ℚ) := by rw [pow_int_cast]; exact h2.le
      have hge : ((0 : ℤ) : ℚ) ≤ x / ulp p x := by
        have := ulp_pos p x; push_cast; positivity
      have a := rne_mono hle
      have b := rne_mono hge
      rw [rne_int] at a b
      rw [abs_of_nonneg b]; exact a
    · rw [roundP, if_neg hx.ne']; rfl
  rcases lt_trichotomy x 0 with h | h | h
  · obtain ⟨k, j, hk, e⟩ := key (-x) (by linarith)
    refine ⟨-k, j, by rwa [abs_neg], ?_⟩
    rw [roundP_neg] at e
    push_cast; linarith
  · exact ⟨0, 0, by simp, by simp [h, roundP_zero]⟩
  · exact key x h

theorem rne_err (y : ℚ) : |(rne y : ℚ) - y| ≤ 1 / 2 := by
  have h1 := Int.floor_le y
  have h2 := Int.lt_floor_add_one y
  rw [abs_le]
  unfold rne
  split_ifs <;> push_cast <;> constructor <;> linarith

/-- The relative error is at most half of the weight of the last bit. -/
theorem roundP_err {p : ℕ} (hp : 24 ≤ p) (x : ℚ) : |roundP p x - x| ≤ |x| / 16777216 := by
  have key : ∀ x : ℚ, 0 < x → |roundP p x - x| ≤ x / 16777216 := by
    intro x hx
    have hu := ulp_pos p x
    obtain ⟨h1, _⟩ := div_ulp_bounds (p := p) hx
    rw [roundP, if_neg hx.ne']
    have e : (rne (x / ulp p x) : ℚ) * ulp p x - x
        = ((rne (x / ulp p x) : ℚ) - x / ulp p x) * ulp p x := by
      rw [sub_mul, div_mul_cancel₀ _ hu.ne']
    rw [e, abs_mul, abs_of_pos hu]
    have h3 : |(rne (x / ulp p x) : ℚ) - x / ulp p x| * ulp p x ≤ 1 / 2 * ulp p x :=
      mul_le_mul_of_nonneg_right (rne_err _) hu.le
    rw [le_div_iff₀ hu] at h1
    have h4 : (2 : ℚ) ^ (23 : ℤ) ≤ (2 : ℚ) ^ ((p : ℤ) - 1) :=
      zpow_le_zpow_right₀ (by norm_num) (by omega)
    have h5 : (2 : ℚ) ^ (23 : ℤ) = 8388608 := by norm_num
    have h6 : (8388608 : ℚ) * ulp p x ≤ x :=
      le_trans (mul_le_mul_of_nonneg_right (by rw [← h5]; exact h4) hu.le) h1
    linarith
  rcases lt_trichotomy x 0 with h | h | h
  · have := key (-x) (by linarith)
    rw [roundP_neg, ← abs_neg] at this
    rw [abs_of_neg h]
    have e : -(-roundP p x - -x) = roundP p x - x := by ring
    rwa [e] at this
  · simp [h, roundP_zero]
  · rw [abs_of_pos h]; exact key x h

/-- The rounding of binary floating point with a `p`-bit significand, p ≥ 24. -/
def Rounding.binary (p : ℕ) (hp : 24 ≤ p) : Rounding where
  fl := roundP p
  mono h := roundP_mono (by omega) h
  idem x := by
    obtain ⟨k, j, hk, e⟩ := roundP_form (p := p) (by omega) x
    rw [e, roundP_rep (by omega) k j hk]
  int_exact n hn := by
    have := roundP_rep (p := p) (by omega) n 0
      (le_trans hn (by
        have : (2 : ℤ) ^ 24 ≤ 2 ^ p := pow_le_pow_right₀ (by norm_num) hp
        linarith))
    simpa using this
  err x := roundP_err hp x

/-- IEEE-754 binary32/binary64 rounding (normal range). -/
def FP.ieee : FP where
  f32 := .binary 24 (by norm_num)
  f64 := .binary 53 (by norm_num)
  f32_rep64 x := by
    show roundP 53 (roundP 24 x) = roundP 24 x
    obtain ⟨k, j, hk, e⟩ := roundP_form (p := 24) (by omega) x
    rw [e, roundP_rep (by omega) k j (le_trans hk (by norm_num))]

/-- Evaluation of `roundP` on a positive number, given its binary exponent. -/
theorem roundP_eval {p : ℕ} {x : ℚ} (e : ℤ) (hx : 0 < x) (h1 : (2 : ℚ) ^ e ≤ x)
    (h2 : x < (2 : ℚ) ^ (e + 1)) :
    roundP p x = rne (x / (2 : ℚ) ^ (e + 1 - p)) * (2 : ℚ) ^ (e + 1 - p) := by
  have hlog : Int.log 2 x = e := by
    apply le_antisymm
    · have := (Int.lt_zpow_iff_log_lt (R := ℚ) (b := 2) (by norm_num) (x := e + 1) hx).mp
        (by exact_mod_cast h2)
      omega
    · exact (Int.zpow_le_iff_le_log (R := ℚ) (b := 2) (by norm_num) hx).mp (by exact_mod_cast h1)
  rw [roundP, if_neg hx.ne', ulp, abs_of_pos hx, hlog]

/-- The first integer that `float` cannot represent. -/
theorem f32_16777217 : FP.ieee.f32.fl 16777217 = 16777216 := by
  show roundP 24 16777217 = 16777216
  rw [roundP_eval 24 (by norm_num) (by norm_num) (by norm_num)]
  have : rne (16777217 / (2 : ℚ) ^ ((24 : ℤ) + 1 - (24 : ℕ))) = 8388608 := by
    norm_num [rne]
  rw [this]; norm_num

end NPE
