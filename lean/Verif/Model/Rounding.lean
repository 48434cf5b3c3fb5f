import Mathlib.Data.Rat.Floor
import Mathlib.Tactic.Linarith
import Mathlib.Tactic.Positivity

/-
Floating point arithmetic, abstracted.  C++ evaluates `a ∘ b` on `float`/`double` as the exact
result rounded to the nearest representable number.  A `Rounding` is any operator with the laws
that the theorems need; `Rounding.exact` (no rounding) is one instance and
`Verif/Proofs/Binary.lean` shows that round-to-nearest-even with a p-bit significand is
another.  Overflow to infinity and subnormal underflow are outside the model.
-/

namespace NPE

/-- A rounding operator on the rationals. -/
structure Rounding where
  fl : ℚ → ℚ
  mono : ∀ {x y : ℚ}, x ≤ y → fl x ≤ fl y
  idem : ∀ x : ℚ, fl (fl x) = fl x
  /-- integers up to 2^24 are representable (24 bit significand of `float`) -/
  int_exact : ∀ n : ℤ, |n| ≤ 16777216 → fl n = n
  /-- relative error at most 2^-24 (half a unit in the last place) -/
  err : ∀ x : ℚ, |fl x - x| ≤ |x| / 16777216

namespace Rounding

/-- Exact arithmetic. -/
def exact : Rounding where
  fl x := x
  mono h := h
  idem _ := rfl
  int_exact _ _ := rfl
  err x := by simp; positivity

variable (R : Rounding)

@[simp] theorem fl_zero : R.fl 0 = 0 := by simpa using R.int_exact 0 (by norm_num)
@[simp] theorem fl_one : R.fl 1 = 1 := by simpa using R.int_exact 1 (by norm_num)

theorem fl_nat {n : ℕ} (h : n ≤ 16777216) : R.fl n = n := by
  have := R.int_exact (n : ℤ) (by rw [abs_of_nonneg (by positivity)]; exact_mod_cast h)
  simpa using this

theorem fl_nonneg {x : ℚ} (h : 0 ≤ x) : 0 ≤ R.fl x := by
  have := R.mono h; simpa using this

theorem fl_nonpos {x : ℚ} (h : x ≤ 0) : R.fl x ≤ 0 := by
  have := R.mono h; simpa using this

theorem fl_le_one {x : ℚ} (h : x ≤ 1) : R.fl x ≤ 1 := by
  have := R.mono h; simpa using this

theorem one_le_fl {x : ℚ} (h : 1 ≤ x) : 1 ≤ R.fl x := by
  have := R.mono h; simpa using this

/-- `x` is a representable number. -/
def Rep (x : ℚ) : Prop := R.fl x = x

theorem rep_fl (x : ℚ) : R.Rep (R.fl x) := R.idem x
theorem rep_zero : R.Rep 0 := R.fl_zero
theorem rep_one : R.Rep 1 := R.fl_one

theorem fl_le_of_rep {x y : ℚ} (hy : R.Rep y) (h : x ≤ y) : R.fl x ≤ y := by
  have := R.mono h; rwa [hy] at this

theorem le_fl_of_rep {x y : ℚ} (hx : R.Rep x) (h : x ≤ y) : x ≤ R.fl y := by
  have := R.mono h; rwa [hx] at this

theorem fl_le_err {x : ℚ} (h : 0 ≤ x) : R.fl x ≤ x * (1 + 1 / 16777216) := by
  have := R.err x
  rw [abs_of_nonneg h, abs_le] at this
  linarith [this.2]

theorem fl_ge_err {x : ℚ} (h : 0 ≤ x) : x * (1 - 1 / 16777216) ≤ R.fl x := by
  have := R.err x
  rw [abs_of_nonneg h, abs_le] at this
  linarith [this.1]

end Rounding

/-- The pair of `float` (32 bit) and `double` (64 bit) arithmetic; every `float` is a `double`. -/
structure FP where
  f32 : Rounding
  f64 : Rounding
  f32_rep64 : ∀ x : ℚ, f64.fl (f32.fl x) = f32.fl x

/-- Exact arithmetic throughout. -/
def FP.exact : FP := ⟨.exact, .exact, fun _ => rfl⟩

end NPE
