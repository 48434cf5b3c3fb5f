import Verif.Model.Congestion
import Verif.Proofs.Binary
import Verif.Spec.Table
import Mathlib.Tactic.FieldSimp

/-
Interpolation of bandwidths.
-/

namespace NPE
open Spec

/-- One part in 2^24. -/
abbrev ulp24 : ℚ := 1 / 16777216

/-! ### Blending -/

/-- Part of the remaining packets. -/
def steadyRatio (fp : FP) (n : Nat) : ℚ := fp.f32.fl (fp.f32.fl ((n : ℚ) - 1) / fp.f32.fl n)
/-- Part of the first packet. -/
def firstRatio (fp : FP) (n : Nat) : ℚ := fp.f32.fl (fp.f64.fl (1 - steadyRatio fp n))
/-- Blend of both. -/
def blended (fp : FP) (maxBw s : ℚ) (n : Nat) : ℚ :=
  fp.f32.fl (fp.f32.fl (firstRatio fp n * maxBw) + fp.f32.fl (steadyRatio fp n * s))

theorem fl_nat_pos {fp : FP} {n : Nat} (hn : 0 < n) : 0 < fp.f32.fl n := by
  have : (1 : ℚ) ≤ n := by exact_mod_cast hn
  have := fp.f32.one_le_fl this
  linarith

theorem steadyRatio_bounds (fp : FP) {n : Nat} (hn : 0 < n) :
    0 ≤ steadyRatio fp n ∧ steadyRatio fp n ≤ 1 := by
  have h1 : (1 : ℚ) ≤ n := by exact_mod_cast hn
  have h2 := fl_nat_pos (fp := fp) hn
  have h3 : 0 ≤ fp.f32.fl ((n : ℚ) - 1) := fp.f32.fl_nonneg (by linarith)
  have h4 : fp.f32.fl ((n : ℚ) - 1) ≤ fp.f32.fl n := fp.f32.mono (by linarith)
  exact ⟨fp.f32.fl_nonneg (by positivity), fp.f32.fl_le_one ((div_le_one h2).mpr h4)⟩

theorem firstRatio_bounds (fp : FP) {n : Nat} (hn : 0 < n) :
    0 ≤ firstRatio fp n ∧ firstRatio fp n ≤ 1 := by
  obtain ⟨h1, h2⟩ := steadyRatio_bounds fp hn
  exact ⟨fp.f32.fl_nonneg (fp.f64.fl_nonneg (by linarith)),
    fp.f32.fl_le_one (fp.f64.fl_le_one (by linarith))⟩

theorem ratio_sum (fp : FP) {n : Nat} (hn : 0 < n) :
    1 - 3 * ulp24 ≤ steadyRatio fp n + firstRatio fp n ∧
    steadyRatio fp n + firstRatio fp n ≤ 1 + 3 * ulp24 := by
  obtain ⟨h1, h2⟩ := steadyRatio_bounds fp hn
  have h0 : 0 ≤ 1 - steadyRatio fp n := by linarith
  have a1 := fp.f64.fl_ge_err h0
  have a2 := fp.f64.fl_le_err h0
  have b0 := fp.f64.fl_nonneg h0
  have b1 := fp.f32.fl_ge_err b0
  have b2 := fp.f32.fl_le_err b0
  unfold firstRatio
  set s := steadyRatio fp n
  set f := fp.f64.fl (1 - s)
  unfold ulp24
  constructor
  · have : (1 - s) * (1 - 1 / 16777216) * (1 - 1 / 16777216) ≤ f * (1 - 1 / 16777216) :=
      mul_le_mul_of_nonneg_right a1 (by norm_num)
    nlinarith
  · have : f * (1 + 1 / 16777216) ≤ (1 - s) * (1 + 1 / 16777216) * (1 + 1 / 16777216) :=
      mul_le_mul_of_nonneg_right a2 (by norm_num)
    nlinarith

theorem blendBw_eq (fp : FP) (maxBw s : ℚ) {n : Nat} (hn : 0 < n) :
    blendBw fp maxBw s n = .ok (blended fp maxBw s n) := by
  have hs := ratio_sum fp hn
  have h0 : 0 ≤ steadyRatio fp n + firstRatio fp n := by
    have := (steadyRatio_bounds fp hn).1
    have := (firstRatio_bounds fp hn).1
    linarith
  have a1 := fp.f32.fl_le_err h0
  have a2 := fp.f32.fl_ge_err h0
  have c1 := fp.f64.fl_ge_err (x := 10001 / 10000) (by norm_num)
  have c2 := fp.f64.fl_le_err (x := 999 / 1000) (by norm_num)
  unfold ulp24 at hs
  have e1 : fp.f32.fl (steadyRatio fp n + firstRatio fp n) < fp.f64.fl (10001 / 10000) := by
    have : (10001 / 10000 : ℚ) * (1 - 1 / 16777216) > (1 + 3 * (1 / 16777216)) * (1 + 1 / 16777216) := by
      norm_num
    have : (steadyRatio fp n + firstRatio fp n) * (1 + 1 / 16777216) ≤
      (1 + 3 * (1 / 16777216)) * (1 + 1 / 16777216) := mul_le_mul_of_nonneg_right hs.2 (by norm_num)
    linarith
  have e2 : fp.f64.fl (999 / 1000) < fp.f32.fl (steadyRatio fp n + firstRatio fp n) := by
    have : (999 / 1000 : ℚ) * (1 + 1 / 16777216) < (1 - 3 * (1 / 16777216)) * (1 - 1 / 16777216) := by
      norm_num
    have : (1 - 3 * (1 / 16777216)) * (1 - 1 / 16777216) ≤
      (steadyRatio fp n + firstRatio fp n) * (1 - 1 / 16777216) :=
      mul_le_mul_of_nonneg_right hs.1 (by norm_num)
    linarith
  unfold blendBw
  simp only
  rw [if_neg (by omega)]
  have e1' : decide (fp.f32.fl (fp.f32.fl (fp.f32.fl ((n : ℚ) - 1) / fp.f32.fl n) +
      fp.f32.fl (fp.f64.fl (1 - fp.f32.fl (fp.f32.fl ((n : ℚ) - 1) / fp.f32.fl n)))) <
      fp.f64.fl (10001 / 10000)) = true := decide_eq_true e1
  have e2' : decide (fp.f64.fl (999 / 1000) < fp.f32.fl (fp.f32.fl (fp.f32.fl ((n : ℚ) - 1) /
      fp.f32.fl n) + fp.f32.fl (fp.f64.fl (1 - fp.f32.fl (fp.f32.fl ((n : ℚ) - 1) /
      fp.f32.fl n))))) = true := decide_eq_true e2
  rw [e1', e2']
  rfl

theorem blended_mono (fp : FP) (maxBw : ℚ) {s s' : ℚ} {n : Nat} (hn : 0 < n) (h : s ≤ s') :
    blended fp maxBw s n ≤ blended fp maxBw s' n := by
  unfold blended
  have := (steadyRatio_bounds fp hn).1
  exact fp.f32.mono (add_le_add le_rfl (fp.f32.mono (mul_le_mul_of_nonneg_left h this)))

theorem fl_pos {R : Rounding} {x : ℚ} (h : 0 < x) : 0 < R.fl x := by
  have := R.fl_ge_err h.le
  have : 0 < x * (1 - 1 / 16777216) := by positivity
  linarith

theorem blended_pos (fp : FP) {maxBw s : ℚ} {n : Nat} (hn : 0 < n) (hm : 0 < maxBw) (hs : 0 < s) :
    0 < blended fp maxBw s n := by
  obtain ⟨h1, _⟩ := steadyRatio_bounds fp hn
  obtain ⟨h2, _⟩ := firstRatio_bounds fp hn
  have h3 : 0 ≤ fp.f32.fl (firstRatio fp n * maxBw) := fp.f32.fl_nonneg (by positivity)
  have h4 : 0 ≤ fp.f32.fl (steadyRatio fp n * s) := fp.f32.fl_nonneg (by positivity)
  refine fl_pos ?_
  by_cases h0 : steadyRatio fp n = 0
  · have : firstRatio fp n = 1 := by unfold firstRatio; rw [h0]; simp
    rw [this]
    have : 0 < fp.f32.fl (1 * maxBw) := fl_pos (by linarith)
    linarith
  · have : 0 < steadyRatio fp n := lt_of_le_of_ne h1 (Ne.symm h0)
    have : 0 < fp.f32.fl (steadyRatio fp n * s) := fl_pos (by positivity)
    linarith

theorem blended_le (fp : FP) {maxBw s : ℚ} {n : Nat} (hn : 0 < n) (hm : 0 ≤ maxBw) (h0 : 0 ≤ s)
    (hs : s ≤ maxBw * (1 + ulp24) ^ 2) : blended fp maxBw s n ≤ maxBw * (1 + 1 / 2097152) := by
  obtain ⟨h1, _⟩ := steadyRatio_bounds fp hn
  obtain ⟨h2, _⟩ := firstRatio_bounds fp hn
  have h3 := (ratio_sum fp hn).2
  have a1 := fp.f32.fl_le_err (x := firstRatio fp n * maxBw) (by positivity)
  have a2 := fp.f32.fl_le_err (x := steadyRatio fp n * s) (by positivity)
  have a1' := fp.f32.fl_nonneg (x := firstRatio fp n * maxBw) (by positivity)
  have a2' := fp.f32.fl_nonneg (x := steadyRatio fp n * s) (by positivity)
  have a3 := fp.f32.fl_le_err (x := fp.f32.fl (firstRatio fp n * maxBw) +
    fp.f32.fl (steadyRatio fp n * s)) (by linarith)
  unfold blended
  refine le_trans a3 ?_
  unfold ulp24 at *
  set f := firstRatio fp n
  set r := steadyRatio fp n
  have b1 : r * s * (1 + 1 / 16777216) ≤ r * (maxBw * (1 + 1 / 16777216) ^ 2) * (1 + 1 / 16777216) :=
    mul_le_mul_of_nonneg_right (mul_le_mul_of_nonneg_left hs h1) (by norm_num)
  have b2 : f * maxBw * (1 + 1 / 16777216) ≤ f * maxBw * (1 + 1 / 16777216) ^ 3 :=
    mul_le_mul_of_nonneg_left (by norm_num) (by positivity)
  have b3 : fp.f32.fl (f * maxBw) + fp.f32.fl (r * s) ≤ (r + f) * maxBw * (1 + 1 / 16777216) ^ 3 := by
    nlinarith
  have b4 : (r + f) * maxBw * (1 + 1 / 16777216) ^ 3 ≤
      (1 + 3 * (1 / 16777216)) * maxBw * (1 + 1 / 16777216) ^ 3 :=
    mul_le_mul_of_nonneg_right (mul_le_mul_of_nonneg_right h3 hm) (by positivity)
  calc _ ≤ (1 + 3 * (1 / 16777216)) * maxBw * (1 + 1 / 16777216) ^ 3 * (1 + 1 / 16777216) :=
        mul_le_mul_of_nonneg_right (le_trans b3 b4) (by norm_num)
    _ = maxBw * ((1 + 3 * (1 / 16777216)) * (1 + 1 / 16777216) ^ 4) := by ring
    _ ≤ _ := mul_le_mul_of_nonneg_left (by norm_num) hm

theorem blended_one (fp : FP) {maxBw s : ℚ} (hr : fp.f32.Rep maxBw) : blended fp maxBw s 1 = maxBw := by
  have h0 : steadyRatio fp 1 = 0 := by unfold steadyRatio; simp
  have h1 : firstRatio fp 1 = 1 := by unfold firstRatio; rw [h0]; simp
  unfold blended
  rw [h0, h1]
  have hr' : fp.f32.fl maxBw = maxBw := hr
  simp [hr']

theorem blended_exact {maxBw : ℚ} {n : Nat} : blended .exact maxBw maxBw n = maxBw := by
  have e : blended .exact maxBw maxBw n =
      (1 - (n - 1 : ℚ) / n) * maxBw + (n - 1 : ℚ) / n * maxBw := rfl
  rw [e]; ring

/-! ### Steady-state bandwidth -/

theorem steadyBw_ge (fp : FP) {a b : Nat × ℚ} {ps : Nat} (h1 : a.1 ≤ ps) (h3 : a.1 < b.1)
    (hv : a.2 ≤ b.2) (hr : fp.f32.Rep a.2) : a.2 ≤ steadyBw fp a b ps := by
  unfold steadyBw
  simp only
  have q1 : (a.1 : ℚ) ≤ ps := by exact_mod_cast h1
  have q3 : (a.1 : ℚ) < b.1 := by exact_mod_cast h3
  have e1 := fp.f32.fl_nonneg (x := (ps : ℚ) - a.1) (by linarith)
  have e2 := fp.f32.fl_nonneg (x := (b.1 : ℚ) - a.1) (by linarith)
  have e3 := fp.f32.fl_nonneg (x := fp.f32.fl ((ps : ℚ) - a.1) / fp.f32.fl ((b.1 : ℚ) - a.1)) (by positivity)
  have e4 := fp.f32.fl_nonneg (x := b.2 - a.2) (by linarith)
  have e5 := fp.f32.fl_nonneg (x := fp.f32.fl (b.2 - a.2) * fp.f32.fl (fp.f32.fl ((ps : ℚ) - a.1) /
    fp.f32.fl ((b.1 : ℚ) - a.1))) (by positivity)
  exact fp.f32.le_fl_of_rep hr (by linarith)

theorem steadyBw_mono (fp : FP) {a b : Nat × ℚ} {ps ps' : Nat} (h3 : a.1 < b.1)
    (hv : a.2 ≤ b.2) (h : ps ≤ ps') : steadyBw fp a b ps ≤ steadyBw fp a b ps' := by
  unfold steadyBw
  simp only
  have q3 : (a.1 : ℚ) < b.1 := by exact_mod_cast h3
  have q : (ps : ℚ) ≤ ps' := by exact_mod_cast h
  have e2 := fp.f32.fl_nonneg (x := (b.1 : ℚ) - a.1) (by linarith)
  have e4 := fp.f32.fl_nonneg (x := b.2 - a.2) (by linarith)
  refine fp.f32.mono (add_le_add (fp.f32.mono (mul_le_mul_of_nonneg_left (fp.f32.mono ?_) e4)) le_rfl)
  exact div_le_div_of_nonneg_right (fp.f32.mono (by linarith)) e2

/-- At the upper end of an interval. -/
theorem steadyBw_end (fp : FP) {a b : Nat × ℚ} (h3 : a.1 < b.1) :
    steadyBw fp a b b.1 = fp.f32.fl (fp.f32.fl (b.2 - a.2) + a.2) := by
  have q3 : (a.1 : ℚ) < b.1 := by exact_mod_cast h3
  have : 0 < fp.f32.fl ((b.1 : ℚ) - a.1) := fl_pos (by linarith)
  unfold steadyBw
  simp only
  rw [div_self (ne_of_gt this), fp.f32.fl_one, mul_one, fp.f32.idem]

theorem steadyBw_end_le (fp : FP) {a b : Nat × ℚ} (h3 : a.1 < b.1) (h0 : 0 ≤ a.2) (hv : a.2 ≤ b.2) :
    steadyBw fp a b b.1 ≤ b.2 * (1 + ulp24) ^ 2 := by
  rw [steadyBw_end fp h3]
  have a1 := fp.f32.fl_le_err (x := b.2 - a.2) (by linarith)
  have a2 := fp.f32.fl_nonneg (x := b.2 - a.2) (by linarith)
  have a3 := fp.f32.fl_le_err (x := fp.f32.fl (b.2 - a.2) + a.2) (by linarith)
  refine le_trans a3 ?_
  unfold ulp24
  have : fp.f32.fl (b.2 - a.2) + a.2 ≤ b.2 * (1 + 1 / 16777216) := by nlinarith
  calc _ ≤ b.2 * (1 + 1 / 16777216) * (1 + 1 / 16777216) :=
        mul_le_mul_of_nonneg_right this (by norm_num)
    _ = _ := by ring

theorem steadyBw_pos (fp : FP) {a b : Nat × ℚ} {ps : Nat} (h1 : a.1 < ps) (h3 : a.1 < b.1)
    (h0 : 0 ≤ a.2) (hb : 0 < b.2) (hv : a.2 ≤ b.2) (hr : fp.f32.Rep a.2) : 0 < steadyBw fp a b ps := by
  by_cases ha : a.2 = 0
  · have q1 : (a.1 : ℚ) < ps := by exact_mod_cast h1
    have q3 : (a.1 : ℚ) < b.1 := by exact_mod_cast h3
    unfold steadyBw
    simp only
    rw [ha]
    have e1 : 0 < fp.f32.fl ((ps : ℚ) - a.1) := fl_pos (by linarith)
    have e2 : 0 < fp.f32.fl ((b.1 : ℚ) - a.1) := fl_pos (by linarith)
    have e3 : 0 < fp.f32.fl (b.2 - 0) := fl_pos (by linarith)
    have e4 : 0 < fp.f32.fl (fp.f32.fl ((ps : ℚ) - a.1) / fp.f32.fl ((b.1 : ℚ) - a.1)) := fl_pos (by positivity)
    refine fl_pos ?_
    have := fl_pos (R := fp.f32) (x := fp.f32.fl (b.2 - 0) * fp.f32.fl (fp.f32.fl ((ps : ℚ) - a.1) /
      fp.f32.fl ((b.1 : ℚ) - a.1))) (by positivity)
    linarith
  · have := steadyBw_ge fp h1.le h3 hv hr
    have : 0 < a.2 := lt_of_le_of_ne h0 (Ne.symm ha)
    linarith

/-! ### The table search -/

/-- The steady-state bandwidth that the search finds; past the table, the last entry. -/
def steadyAt (fp : FP) (ps : Nat) : List (Nat × ℚ) → ℚ
  | [] => 0
  | [a] => a.2
  | a :: b :: l => if ps ≤ b.1 then steadyBw fp a b ps else steadyAt fp ps (b :: l)

/-- What the search needs of a table from some entry on. -/
structure Rising (fp : FP) (tbt : List (Nat × ℚ)) : Prop where
  sizes : tbt.Pairwise fun a b => a.1 < b.1
  values : tbt.Pairwise fun a b => a.2 ≤ b.2
  nonneg : ∀ e ∈ tbt, 0 ≤ e.2
  floats : ∀ e ∈ tbt, fp.f32.Rep e.2

theorem Rising.tail {fp : FP} {a : Nat × ℚ} {l : List (Nat × ℚ)} (h : Rising fp (a :: l)) : Rising fp l :=
  ⟨(List.pairwise_cons.mp h.sizes).2, (List.pairwise_cons.mp h.values).2,
    fun e he => h.nonneg e (List.mem_cons_of_mem _ he), fun e he => h.floats e (List.mem_cons_of_mem _ he)⟩

theorem interpGo_eq {fp : FP} {maxBw : ℚ} {ps n : Nat} (hn : 0 < n) : ∀ (l : List (Nat × ℚ)) (a : Nat × ℚ),
    Rising fp (a :: l) → a.1 ≤ ps → interpGo fp maxBw ps n (a :: l) =
      .ok (if ps ≤ ((a :: l).getLast (by simp)).1 ∧ l ≠ [] then
        blended fp maxBw (steadyAt fp ps (a :: l)) n else ((a :: l).getLast (by simp)).2) := by
  intro l
  induction l with
  | nil => intro a _ h; simp [interpGo, h]
  | cons b l ih =>
    intro a hr h
    have hab := (List.pairwise_cons.mp hr.sizes).1 b (by simp)
    unfold interpGo
    by_cases hb : ps ≤ b.1
    · rw [if_pos ⟨h, hb⟩, blendBw_eq fp _ _ hn]
      congr 1
      rw [if_pos]
      · unfold steadyAt; rw [if_pos hb]
      · refine ⟨?_, by simp⟩
        rw [List.getLast_cons (by simp)]
        cases l with
        | nil => simpa using hb
        | cons c l =>
          have := (List.pairwise_cons.mp hr.tail.sizes).1 _ (List.getLast_mem (l := c :: l) (by simp))
          rw [List.getLast_cons (by simp)]
          omega
    · rw [if_neg (by tauto), ih b hr.tail (by omega)]
      congr 1
      rw [List.getLast_cons (a := a) (l := b :: l) (by simp)]
      unfold steadyAt
      rw [if_neg hb]
      cases l with
      | nil => simp [hb]
      | cons c l => simp [steadyAt]

theorem steadyAt_ge {fp : FP} {ps : Nat} : ∀ (l : List (Nat × ℚ)) (a : Nat × ℚ), Rising fp (a :: l) →
    a.1 ≤ ps → a.2 ≤ steadyAt fp ps (a :: l) := by
  intro l
  induction l with
  | nil => intro a _ _; simp [steadyAt]
  | cons b l ih =>
    intro a hr h
    have hab := (List.pairwise_cons.mp hr.sizes).1 b (by simp)
    have hv := (List.pairwise_cons.mp hr.values).1 b (by simp)
    unfold steadyAt
    split
    · exact steadyBw_ge fp h hab hv (hr.floats a (by simp))
    · exact le_trans hv (ih b hr.tail (by omega))

theorem steadyAt_le {fp : FP} {ps : Nat} : ∀ (l : List (Nat × ℚ)) (a : Nat × ℚ), Rising fp (a :: l) →
    steadyAt fp ps (a :: l) ≤ ((a :: l).getLast (by simp)).2 * (1 + ulp24) ^ 2 := by
  intro l
  induction l with
  | nil =>
    intro a hr
    have := hr.nonneg a (by simp)
    unfold ulp24
    simp only [steadyAt, List.getLast_singleton]
    nlinarith
  | cons b l ih =>
    intro a hr
    have hab := (List.pairwise_cons.mp hr.sizes).1 b (by simp)
    have hv := (List.pairwise_cons.mp hr.values).1 b (by simp)
    rw [List.getLast_cons (by simp)]
    unfold steadyAt
    split
    · rename_i hps
      refine le_trans (steadyBw_mono fp hab hv hps) (le_trans (steadyBw_end_le fp hab
        (hr.nonneg a (by simp)) hv) (mul_le_mul_of_nonneg_right ?_ (by unfold ulp24; positivity)))
      cases l with
      | nil => simp
      | cons c l =>
        rw [List.getLast_cons (by simp)]
        exact (List.pairwise_cons.mp hr.tail.values).1 _ (List.getLast_mem _)
    · exact ih b hr.tail

theorem steadyAt_pos {fp : FP} {ps : Nat} : ∀ (l : List (Nat × ℚ)) (a : Nat × ℚ), Rising fp (a :: l) →
    a.1 < ps → l ≠ [] → (∀ e ∈ l, 0 < e.2) → 0 < steadyAt fp ps (a :: l) := by
  intro l
  cases l with
  | nil => intro a _ _ h; exact absurd rfl h
  | cons b l =>
    intro a hr h _ hp
    have hab := (List.pairwise_cons.mp hr.sizes).1 b (by simp)
    have hv := (List.pairwise_cons.mp hr.values).1 b (by simp)
    have hb := hp b (by simp)
    unfold steadyAt
    split
    · exact steadyBw_pos fp h hab (hr.nonneg a (by simp)) hb hv (hr.floats a (by simp))
    · exact lt_of_lt_of_le hb (steadyAt_ge l b hr.tail (by omega))

theorem steadyAt_mono {fp : FP} {ps ps' : Nat} (h : ps ≤ ps') : ∀ (l : List (Nat × ℚ)) (a : Nat × ℚ),
    Rising fp (a :: l) → Tight fp (a :: l) → steadyAt fp ps (a :: l) ≤ steadyAt fp ps' (a :: l) := by
  intro l
  induction l with
  | nil => intro a _ _; simp [steadyAt]
  | cons b l ih =>
    intro a hr ht
    have hab := (List.pairwise_cons.mp hr.sizes).1 b (by simp)
    have hv := (List.pairwise_cons.mp hr.values).1 b (by simp)
    unfold steadyAt
    by_cases h1 : ps ≤ b.1
    · rw [if_pos h1]
      by_cases h2 : ps' ≤ b.1
      · rw [if_pos h2]; exact steadyBw_mono fp hab hv h
      · rw [if_neg h2]
        refine le_trans (steadyBw_mono fp hab hv h1) ?_
        rw [steadyBw_end fp hab]
        exact le_trans ht.1 (steadyAt_ge l b hr.tail (by omega))
    · rw [if_neg h1, if_neg (by omega)]
      exact ih b hr.tail ht.2

theorem steadyAt_le_tight {fp : FP} {ps : Nat} : ∀ (l : List (Nat × ℚ)) (a : Nat × ℚ), Rising fp (a :: l) →
    Tight fp (a :: l) → steadyAt fp ps (a :: l) ≤ ((a :: l).getLast (by simp)).2 := by
  intro l
  induction l with
  | nil => intro a _ _; simp [steadyAt]
  | cons b l ih =>
    intro a hr ht
    have hab := (List.pairwise_cons.mp hr.sizes).1 b (by simp)
    have hv := (List.pairwise_cons.mp hr.values).1 b (by simp)
    rw [List.getLast_cons (by simp)]
    unfold steadyAt
    split
    · rename_i hps
      refine le_trans (steadyBw_mono fp hab hv hps) ?_
      rw [steadyBw_end fp hab]
      refine le_trans ht.1 ?_
      cases l with
      | nil => simp
      | cons c l =>
        rw [List.getLast_cons (by simp)]
        exact (List.pairwise_cons.mp hr.tail.values).1 _ (List.getLast_mem _)
    · exact ih b hr.tail ht.2

theorem tight_exact : ∀ (l : List (Nat × ℚ)), Tight .exact l := by
  intro l
  induction l with
  | nil => trivial
  | cons a l ih =>
    cases l with
    | nil => trivial
    | cons b l =>
      refine ⟨?_, ih⟩
      show b.2 - a.2 + a.2 ≤ b.2
      linarith

theorem maxBw_last {l : List (Nat × ℚ)} : ∀ (m : ℚ), l.Pairwise (fun a b => a.2 ≤ b.2) → (∀ e ∈ l, m ≤ e.2) →
    ∀ h : l ≠ [], l.foldl (fun m e => max m e.2) m = (l.getLast h).2 := by
  induction l with
  | nil => intro m _ _ h; exact absurd rfl h
  | cons a l ih =>
    intro m hp hm _
    rw [List.foldl_cons, max_eq_right (hm a (by simp))]
    cases l with
    | nil => simp
    | cons b l =>
      rw [List.getLast_cons (by simp)]
      exact ih a.2 (List.pairwise_cons.mp hp).2 (List.pairwise_cons.mp hp).1 (by simp)

theorem Spec.TableOk.rising {fp : FP} {tbt : List (Nat × ℚ)} (h : TableOk fp tbt) : Rising fp tbt := by
  refine ⟨h.sizes, h.values, ?_, h.floats⟩
  obtain ⟨b, l, e⟩ := h.first
  have hp := h.positive
  rw [e] at hp ⊢
  intro x hx
  rcases List.mem_cons.mp hx with rfl | hx
  · exact le_rfl
  · exact (hp x hx).le

/-- The interpolated bandwidth. -/
theorem interpolateBW_eq {fp : FP} {dev : Device} (h : TableOk fp dev.tbt) {size : Nat} {bw : ℚ}
    (hp : Peak dev.tbt size bw) {ps n : Nat} (hps : 0 < ps) (hn : 0 < n) :
    dev.maxBw = bw ∧ fp.f32.Rep bw ∧ 0 < bw ∧ 0 < steadyAt fp ps dev.tbt ∧
    steadyAt fp ps dev.tbt ≤ bw * (1 + ulp24) ^ 2 ∧
    interpolateBW fp dev.tbt dev.maxBw ps n =
      .ok (if ps ≤ size then blended fp bw (steadyAt fp ps dev.tbt) n else bw) := by
  have hr := h.rising
  obtain ⟨b, l, e⟩ := h.first
  have hpos := h.positive
  have hne : dev.tbt ≠ [] := by rw [e]; simp
  have hlast : dev.tbt.getLast hne = (size, bw) := by
    have h2 := List.getLast?_eq_getLast_of_ne_nil hne
    have hp' : dev.tbt.getLast? = some (size, bw) := hp
    rw [hp'] at h2
    exact (Option.some.inj h2).symm
  have hm : dev.maxBw = bw := by
    unfold Device.maxBw
    rw [maxBw_last 0 h.values hr.nonneg hne, hlast]
  have hmem : (size, bw) ∈ dev.tbt := by rw [← hlast]; exact List.getLast_mem hne
  have hlast' : ((0, 0) :: b :: l : List (Nat × ℚ)).getLast (by simp) = (size, bw) := by
    have hp' : dev.tbt.getLast? = some (size, bw) := hp
    rw [e, List.getLast?_eq_getLast_of_ne_nil (by simp)] at hp'
    exact Option.some.inj hp'
  have hbw : 0 < bw := by
    have h2 : (size, bw) ∈ dev.tbt.tail := by
      rw [e, List.tail_cons, ← hlast', List.getLast_cons (by simp)]
      exact List.getLast_mem _
    exact hpos _ h2
  rw [e] at hr hpos
  refine ⟨hm, h.floats _ hmem, hbw, ?_, ?_, ?_⟩
  · rw [e]; exact steadyAt_pos _ _ hr hps (by simp) hpos
  · have := steadyAt_le (ps := ps) _ _ hr
    rw [hlast'] at this
    rw [e]; exact this
  · unfold interpolateBW
    rw [show decide (0 < ps) = true from decide_eq_true hps, Out.assert_true, Out.bind_ok, hm, e,
      interpGo_eq hn _ _ hr (Nat.zero_le _)]
    rw [hlast']
    simp

/-! ### The tables of the devices -/

theorem rep_nat (fp : FP) (n : Nat) (h : n ≤ 16777216) : fp.f32.Rep (n : ℚ) := fp.f32.fl_nat h

theorem fl_le_nat (fp : FP) {x : ℚ} (n : Nat) (hn : n ≤ 16777216) (h : x ≤ n) : fp.f32.fl x ≤ n :=
  fp.f32.fl_le_of_rep (rep_nat fp n hn) h

theorem nat_le_fl (fp : FP) {x : ℚ} (n : Nat) (hn : n ≤ 16777216) (h : (n : ℚ) ≤ x) : n ≤ fp.f32.fl x :=
  fp.f32.le_fl_of_rep (rep_nat fp n hn) h

theorem wormhole_table (fp : FP) (m : Bool) (k : Nat) : TableOk fp (wormhole fp m k).tbt := by
  have a1 : (5 : ℚ) ≤ fp.f32.fl (11 / 2) := by exact_mod_cast nat_le_fl fp 5 (by norm_num) (by norm_num)
  have a2 : fp.f32.fl (11 / 2) ≤ fp.f32.fl (101 / 10) := fp.f32.mono (by norm_num)
  have a3 : fp.f32.fl (101 / 10) ≤ 18 := by exact_mod_cast fl_le_nat fp 18 (by norm_num) (by norm_num)
  have a4 : (18 : ℚ) ≤ fp.f32.fl (137 / 5) := by exact_mod_cast nat_le_fl fp 18 (by norm_num) (by norm_num)
  have a5 : fp.f32.fl (137 / 5) ≤ 30 := by exact_mod_cast fl_le_nat fp 30 (by norm_num) (by norm_num)
  have r18 : fp.f32.Rep 18 := by exact_mod_cast rep_nat fp 18 (by norm_num)
  have r30 : fp.f32.Rep 30 := by exact_mod_cast rep_nat fp 30 (by norm_num)
  refine ⟨⟨_, _, rfl⟩, ?_, ?_, ?_, ?_⟩
  · unfold wormhole; simp
  · unfold wormhole
    simp only [List.pairwise_cons, List.mem_cons, List.not_mem_nil, or_false, forall_eq_or_imp, forall_eq,
      List.Pairwise.nil, and_true, false_imp_iff, implies_true]
    refine ⟨⟨?_, ?_, ?_, ?_, ?_, ?_⟩, ⟨?_, ?_, ?_, ?_, ?_⟩, ⟨?_, ?_, ?_, ?_⟩, ⟨?_, ?_, ?_⟩, ⟨?_, ?_⟩, ?_⟩ <;> linarith
  · unfold wormhole
    simp only [List.tail_cons, List.mem_cons, List.not_mem_nil, or_false, forall_eq_or_imp, forall_eq]
    refine ⟨?_, ?_, ?_, ?_, ?_, ?_⟩ <;> linarith
  · unfold wormhole
    simp only [List.mem_cons, List.not_mem_nil, or_false, forall_eq_or_imp, forall_eq]
    exact ⟨fp.f32.rep_zero, fp.f32.rep_fl _, fp.f32.rep_fl _, r18, fp.f32.rep_fl _, r30, r30⟩

theorem blackhole_table (fp : FP) (p : Bool) : TableOk fp (blackhole fp p).tbt := by
  have a1 : (6 : ℚ) ≤ fp.f32.fl (121 / 10) := by exact_mod_cast nat_le_fl fp 6 (by norm_num) (by norm_num)
  have a2 : fp.f32.fl (121 / 10) ≤ fp.f32.fl (121 / 5) := fp.f32.mono (by norm_num)
  have a3 : fp.f32.fl (121 / 5) ≤ 48 := by exact_mod_cast fl_le_nat fp 48 (by norm_num) (by norm_num)
  have a4 : (48 : ℚ) ≤ fp.f32.fl (577 / 10) := by exact_mod_cast nat_le_fl fp 48 (by norm_num) (by norm_num)
  have a5 : fp.f32.fl (577 / 10) ≤ fp.f32.fl (587 / 10) := fp.f32.mono (by norm_num)
  have a6 : fp.f32.fl (587 / 10) ≤ fp.f32.fl (302 / 5) := fp.f32.mono (by norm_num)
  have a7 : fp.f32.fl (302 / 5) ≤ fp.f32.fl (609 / 10) := fp.f32.mono (by norm_num)
  have r6 : fp.f32.Rep 6 := by exact_mod_cast rep_nat fp 6 (by norm_num)
  have r48 : fp.f32.Rep 48 := by exact_mod_cast rep_nat fp 48 (by norm_num)
  refine ⟨⟨_, _, rfl⟩, ?_, ?_, ?_, ?_⟩
  · unfold blackhole; simp
  · unfold blackhole
    simp only [List.pairwise_cons, List.mem_cons, List.not_mem_nil, or_false, forall_eq_or_imp, forall_eq,
      List.Pairwise.nil, and_true, false_imp_iff, implies_true]
    refine ⟨⟨?_, ?_, ?_, ?_, ?_, ?_, ?_, ?_⟩, ⟨?_, ?_, ?_, ?_, ?_, ?_, ?_⟩, ⟨?_, ?_, ?_, ?_, ?_, ?_⟩,
      ⟨?_, ?_, ?_, ?_, ?_⟩, ⟨?_, ?_, ?_, ?_⟩, ⟨?_, ?_, ?_⟩, ⟨?_, ?_⟩, ?_⟩ <;> linarith
  · unfold blackhole
    simp only [List.tail_cons, List.mem_cons, List.not_mem_nil, or_false, forall_eq_or_imp, forall_eq]
    refine ⟨?_, ?_, ?_, ?_, ?_, ?_, ?_, ?_⟩ <;> linarith
  · unfold blackhole
    simp only [List.mem_cons, List.not_mem_nil, or_false, forall_eq_or_imp, forall_eq]
    exact ⟨fp.f32.rep_zero, r6, fp.f32.rep_fl _, fp.f32.rep_fl _, r48, fp.f32.rep_fl _, fp.f32.rep_fl _,
      fp.f32.rep_fl _, fp.f32.rep_fl _⟩

end NPE
