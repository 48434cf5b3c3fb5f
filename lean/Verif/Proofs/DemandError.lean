import Verif.Proofs.Offered

/-
How far rounding moves the entries of the demand grids.
-/

namespace NPE
open Spec

/-- The error of a `float` sum of numbers that are not negative, upwards. -/
theorem accum_upper (fp : FP) (es : List ℚ) (y : ℚ) (hy : 0 ≤ y) (h : ∀ e ∈ es, 0 ≤ e) :
    accum fp es y * (1 - 1 / 16777216) ^ es.length ≤ y + es.sum := by
  induction es generalizing y with
  | nil => simp
  | cons e es ih =>
    have h0 : 0 ≤ e := h e (by simp)
    have hs : 0 ≤ es.sum := List.sum_nonneg fun x hx => h x (List.mem_cons_of_mem _ hx)
    have h1 := ih (fp.f32.fl (y + e)) (fp.f32.fl_nonneg (by linarith)) fun x hx =>
      h x (List.mem_cons_of_mem _ hx)
    have h2 := fp.f32.fl_le_err (x := y + e) (by linarith)
    have e1 : accum fp (e :: es) y = accum fp es (fp.f32.fl (y + e)) := rfl
    rw [e1, List.sum_cons, List.length_cons, pow_succ, ← mul_assoc]
    refine le_trans (mul_le_mul_of_nonneg_right h1 (by norm_num)) ?_
    nlinarith

/-- The rounding error of a demand, upwards. -/
theorem effectiveDemand_upper {fp : FP} {sot curr : Nat} {t : TState} (h : sot < curr)
    (hs : t.start ≤ curr) (hc : curr < 4294967296) (hb : 0 ≤ t.bw) :
    effectiveDemand fp sot curr t ≤ share sot curr t * t.bw *
      ((1 + 1 / 16777216) ^ 3 / (1 - 1 / 16777216)) := by
  have hm : max sot t.start ≤ curr := max_le h.le hs
  have e : effectiveDemand fp sot curr t = fp.f32.fl (fp.f32.fl (fp.f32.fl
      ((curr - max sot t.start : Nat) : ℚ) / fp.f32.fl ((curr : ℚ) - sot)) * t.bw) := by
    unfold effectiveDemand
    simp only
    rw [toU32_diff hm hc]
  rw [e]
  have hc0 : (0 : ℚ) ≤ ((curr - max sot t.start : Nat) : ℚ) := by positivity
  have hd0 : (0 : ℚ) < (curr : ℚ) - sot := by
    have : (sot : ℚ) < curr := by exact_mod_cast h
    linarith
  have hshare : share sot curr t = ((curr - max sot t.start : Nat) : ℚ) / ((curr : ℚ) - sot) := by
    unfold share; rw [Nat.cast_sub hm]
  rw [hshare]
  set c : ℚ := ((curr - max sot t.start : Nat) : ℚ) with hcdef
  set D : ℚ := (curr : ℚ) - sot with hDdef
  have a1 := fp.f32.fl_le_err hc0
  have a2 := fp.f32.fl_ge_err hd0.le
  have hD1 : 0 < fp.f32.fl D := by nlinarith
  have hc1 : 0 ≤ fp.f32.fl c := fp.f32.fl_nonneg hc0
  have a3 := fp.f32.fl_le_err (x := fp.f32.fl c / fp.f32.fl D) (by positivity)
  have hq1 := fp.f32.fl_nonneg (x := fp.f32.fl c / fp.f32.fl D) (by positivity)
  have a4 := fp.f32.fl_le_err (x := fp.f32.fl (fp.f32.fl c / fp.f32.fl D) * t.bw) (by positivity)
  have b1 : fp.f32.fl c / fp.f32.fl D ≤ c / D * ((1 + 1 / 16777216) / (1 - 1 / 16777216)) := by
    rw [div_mul_div_comm]
    exact div_le_div₀ (by positivity) a1 (by nlinarith) a2
  set u1 : ℚ := 1 - 1 / 16777216 with hu1
  set u2 : ℚ := 1 + 1 / 16777216 with hu2
  have hu1p : 0 < u1 := by rw [hu1]; norm_num
  have hu2p : 0 < u2 := by rw [hu2]; norm_num
  have b2 : fp.f32.fl (fp.f32.fl c / fp.f32.fl D) ≤ c / D * (u2 / u1) * u2 :=
    le_trans a3 (mul_le_mul_of_nonneg_right b1 hu2p.le)
  have b3 : fp.f32.fl (fp.f32.fl (fp.f32.fl c / fp.f32.fl D) * t.bw) ≤ c / D * (u2 / u1) * u2 * t.bw * u2 :=
    le_trans a4 (mul_le_mul_of_nonneg_right (mul_le_mul_of_nonneg_right b2 hb) hu2p.le)
  refine le_trans b3 (le_of_eq ?_)
  field_simp

/-- The number of contributions. -/
theorem contrib_uses {w : TState → Nat} {c : TState → List ℚ} {ts : List TState} : ∀ (live : List Nat),
    (∀ i ∈ live, ∃ t, ts[i]? = some t ∧ (c t).length = w t) →
    (contrib c ts live).length = uses w ts live := by
  intro live
  induction live with
  | nil => intro _; rfl
  | cons i live ih =>
    intro h
    obtain ⟨t, h1, h2⟩ := h i (by simp)
    rw [contrib_cons, List.length_append, ih fun j hj => h j (List.mem_cons_of_mem _ hj)]
    unfold uses
    rw [List.map_cons, List.sum_cons]
    simp only [h1, h2]

/-- The contributions and the offered load. -/
theorem contrib_between {fp : FP} {w : TState → Nat} {c : TState → List ℚ} {sot curr : Nat} {ts : List TState}
    {lo hi : ℚ} : ∀ (live : List Nat), (∀ i ∈ live, ∃ t, ts[i]? = some t ∧
      c t = List.replicate (w t) (effectiveDemand fp sot curr t) ∧
      share sot curr t * t.bw ≤ effectiveDemand fp sot curr t * lo ∧
      effectiveDemand fp sot curr t ≤ share sot curr t * t.bw * hi) →
    offered w sot curr ts live ≤ (contrib c ts live).sum * lo ∧
      (contrib c ts live).sum ≤ offered w sot curr ts live * hi := by
  intro live
  induction live with
  | nil => intro _; simp [contrib, offered]
  | cons i live ih =>
    intro h
    obtain ⟨t, h1, h2, h3, h4⟩ := h i (by simp)
    obtain ⟨i1, i2⟩ := ih fun j hj => h j (List.mem_cons_of_mem _ hj)
    rw [contrib_cons, List.sum_append]
    unfold offered at i1 i2 ⊢
    rw [List.map_cons, List.sum_cons]
    simp only [h1, h2]
    rw [List.sum_replicate, nsmul_eq_mul]
    have hw : (0 : ℚ) ≤ w t := by positivity
    constructor
    · nlinarith [mul_le_mul_of_nonneg_left h3 hw]
    · nlinarith [mul_le_mul_of_nonneg_left h4 hw]

theorem offered_nonneg {w : TState → Nat} {sot curr : Nat} {ts : List TState} {live : List Nat}
    (h : ∀ i ∈ live, ∀ t, ts[i]? = some t → 0 ≤ share sot curr t * t.bw) : 0 ≤ offered w sot curr ts live := by
  unfold offered
  refine List.sum_nonneg fun x hx => ?_
  obtain ⟨i, hi, rfl⟩ := List.mem_map.mp hx
  cases ht : ts[i]? with
  | none => simp
  | some t => exact mul_nonneg (by positivity) (h i hi t ht)

theorem pow_close {n : Nat} (h : n ≤ 65536) : (255 / 256 : ℚ) ≤ (1 - 1 / 16777216) ^ n := by
  have := one_add_mul_le_pow (a := (-(1 / 16777216) : ℚ)) (by norm_num) n
  have e : (1 : ℚ) + -(1 / 16777216) = 1 - 1 / 16777216 := by ring
  rw [e] at this
  refine le_trans ?_ this
  have : (n : ℚ) ≤ 65536 := by exact_mod_cast h
  linarith

/-- An entry of a demand grid is within one part in 128 of the offered load. -/
theorem entry_close {fp : FP} {w : TState → Nat} {c : TState → List ℚ} {sot curr : Nat} {ts : List TState}
    {live : List Nat} (hlt : sot < curr) (hcurr : curr < 4294967296)
    (hs : ∀ i ∈ live, ∃ t, ts[i]? = some t ∧ t.start ≤ curr ∧ 0 ≤ t.bw ∧
      c t = List.replicate (w t) (effectiveDemand fp sot curr t))
    (hn : uses w ts live ≤ 65536) :
    |accum fp (contrib c ts live) 0 - offered w sot curr ts live| ≤ offered w sot curr ts live / 128 := by
  have hlen : (contrib c ts live).length ≤ 65536 := by
    rw [contrib_uses (w := w)]
    · exact hn
    · intro i hi
      obtain ⟨t, ht, _, _, e⟩ := hs i hi
      exact ⟨t, ht, by rw [e, List.length_replicate]⟩
  have hpos : ∀ e ∈ contrib c ts live, 0 ≤ e := by
    refine contrib_nonneg fun i hi t ht e he => ?_
    obtain ⟨t', ht', h1, h2, h3⟩ := hs i hi
    rw [ht] at ht'
    obtain rfl := Option.some.inj ht'
    rw [h3] at he
    rw [(List.mem_replicate.mp he).2]
    exact effectiveDemand_nonneg hlt.le h2
  obtain ⟨b1, b2⟩ := contrib_between (fp := fp) (w := w) (c := c) (sot := sot) (curr := curr) (ts := ts)
    (lo := (1 + 1 / 16777216) / (1 - 1 / 16777216) ^ 3) (hi := (1 + 1 / 16777216) ^ 3 / (1 - 1 / 16777216))
    live (by
      intro i hi
      obtain ⟨t, ht, h1, h2, h3⟩ := hs i hi
      exact ⟨t, ht, h3, effectiveDemand_ge hlt h1 hcurr h2, effectiveDemand_upper hlt h1 hcurr h2⟩)
  have h0 : 0 ≤ (contrib c ts live).sum := List.sum_nonneg hpos
  have u1 := accum_ge fp _ 0 le_rfl hpos
  have u2 := accum_upper fp _ 0 le_rfl hpos
  have u3 := accum_nonneg fp _ 0 le_rfl hpos
  rw [zero_add] at u1 u2
  have hp := pow_close hlen
  generalize ((1 : ℚ) - 1 / 16777216) ^ (contrib c ts live).length = p at hp u1 u2
  generalize accum fp (contrib c ts live) 0 = X at *
  generalize (contrib c ts live).sum = S at *
  generalize offered w sot curr ts live = Y at *
  have k1 : (1 + 1 / 16777216 : ℚ) / (1 - 1 / 16777216) ^ 3 ≤ 1 + 1 / 1000000 := by norm_num
  have k2 : (1 + 1 / 16777216 : ℚ) ^ 3 / (1 - 1 / 16777216) ≤ 1 + 1 / 1000000 := by norm_num
  have k3 := mul_le_mul_of_nonneg_left k1 h0
  have hY : 0 ≤ Y := by
    by_contra hneg
    have : Y * ((1 + 1 / 16777216) ^ 3 / (1 - 1 / 16777216)) < 0 :=
      mul_neg_of_neg_of_pos (by linarith) (by norm_num)
    linarith
  have k4 := mul_le_mul_of_nonneg_left k2 hY
  have k5 := mul_le_mul_of_nonneg_left hp h0
  have k6 := mul_le_mul_of_nonneg_left hp u3
  rw [abs_le]
  constructor <;> linarith

end NPE
