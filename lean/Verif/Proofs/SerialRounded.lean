import Verif.Proofs.Serial
import Verif.Proofs.BottleneckRounded

/-
Transfers one at a time, with rounding.
-/

namespace NPE
open NPE.Spec NPE.Spec.Fluid

section
variable {R : Rounding} {job : Nat → Job} {n cpt : Nat} {speed : Speed}

/-- A timestep in which nothing is transferred, although not all transfers are finished: a transfer waits for one whose end
is recorded ahead of the clock. -/
theorem idle_reason (hcl : ∀ i, i < n → ∀ j d, (job i).after = some (j, d) → j < n ∧ d = 0)
    (rank : Nat → Nat) (hrank : ∀ i, i < n → ∀ j d, (job i).after = some (j, d) → rank j < rank i)
    (O : Nat) (hO : ∀ i, i < n → (job i).t.offset ≤ O) {k : Nat} (hk : O ≤ (k + 1) * cpt)
    (hun : ¬ AllFinished n (run R.fl job cpt speed k)) (hidle : ¬ 0 < underWay n (within R job cpt speed k)) :
    ∃ j, j < n ∧ ∃ c e, run R.fl job cpt speed k j = .finished c e ∧ (k + 1) * cpt < e := by
  by_contra hcon
  push Not at hcon
  exact hidle (busySteps_all hcl rank hrank O hO hk (fun i hi c e h => hcon i hi c e h) hun)

/-- If ends are recorded less than a timestep and `x` cycles ahead of the clock, there are at most as many idle timesteps as
transfers. -/
theorem busySteps_ge_late {x K : Nat} (hx : x ≤ cpt) (hcl : ∀ i, i < n → ∀ j d, (job i).after = some (j, d) → j < n ∧ d = 0)
    (rank : Nat → Nat) (hrank : ∀ i, i < n → ∀ j d, (job i).after = some (j, d) → rank j < rank i)
    (O : Nat) (hO : ∀ i, i < n → (job i).t.offset ≤ O) (hpos : 0 < cpt)
    (hnear : ∀ k, k < K → ∀ i, i < n → ∀ c e, run R.fl job cpt speed k i = .finished c e → e ≤ (k + 1) * cpt + x)
    (hun : ∀ k, k < K → ¬ AllFinished n (run R.fl job cpt speed k)) :
    K * cpt ≤ O + busySteps R.fl job n cpt speed K * cpt + n * cpt := by
  classical
  -- the idle timesteps
  let idle := (Finset.range K).filter fun k => O ≤ (k + 1) * cpt ∧ ¬ 0 < underWay n (within R job cpt speed k)
  have hidle : idle.card ≤ n := by
    have hreason : ∀ k ∈ idle, ∃ j, j < n ∧ ∃ c e, run R.fl job cpt speed k j = .finished c e ∧ (k + 1) * cpt < e := by
      intro k hk
      obtain ⟨h1, h2, h3⟩ := Finset.mem_filter.mp hk
      exact idle_reason hcl rank hrank O hO h2 (hun k (Finset.mem_range.mp h1)) h3
    let f : Nat → Nat := fun k => if h : ∃ j, j < n ∧ ∃ c e, run R.fl job cpt speed k j = .finished c e ∧ (k + 1) * cpt < e then h.choose else 0
    have hf : ∀ k ∈ idle, f k < n ∧ ∃ c e, run R.fl job cpt speed k (f k) = .finished c e ∧ (k + 1) * cpt < e := by
      intro k hk
      have h := hreason k hk
      have e : f k = h.choose := dif_pos h
      rw [e]
      exact h.choose_spec
    have hle : idle.card ≤ (Finset.range n).card := by
      refine Finset.card_le_card_of_injOn f (fun k hk => Finset.mem_coe.mpr (Finset.mem_range.mpr (hf k hk).1)) ?_
      have key : ∀ k k', k ∈ idle → k' ∈ idle → f k = f k' → ¬ k < k' := by
        intro k k' hk hk' he hlt
        obtain ⟨hn, c, e, h1, h2⟩ := hf k hk
        obtain ⟨hn', c', e', h1', h2'⟩ := hf k' hk'
        have h3 := run_finished_le hlt.le h1
        rw [he, h1'] at h3
        obtain ⟨_, rfl⟩ := Prog.finished.inj h3
        have h4 := hnear k (Finset.mem_range.mp (Finset.mem_filter.mp hk).1) _ hn c _ h1
        have h5 : (k + 1 + 1) * cpt ≤ (k' + 1) * cpt := Nat.mul_le_mul_right _ (by omega)
        rw [Nat.add_mul (k + 1), Nat.one_mul] at h5
        omega
      intro k hk k' hk' he
      have h1 := key k k' (Finset.mem_coe.mp hk) (Finset.mem_coe.mp hk') he
      have h2 := key k' k (Finset.mem_coe.mp hk') (Finset.mem_coe.mp hk) he.symm
      omega
    rwa [Finset.card_range] at hle
  have h1 : (Finset.range K).card ≤ busySteps R.fl job n cpt speed K + n + O / cpt := by
    have hsub : Finset.range K ⊆
        (((Finset.range K).filter fun k => 0 < underWay n (Fluid.start job ((k + 1) * cpt) (run R.fl job cpt speed k))) ∪ idle) ∪
          Finset.range (O / cpt) := by
      intro k hk
      rw [Finset.mem_union, Finset.mem_union]
      by_cases hOk : O ≤ (k + 1) * cpt
      · by_cases hb : 0 < underWay n (within R job cpt speed k)
        · exact Or.inl (Or.inl (Finset.mem_filter.mpr ⟨hk, hb⟩))
        · exact Or.inl (Or.inr (Finset.mem_filter.mpr ⟨hk, hOk, hb⟩))
      · refine Or.inr (Finset.mem_range.mpr ?_)
        have : (k + 1) * cpt ≤ O := by omega
        exact (Nat.le_div_iff_mul_le hpos).mpr this
    refine le_trans (Finset.card_le_card hsub) (le_trans (Finset.card_union_le _ _) ?_)
    rw [Finset.card_range]
    refine Nat.add_le_add_right (le_trans (Finset.card_union_le _ _) ?_) _
    exact Nat.add_le_add_left hidle _
  rw [Finset.card_range] at h1
  have h2 := Nat.mul_le_mul_right cpt h1
  rw [Nat.add_mul, Nat.add_mul] at h2
  have h3 := Nat.div_mul_le_self O cpt
  omega

end

section
variable {fp : FP} {dev : Device} {job : Nat → Job} {n cpt : Nat}

/-- What is asked for is at most what one transfer may ask for, times the number of transfers under way. -/
theorem asked_underWay {curr : Nat} (hpos : 0 < cpt) (hcur : cpt ≤ curr) {w : TState → Nat} {cap : ℚ} {σ : Fluid.State}
    (hown : ∀ j, j < n → 0 ≤ own fp dev (job j).t)
    (hcap : ∀ j, j < n → ∀ c, (w ((job j).began c) : ℚ) * own fp dev (job j).t ≤ cap)
    (hst : ∀ j c m, σ j = .active c m → c ≤ curr) :
    asked fp dev job n cpt w curr σ ≤ underWay n σ * cap := by
  have h1 : (underWay n σ * cap : ℚ) = ((List.range n).map fun j => if (σ j).going then cap else 0).sum := by
    unfold underWay
    rw [Finset.card_filter]
    push_cast
    rw [Finset.sum_mul]
    have : ∀ m, ∑ x ∈ Finset.range m, (if (σ x).going = true then (1 : ℚ) else 0) * cap =
        ((List.range m).map fun j => if (σ j).going then cap else 0).sum := by
      intro m
      induction m with
      | zero => rfl
      | succ m ih =>
        rw [Finset.sum_range_succ, ih, List.range_succ, List.map_append, List.sum_append]
        simp only [List.map_cons, List.map_nil, List.sum_cons, List.sum_nil, add_zero, ite_mul, one_mul, zero_mul]
    exact this n
  rw [h1]
  unfold asked
  refine List.sum_le_sum fun j hj => ?_
  have hj := List.mem_range.mp hj
  cases hσ : σ j with
  | waiting => exact le_rfl
  | finished c e => exact le_rfl
  | active c m =>
    simp only [Prog.going, if_true]
    have hc := hst j c m hσ
    have hsh : share (curr - cpt) curr ((job j).began c) ≤ 1 := by
      unfold share Job.began
      have e1 : ((curr - cpt : ℕ) : ℚ) = (curr : ℚ) - cpt := by push_cast [Nat.cast_sub hcur]; ring
      have hp : (0 : ℚ) < cpt := by exact_mod_cast hpos
      rw [div_le_one (by rw [e1]; linarith)]
      have : ((curr - cpt : ℕ) : ℚ) ≤ ((max (curr - cpt) c : ℕ) : ℚ) := by exact_mod_cast le_max_left _ _
      linarith
    refine le_trans ?_ (hcap j hj c)
    exact mul_le_mul_of_nonneg_left (mul_le_of_le_one_left (hown j hj) hsh) (Nat.cast_nonneg _)

theorem servedIn_underWay {cap x A : ℚ} (hA : 1 ≤ A) (hx : 0 ≤ x) (h : x ≤ A * cap * (129 / 128)) :
    99 / 100 / A ≤ servedIn fp cap x := by
  have hA0 : 0 < A := by linarith
  unfold servedIn
  split
  · rw [div_le_one hA0]; linarith
  · next hne =>
    have hp : 0 < x := lt_of_le_of_ne hx (Ne.symm hne)
    have hcap : 0 < cap := by
      by_contra hc
      have : A * cap ≤ 0 := mul_nonpos_of_nonneg_of_nonpos hA0.le (not_lt.mp hc)
      linarith
    refine le_trans ?_ (fp.f32.fl_ge_err (div_nonneg hcap.le hp.le))
    have h1 : 128 / 129 / A ≤ cap / x := by
      rw [div_div, div_le_div_iff₀ (by positivity) hp]
      linarith
    refine le_trans ?_ (mul_le_mul_of_nonneg_right h1 (by norm_num))
    rw [div_mul_eq_mul_div]
    exact div_le_div_of_nonneg_right (by norm_num) hA0.le

/-- The rounded speed is nearly the bandwidth divided by the number of transfers under way. -/
theorem sharedIn_underWay {order : Nat → List Nat} {curr i c : Nat} {σ : Fluid.State} {A : ℚ} (hA : 1 ≤ A) (hA' : A ≤ 16384)
    (hown : 0 ≤ own fp dev (job i).t) (hN : ∀ w, 0 ≤ loadIn fp dev job cpt (order curr) w curr σ)
    (h : ∀ cap w, Passes dev ((job i).began c) cap w → loadIn fp dev job cpt (order curr) w curr σ ≤ A * cap * (129 / 128)) :
    own fp dev (job i).t / A * (491 / 500) ≤ sharedIn fp dev job cpt order curr σ i := by
  have hA0 : 0 < A := by linarith
  have hle1 : 99 / 100 / A ≤ (1 : ℚ) := by rw [div_le_one hA0]; linarith
  have hpart : ∀ p : ℚ, 99 / 100 / A ≤ p → own fp dev (job i).t / A * (491 / 500) ≤
      if p < 1 then reduced fp dev (own fp dev (job i).t) p else own fp dev (job i).t := by
    intro p hp
    generalize own fp dev (job i).t = b at hown ⊢
    have hp0 : 0 ≤ p := le_trans (by positivity) hp
    have hn := (abs_le.mp (near_apply fp dev hown (some p) hp0)).1
    have hb : b * (99 / 100 / A) ≤ b * min 1 p := mul_le_mul_of_nonneg_left (le_min hle1 hp) hown
    have e : applyDerate fp dev b (some p) = if p < 1 then reduced fp dev b p else b := rfl
    rw [← e]
    have hf : factor (some p) = p := rfl
    rw [hf] at hn
    have h1 : b / 2097152 ≤ b / A * (1 / 128) := by
      have : b / 2097152 = b * (1 / 2097152) := by ring
      rw [this, div_mul_eq_mul_div, mul_div_assoc]
      refine mul_le_mul_of_nonneg_left ?_ hown
      rw [div_div, div_le_div_iff₀ (by norm_num) (by positivity)]
      linarith
    have h2 : b * (99 / 100 / A) = b / A * (99 / 100) := by ring
    have h3 : 0 ≤ b / A := div_nonneg hown hA0.le
    linarith
  unfold Fluid.sharedIn
  simp only
  refine hpart _ (le_min ?_ (le_min ?_ ?_))
  · rcases foldl_max_mem ((job i).route.map fun l => loadIn fp dev job cpt (order curr) (fun u => u.route.count l) curr σ) 0 with
      e | e
    · rw [e]
      unfold servedIn
      rw [if_pos rfl]
      exact hle1
    · obtain ⟨l, hl, e⟩ := List.mem_map.mp e
      rw [← e]
      exact servedIn_underWay hA (hN _) (h _ _ (.link l hl))
  · exact servedIn_underWay hA (hN _) (h _ _ .source)
  · cases hdst : (job i).t.dst with
    | mcast gs => exact hle1
    | unicast d =>
      simp only
      cases ha : dev.getSinkAbsorptionRate d with
      | ok a => exact servedIn_underWay hA (hN _) (h _ _ (.sink d a hdst ha))
      | _ => exact hle1

/-- Whole bytes moved in a timestep, with rounding. -/
theorem perStep_large {v y : ℚ} {M : Nat} (hv : 0 ≤ v) (hy : y * (491 / 500) ≤ cpt * v) (hM : (M : ℚ) * (33 / 32) ≤ y) :
    (M : ℚ) * y ≤ 33 / 32 * ((M + 1) * perStep fp.f32.fl cpt v) := by
  have hM0 : (0 : ℚ) ≤ M := Nat.cast_nonneg _
  have hy0 : 0 ≤ y := by linarith
  have hc : (0 : ℚ) ≤ cpt := Nat.cast_nonneg _
  have h1 := fp.f32.fl_ge_err hc
  have h2 : cpt * v * (1 - 1 / 16777216) ≤ fp.f32.fl cpt * v := by
    have := mul_le_mul_of_nonneg_right h1 hv
    linarith
  have h3 : 0 ≤ fp.f32.fl cpt * v := mul_nonneg (fp.f32.fl_nonneg hc) hv
  have h4 := fp.f32.fl_ge_err h3
  have hx : y * (32 / 33) ≤ fp.f32.fl (fp.f32.fl cpt * v) := by nlinarith
  have hx' : (M : ℚ) ≤ fp.f32.fl (fp.f32.fl cpt * v) := by linarith
  have h5 := floor_large hx'
  unfold perStep
  have h6 : (M : ℚ) * (y * (32 / 33)) ≤ M * fp.f32.fl (fp.f32.fl cpt * v) := mul_le_mul_of_nonneg_left hx hM0
  linarith

end

end NPE
