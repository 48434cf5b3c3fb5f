import Verif.Proofs.SerialRounded
import Verif.Spec.Chain

/-
The end of a transfer is not later than the longest chain of transfers that it waits for.
-/

namespace NPE
open NPE.Spec NPE.Spec.Fluid

/-- Chains in the description: `x` is the offset of the first transfer, with the delays and a duration for each transfer. -/
inductive JobChain (job : Nat → Job) (duration : Nat → ℚ) : Nat → ℚ → Prop
  | first {i : Nat} : JobChain job duration i ((job i).t.offset + duration i)
  | next {i j d : Nat} {x : ℚ} : JobChain job duration j x → (job i).after = some (j, d) →
      JobChain job duration i (x + d + duration i)

section
variable {R : Rounding} {job : Nat → Job} {n cpt : Nat} {speed : Speed}

/-- A transfer that is active began in some timestep, and has moved a part in every timestep since. -/
theorem began_in {P : Nat} {i : Nat} (k : Nat)
    (hP : ∀ k', k' < k → ∀ c m, within R job cpt speed k' i = .active c m →
      P ≤ perStep R.fl cpt (speed ((k' + 1) * cpt) (within R job cpt speed k') i)) {c m : Nat}
    (h : run R.fl job cpt speed k i = .active c m) :
    ∃ b, b < k ∧ run R.fl job cpt speed b i = .waiting ∧ begins job ((b + 1) * cpt) (run R.fl job cpt speed b) i = some c ∧
      (k - b - 1) * P ≤ m ∧ c ≤ (b + 1) * cpt := by
  induction k generalizing c m with
  | zero => cases h
  | succ k ih =>
    have hrun : run R.fl job cpt speed (k + 1) i = advance R.fl job cpt speed ((k + 1) * cpt) (within R job cpt speed k) i := rfl
    rw [hrun] at h
    unfold Fluid.advance at h
    cases ha : within R job cpt speed k i with
    | waiting => rw [ha] at h; cases h
    | finished x y => rw [ha] at h; cases h
    | active c' m' =>
      rw [ha] at h
      simp only at h
      split at h
      · cases h
      · next hnf =>
        obtain ⟨rfl, hm⟩ := Prog.active.inj h
        by_cases hw : run R.fl job cpt speed k i = .waiting
        · have hb : begins job ((k + 1) * cpt) (run R.fl job cpt speed k) i = some c' := by
            unfold within Fluid.start at ha
            cases hb : begins job ((k + 1) * cpt) (run R.fl job cpt speed k) i with
            | none => rw [hb] at ha; rw [hw] at ha; cases ha
            | some b => rw [hb] at ha; rw [(Prog.active.inj ha).1]
          refine ⟨k, by omega, hw, hb, ?_, active_le k i _ _ ha⟩
          have : k + 1 - k - 1 = 0 := by omega
          rw [this, Nat.zero_mul]
          exact Nat.zero_le _
        · have hr : run R.fl job cpt speed k i = .active c' m' := (start_other (job := job) (curr := (k + 1) * cpt) hw).symm.trans ha
          obtain ⟨b, h1, h2, h3, h4, h5⟩ := ih (fun k' hk' => hP k' (by omega)) hr
          refine ⟨b, by omega, h2, h3, ?_, h5⟩
          have hc : c' ≤ k * cpt := le_trans h5 (Nat.mul_le_mul_right _ h1)
          have hcr : cpt ≤ credit job cpt ((k + 1) * cpt) (within R job cpt speed k) i c' :=
            le_trans (by rw [Nat.add_mul, Nat.one_mul]; omega) credit_ge
          have hp := perStep_le (R := R) hcr (le_refl (speed ((k + 1) * cpt) (within R job cpt speed k) i))
          have hq := hP k (by omega) c' m' ha
          have hleft := run_left k i hr
          have e : (k + 1 - b - 1) * P = (k - b - 1) * P + P := by
            have : k + 1 - b - 1 = (k - b - 1) + 1 := by omega
            rw [this, Nat.add_mul, Nat.one_mul]
          rw [e, ← hm]
          omega

/-- The timestep in which a transfer finished. -/
theorem first_finished {m j c e : Nat} (h : run R.fl job cpt speed m j = .finished c e) : ∃ k, k < m ∧
    run R.fl job cpt speed (k + 1) j = .finished c e ∧ ∀ c e, run R.fl job cpt speed k j ≠ .finished c e := by
  induction m with
  | zero => cases h
  | succ m ihm =>
    by_cases hm : ∀ c e, run R.fl job cpt speed m j ≠ .finished c e
    · exact ⟨m, by omega, h, hm⟩
    · push Not at hm
      obtain ⟨c1, e1, hm⟩ := hm
      have h1 := run_finished_le (Nat.le_succ m) hm
      rw [h] at h1
      obtain ⟨rfl, rfl⟩ := Prog.finished.inj h1
      obtain ⟨k, hk, hk'⟩ := ihm hm
      exact ⟨k, by omega, hk'⟩

/-- When the timestep in which a transfer begins ends. -/
theorem begins_chain {x : Nat} {duration : Nat → ℚ} {b i c : Nat} (hw : run R.fl job cpt speed b i = .waiting)
    (hb : begins job ((b + 1) * cpt) (run R.fl job cpt speed b) i = some c)
    (hnear : ∀ k, k ≤ b → ∀ j c e, run R.fl job cpt speed k j = .finished c e → e ≤ (k + 1) * cpt + x)
    (ih : ∀ k, k < b → ∀ j d, (job i).after = some (j, d) → ∀ c e, run R.fl job cpt speed (k + 1) j = .finished c e →
      (∀ c e, run R.fl job cpt speed k j ≠ .finished c e) → ∃ y, JobChain job duration j y ∧ ((k + 1) * cpt : ℚ) ≤ y) :
    ∃ y, JobChain job duration i (y + duration i) ∧ ((b + 1) * cpt : ℚ) ≤ y + 2 * cpt + x := by
  have hx : (0 : ℚ) ≤ x := Nat.cast_nonneg _
  have hcp : (0 : ℚ) ≤ cpt := Nat.cast_nonneg _
  by_cases hoff : b * cpt ≤ (job i).t.offset
  · refine ⟨_, .first, ?_⟩
    have : ((b * cpt : ℕ) : ℚ) ≤ (job i).t.offset := by exact_mod_cast hoff
    push_cast at this
    linarith
  · have hb0 : b ≠ 0 := by rintro rfl; omega
    obtain ⟨b', rfl⟩ := Nat.exists_eq_succ_of_ne_zero hb0
    -- it did not begin in the timestep before
    have hw' : run R.fl job cpt speed b' i = .waiting ∧ begins job ((b' + 1) * cpt) (run R.fl job cpt speed b') i = none := by
      have hrun : run R.fl job cpt speed (b' + 1) i =
        advance R.fl job cpt speed ((b' + 1) * cpt) (within R job cpt speed b') i := rfl
      rw [hrun] at hw
      unfold Fluid.advance at hw
      cases ha : within R job cpt speed b' i with
      | finished x y => rw [ha] at hw; cases hw
      | active x y =>
        rw [ha] at hw
        simp only at hw
        split at hw <;> cases hw
      | waiting =>
        unfold within Fluid.start at ha
        cases hbb : begins job ((b' + 1) * cpt) (run R.fl job cpt speed b') i with
        | none => rw [hbb] at ha; exact ⟨ha, rfl⟩
        | some z => rw [hbb] at ha; cases ha
    obtain ⟨hw1, hw2⟩ := hw'
    unfold begins at hw2 hb
    rw [hw1] at hw2
    rw [hw] at hb
    simp only at hw2 hb
    rw [if_pos (show (job i).t.offset ≤ (b' + 1) * cpt by have : b'.succ * cpt = (b' + 1) * cpt := rfl; omega)] at hw2
    split at hb
    swap
    · cases hb
    cases ha : (job i).after with
    | none => rw [ha] at hw2; cases hw2
    | some jd =>
      obtain ⟨j, d⟩ := jd
      rw [ha] at hw2 hb
      simp only at hw2 hb
      have hd0 : (0 : ℚ) ≤ d := Nat.cast_nonneg _
      cases hj : run R.fl job cpt speed (b' + 1) j with
      | waiting => rw [show run R.fl job cpt speed b'.succ j = _ from hj] at hb; cases hb
      | active x y => rw [show run R.fl job cpt speed b'.succ j = _ from hj] at hb; cases hb
      | finished cj ej =>
        by_cases hlast : ∀ c e, run R.fl job cpt speed b' j ≠ .finished c e
        · obtain ⟨y, hy, hle⟩ := ih b' (by omega) j d ha cj ej hj hlast
          refine ⟨y + d, .next hy ha, ?_⟩
          push_cast
          linarith
        · push Not at hlast
          obtain ⟨cj', ej', hj'⟩ := hlast
          have he := run_finished_le (Nat.le_succ b') hj'
          rw [hj] at he
          obtain ⟨rfl, rfl⟩ := Prog.finished.inj he
          rw [hj'] at hw2
          simp only at hw2
          split at hw2
          · cases hw2
          · next hlate =>
            obtain ⟨k, hk, hk1, hk2⟩ := first_finished hj'
            obtain ⟨y, hy, hle⟩ := ih k (by omega) j d ha cj ej hk1 hk2
            refine ⟨y + d, .next hy ha, ?_⟩
            have h1 := hnear (k + 1) (by omega) j cj ej hk1
            have h2 := Nat.mod_le (ej + d) 4294967296
            have h3 : (b' + 1) * cpt ≤ (k + 1 + 1) * cpt + x + d := by omega
            have h3' : (((b' + 1) * cpt : ℕ) : ℚ) ≤ (((k + 1 + 1) * cpt + x + d : ℕ) : ℚ) := by exact_mod_cast h3
            push_cast at h3' ⊢
            linarith

/-- If every active transfer moves at least a part of `F` of what it needs in each timestep, it finishes not later than the
longest chain ends, where three timesteps and `x` cycles are added for each transfer. -/
theorem finish_chain {x K : Nat} (F : ℚ) (hF : 0 ≤ F) (o : Nat → ℚ) (P : Nat → Nat) (ho : ∀ i, i < n → 0 < o i)
    (hcl : ∀ i, i < n → ∀ j d, (job i).after = some (j, d) → j < n)
    (hPo : ∀ i, i < n → (cpt : ℚ) * o i ≤ F * P i)
    (hP : ∀ i, i < n → ∀ k, k < K → ∀ c m, within R job cpt speed k i = .active c m →
      P i ≤ perStep R.fl cpt (speed ((k + 1) * cpt) (within R job cpt speed k) i))
    (hnear : ∀ k, k < K → ∀ j c e, run R.fl job cpt speed k j = .finished c e → e ≤ (k + 1) * cpt + x) :
    ∀ k, k < K → ∀ i, i < n → ∀ c e, run R.fl job cpt speed (k + 1) i = .finished c e →
      (∀ c e, run R.fl job cpt speed k i ≠ .finished c e) →
      ∃ y, JobChain job (fun i => F * ((job i).t.totalBytes / o i) + 3 * cpt + x) i y ∧ ((k + 1) * cpt : ℚ) ≤ y := by
  intro k
  induction k using Nat.strong_induction_on with
  | _ k ih =>
    intro hk i hi c e hf hnf
    have hcp : (0 : ℚ) ≤ cpt := Nat.cast_nonneg _
    -- the timestep in which it began
    have hbeg : ∃ b c0, b ≤ k ∧ run R.fl job cpt speed b i = .waiting ∧
        begins job ((b + 1) * cpt) (run R.fl job cpt speed b) i = some c0 ∧
        ((k : ℚ) - b - 1) * cpt ≤ F * ((job i).t.totalBytes / o i) := by
      have hsum : 0 ≤ F * (((job i).t.totalBytes : ℚ) / o i) := mul_nonneg hF (div_nonneg (Nat.cast_nonneg _) (ho i hi).le)
      cases hr : run R.fl job cpt speed k i with
      | finished c1 e1 => exact absurd hr (hnf c1 e1)
      | waiting =>
        have hb : ∃ c0, begins job ((k + 1) * cpt) (run R.fl job cpt speed k) i = some c0 := by
          cases hb : begins job ((k + 1) * cpt) (run R.fl job cpt speed k) i with
          | some c0 => exact ⟨c0, rfl⟩
          | none =>
            have hst : Fluid.start job ((k + 1) * cpt) (run R.fl job cpt speed k) i = .waiting := by
              unfold Fluid.start
              rw [hb]
              exact hr
            have hrun : run R.fl job cpt speed (k + 1) i = advance R.fl job cpt speed ((k + 1) * cpt)
              (Fluid.start job ((k + 1) * cpt) (run R.fl job cpt speed k)) i := rfl
            rw [hrun] at hf
            unfold Fluid.advance at hf
            rw [hst] at hf
            cases hf
        obtain ⟨c0, hb⟩ := hb
        refine ⟨k, c0, le_rfl, hr, hb, ?_⟩
        have : ((k : ℚ) - k - 1) * cpt = -cpt := by ring
        rw [this]
        linarith
      | active c1 m1 =>
        obtain ⟨b, h1, h2, h3, h4, _⟩ := began_in (P := P i) k (fun k' hk' => hP i hi k' (by omega)) hr
        refine ⟨b, c1, h1.le, h2, h3, ?_⟩
        have hl := run_left k i hr
        have h5 : ((k - b - 1) * P i : ℕ) ≤ (job i).t.totalBytes := by omega
        have h6 : ((k : ℚ) - b - 1) * P i ≤ (job i).t.totalBytes := by
          have : (((k - b - 1) * P i : ℕ) : ℚ) ≤ (job i).t.totalBytes := by exact_mod_cast h5
          rw [Nat.cast_mul, Nat.cast_sub (by omega), Nat.cast_sub (by omega)] at this
          exact_mod_cast this
        have h0 : (0 : ℚ) ≤ (k : ℚ) - b - 1 := by
          have : ((b + 1 : ℕ) : ℚ) ≤ k := by exact_mod_cast h1
          push_cast at this
          linarith
        have hop := ho i hi
        rw [← mul_div_assoc, le_div_iff₀ hop]
        calc ((k : ℚ) - b - 1) * cpt * o i = ((k : ℚ) - b - 1) * (cpt * o i) := by ring
          _ ≤ ((k : ℚ) - b - 1) * (F * P i) := mul_le_mul_of_nonneg_left (hPo i hi) h0
          _ = F * (((k : ℚ) - b - 1) * P i) := by ring
          _ ≤ _ := mul_le_mul_of_nonneg_left h6 hF
    obtain ⟨b, c0, hbk, hw, hb, hlen⟩ := hbeg
    obtain ⟨y, hy, hle⟩ := begins_chain (x := x) (duration := fun i => F * ((job i).t.totalBytes / o i) + 3 * cpt + x) hw hb
      (fun k' hk' => hnear k' (by omega))
      (fun k' hk' j d ha c e h1 h2 => ih k' (by omega) (by omega) j (hcl i hi j d ha) c e h1 h2)
    refine ⟨_, hy, ?_⟩
    have e : ((k : ℚ) + 1) * cpt = (b + 1) * cpt + (k - b - 1) * cpt + cpt := by ring
    rw [e]
    linarith

end

/-- A chain of the description is a chain of the engine's transfers. -/
theorem JobChain.chainTime {job : Nat → Job} {s : Sim} {f : Nat → ℚ} {duration : TState → ℚ}
    (hoff : ∀ (i : Nat) (t : TState), s.ts[i]? = some t → (job i).t.offset = t.params.offset ∧ f i = duration t)
    (hw : ∀ (i : Nat), i < s.ts.length → ∀ j d, (job i).after = some (j, d) → j < s.ts.length ∧ WaitsFor s i j d)
    {i : Nat} {x : ℚ} (h : JobChain job f i x) (hi : i < s.ts.length) : ChainTime duration s i x := by
  induction h with
  | @first i =>
    have hg := List.getElem?_eq_getElem hi
    obtain ⟨e1, e2⟩ := hoff i _ hg
    rw [e1, e2]
    exact .first hg
  | @next i j d x _ ha ih =>
    have hg := List.getElem?_eq_getElem hi
    obtain ⟨h1, h2⟩ := hw i hi j d ha
    rw [(hoff i _ hg).2]
    exact .next (ih h1) h2 hg

/-- Whole bytes moved in a timestep at a constant speed. -/
theorem perStep_tight {fp : FP} {cpt : Nat} {v : ℚ} {M : Nat} (hv : 0 ≤ v) (hM : (M : ℚ) * (1 + 1 / 4194304) ≤ cpt * v) (hM1 : 1 ≤ M) :
    (cpt : ℚ) * v ≤ (1 + 1 / M) * (1 + 1 / 4194304) * perStep fp.f32.fl cpt v := by
  have hM0 : (0 : ℚ) < M := by exact_mod_cast hM1
  have hc : (0 : ℚ) ≤ cpt := Nat.cast_nonneg _
  have hy : 0 ≤ (cpt : ℚ) * v := mul_nonneg hc hv
  have h1 := fp.f32.fl_ge_err hc
  have h2 : cpt * v * (1 - 1 / 16777216) ≤ fp.f32.fl cpt * v := by
    have := mul_le_mul_of_nonneg_right h1 hv
    linarith
  have h3 : 0 ≤ fp.f32.fl cpt * v := mul_nonneg (fp.f32.fl_nonneg hc) hv
  have h4 := fp.f32.fl_ge_err h3
  have h5 : cpt * v * (1 - 1 / 8388608) ≤ fp.f32.fl (fp.f32.fl cpt * v) := by linarith
  have hx : (M : ℚ) ≤ fp.f32.fl (fp.f32.fl cpt * v) := by linarith
  have h6 := floor_large hx
  unfold perStep
  generalize ((fp.f32.fl (fp.f32.fl cpt * v)).floor.toNat : ℚ) = P at h6 ⊢
  generalize fp.f32.fl (fp.f32.fl cpt * v) = z at h5 h6
  generalize (cpt : ℚ) * v = y at hy h5 ⊢
  have e : (1 + 1 / (M : ℚ)) * (1 + 1 / 4194304) * P = (1 + 1 / 4194304) * ((M + 1) * P) / M := by field_simp
  rw [e, le_div_iff₀ hM0]
  have h7 := mul_le_mul_of_nonneg_left h5 hM0.le
  have h8 : 0 ≤ (M : ℚ) * y := mul_nonneg hM0.le hy
  linarith

end NPE
