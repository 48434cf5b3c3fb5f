import Verif.Proofs.FluidMono

/-
A transfer that waits for nothing and has a speed of its own: what a timestep loses.
-/

namespace NPE
open NPE.Spec NPE.Spec.Fluid

/-- A transfer of `total` bytes that begins at cycle `c` with speed `v` and loses at most `δ` bytes at each boundary. -/
def Paced (v δ : ℚ) (total c cpt K : Nat) : Prog → Prop
  | .waiting => K ≤ c
  | .active c' m => c' = c ∧ c ≤ K ∧ m < total ∧ (m : ℚ) ≤ v * ((K : ℚ) - c) ∧
      v * ((K : ℚ) - c) ≤ m + δ * boundaries cpt c K
  | .finished c' e => c' = c ∧ (total : ℚ) / v ≤ (e : ℚ) - c ∧
      (e : ℚ) - c < ((total : ℚ) + δ * boundaries cpt c (e - 1)) / v + 1

theorem floor_toNat_le {x : ℚ} (h : 0 ≤ x) : (x.floor.toNat : ℚ) ≤ x := by
  have h0 : 0 ≤ x.floor := Rat.le_floor_iff.mpr (by simpa using h)
  have h1 : ((x.floor.toNat : ℤ) : ℚ) = (x.floor : ℚ) := by rw [Int.toNat_of_nonneg h0]
  have h2 : (x.floor.toNat : ℚ) = ((x.floor.toNat : ℤ) : ℚ) := by push_cast; rfl
  rw [h2, h1]; exact Rat.floor_le _

theorem lt_floor_toNat (x : ℚ) : x < (x.floor.toNat : ℚ) + 1 := by
  have h1 : x < (x.floor : ℚ) + 1 := by have := Rat.lt_floor_add_one x; push_cast at this; exact this
  have h2 : (x.floor : ℚ) ≤ (x.floor.toNat : ℚ) := by
    have : x.floor ≤ (x.floor.toNat : ℤ) := Int.self_le_toNat _
    exact_mod_cast this
  linarith

/-- The number of cycles for `b` bytes. -/
theorem ceil_between {b : Nat} {v : ℚ} (hv : 0 ≤ v) :
    (b : ℚ) / v ≤ ((b : ℚ) / v).ceil.toNat ∧ (((b : ℚ) / v).ceil.toNat : ℚ) < (b : ℚ) / v + 1 := by
  have h0 : (0 : ℚ) ≤ (b : ℚ) / v := div_nonneg (Nat.cast_nonneg _) hv
  have h1 : (b : ℚ) / v ≤ (((b : ℚ) / v).ceil : ℚ) := Rat.le_ceil
  have h2 : (((b : ℚ) / v).ceil : ℚ) < (b : ℚ) / v + 1 := Rat.ceil_lt
  have h3 : 0 ≤ ((b : ℚ) / v).ceil := by
    have : (0 : ℚ) ≤ (((b : ℚ) / v).ceil : ℚ) := le_trans h0 h1
    exact_mod_cast this
  have h4 : (((b : ℚ) / v).ceil.toNat : ℚ) = (((b : ℚ) / v).ceil : ℚ) := by
    have : ((((b : ℚ) / v).ceil.toNat : ℤ) : ℚ) = (((b : ℚ) / v).ceil : ℚ) := by rw [Int.toNat_of_nonneg h3]
    rw [← this]; push_cast; rfl
  rw [h4]; exact ⟨h1, h2⟩

theorem advance_paced {job : Nat → Job} {cpt k i : Nat} {speed : Speed} {v δ : ℚ} {σ : Fluid.State} (hpos : 0 < cpt)
    (hv : 0 ≤ v) (hδ : 0 ≤ δ) (ha : (job i).after = none) (hs : speed ((k + 1) * cpt) (start job ((k + 1) * cpt) σ) i = v)
    (hl : (job i).t.offset ≤ (k + 1) * cpt →
      ((min cpt ((k + 1) * cpt - (job i).t.offset) : ℕ) * v : ℚ) ≤
        (((min cpt ((k + 1) * cpt - (job i).t.offset) : ℕ) * v : ℚ).floor.toNat : ℚ) + δ)
    (h32 : (k + 1) * cpt < 4294967296)
    (h : Paced v δ (job i).t.totalBytes (job i).t.offset cpt (k * cpt) (σ i)) :
    Paced v δ (job i).t.totalBytes (job i).t.offset cpt ((k + 1) * cpt)
      (advance id job cpt speed ((k + 1) * cpt) (start job ((k + 1) * cpt) σ) i) := by
  have hk : (k + 1) * cpt = k * cpt + cpt := by ring
  have hdiv : ((k + 1) * cpt) / cpt = k + 1 := Nat.mul_div_cancel _ hpos
  have hdiv0 : (k * cpt) / cpt = k := Nat.mul_div_cancel _ hpos
  generalize hτ : start job ((k + 1) * cpt) σ = τ at *
  -- an active transfer, begun in this timestep or before
  have key : ∀ m, τ i = .active (job i).t.offset m → (job i).t.offset ≤ (k + 1) * cpt →
      (m = 0 ∧ k * cpt ≤ (job i).t.offset ∨ (job i).t.offset ≤ k * cpt ∧ m < (job i).t.totalBytes ∧
        (m : ℚ) ≤ v * (((k * cpt : ℕ) : ℚ) - (job i).t.offset) ∧
        v * (((k * cpt : ℕ) : ℚ) - (job i).t.offset) ≤ m + δ * boundaries cpt (job i).t.offset (k * cpt)) →
      Paced v δ (job i).t.totalBytes (job i).t.offset cpt ((k + 1) * cpt)
        (advance id job cpt speed ((k + 1) * cpt) τ i) := by
    intro m hm hc hcase
    rw [advance_exact hm, credit_free ha, hs]
    have hl := hl hc
    generalize (job i).t.offset = c at *
    have ht := moves_time (t := (job i).t) (m := m) (cr := min cpt ((k + 1) * cpt - c)) (v := v)
    have hB : moves (job i).t m (min cpt ((k + 1) * cpt - c)) v =
      min ((job i).t.totalBytes - m) ((min cpt ((k + 1) * cpt - c) : ℕ) * v : ℚ).floor.toNat := rfl
    have hfl : ((((min cpt ((k + 1) * cpt - c) : ℕ) * v : ℚ).floor.toNat : ℕ) : ℚ) ≤ (min cpt ((k + 1) * cpt - c) : ℕ) * v :=
      floor_toNat_le (mul_nonneg (Nat.cast_nonneg _) hv)
    generalize moves (job i).t m (min cpt ((k + 1) * cpt - c)) v = b at *
    generalize (job i).t.totalBytes = B at *
    generalize hf : ((min cpt ((k + 1) * cpt - c) : ℕ) * v : ℚ).floor.toNat = f at *
    obtain ⟨z1, z2⟩ := ceil_between (b := b) hv
    generalize hz : ((b : ℚ) / v).ceil.toNat = z at *
    rcases hcase with ⟨rfl, hK⟩ | ⟨hK, hmB, hm1, hm2⟩
    · have hmin : min cpt ((k + 1) * cpt - c) = (k + 1) * cpt - c := by omega
      rw [hmin] at ht hl hfl
      have hcast : (((k + 1) * cpt - c : ℕ) : ℚ) = (((k + 1) * cpt : ℕ) : ℚ) - c := by rw [Nat.cast_sub hc]
      rw [hcast] at hl hfl
      split
      · rename_i hd
        have e1 : max c ((k + 1) * cpt - cpt) = c := by omega
        rw [e1, Nat.mod_eq_of_lt (by omega)]
        have hbB : b = B := by omega
        rw [hbB] at z1 z2
        refine ⟨rfl, ?_, ?_⟩
        · push_cast; linarith
        · push_cast
          have : 0 ≤ δ * (boundaries cpt c (c + z - 1) : ℚ) / v :=
            div_nonneg (mul_nonneg hδ (Nat.cast_nonneg _)) hv
          rw [add_div]; linarith
      · rename_i hd
        have hbf : b = f := by omega
        refine ⟨rfl, hc, by omega, ?_, ?_⟩
        · rw [hbf]; push_cast at hfl ⊢; linarith
        · rw [hbf]
          rcases Nat.eq_or_lt_of_le hc with he | hlt
          · have : v * ((((k + 1) * cpt : ℕ) : ℚ) - c) = 0 := by rw [he]; ring
            rw [this]; positivity
          · have hb1 : 1 ≤ boundaries cpt c ((k + 1) * cpt) := by
              unfold boundaries
              have : c / cpt < k + 1 := (Nat.div_lt_iff_lt_mul hpos).mpr hlt
              rw [hdiv]; omega
            have hb2 : (1 : ℚ) ≤ (boundaries cpt c ((k + 1) * cpt) : ℚ) := by exact_mod_cast hb1
            have hb3 : δ ≤ δ * (boundaries cpt c ((k + 1) * cpt) : ℚ) := le_mul_of_one_le_right hδ hb2
            push_cast at hl hb3 ⊢; linarith
    · have hmin : min cpt ((k + 1) * cpt - c) = cpt := by omega
      rw [hmin] at ht hl hfl
      split
      · rename_i hd
        have e1 : max c ((k + 1) * cpt - cpt) = k * cpt := by omega
        rw [e1, Nat.mod_eq_of_lt (by omega)]
        have hbf : b ≤ f := by omega
        have hb0 : 0 < b := by omega
        have hbq : (0 : ℚ) < b := by exact_mod_cast hb0
        have hBq : (B : ℚ) = m + b := by exact_mod_cast hd.symm
        have hvp : 0 < v := by
          rcases lt_or_eq_of_le hv with h | h
          · exact h
          · exfalso
            rw [← h] at hfl
            have : (b : ℚ) ≤ f := by exact_mod_cast hbf
            linarith
        have hz1 : 1 ≤ z := by
          by_contra hcon
          have : z = 0 := by omega
          rw [this] at z1
          have : 0 < (b : ℚ) / v := div_pos hbq hvp
          norm_num at z1; linarith
        have hbd : boundaries cpt c (k * cpt) ≤ boundaries cpt c (k * cpt + z - 1) := by
          unfold boundaries
          have : k * cpt / cpt ≤ (k * cpt + z - 1) / cpt := Nat.div_le_div_right (by omega)
          omega
        have hbdq : (boundaries cpt c (k * cpt) : ℚ) ≤ (boundaries cpt c (k * cpt + z - 1) : ℚ) := by exact_mod_cast hbd
        have hbdδ := mul_le_mul_of_nonneg_left hbdq hδ
        refine ⟨rfl, ?_, ?_⟩
        · rw [div_le_iff₀ hvp]
          have := (div_le_iff₀ hvp).mp z1
          push_cast at hm1 ⊢; rw [hBq]; nlinarith
        · have z2' : ((z : ℚ) - 1) * v < b := by
            have : (z : ℚ) - 1 < (b : ℚ) / v := by linarith
            exact (lt_div_iff₀ hvp).mp this
          rw [← sub_lt_iff_lt_add, lt_div_iff₀ hvp]
          push_cast at hm2 ⊢; rw [hBq]; nlinarith
      · rename_i hd
        have hbf : b = f := by omega
        have hbd : boundaries cpt c ((k + 1) * cpt) = boundaries cpt c (k * cpt) + 1 := by
          unfold boundaries
          have : c / cpt ≤ k * cpt / cpt := Nat.div_le_div_right hK
          rw [hdiv, hdiv0] at *; omega
        refine ⟨rfl, hc, by omega, ?_, ?_⟩
        · rw [hbf]; push_cast at hm1 hfl ⊢; nlinarith
        · rw [hbf, hbd]; push_cast at hm2 hl ⊢; nlinarith
  cases hσ : σ i with
  | waiting =>
    rw [hσ] at h
    have h' : k * cpt ≤ (job i).t.offset := h
    have hb := begins_free (curr := (k + 1) * cpt) ha hσ
    have hτi : τ i = if (job i).t.offset ≤ (k + 1) * cpt then .active (job i).t.offset 0 else .waiting := by
      rw [← hτ]; unfold Fluid.start; rw [hb]
      split
      · rename_i hh; split at hh
        · rename_i hle; rw [if_pos hle]; rw [← Option.some.inj hh]
        · cases hh
      · rename_i hh; split at hh
        · cases hh
        · rename_i hle; rw [if_neg hle, hσ]
    by_cases hc : (job i).t.offset ≤ (k + 1) * cpt
    · rw [if_pos hc] at hτi
      exact key 0 hτi hc (Or.inl ⟨rfl, h'⟩)
    · rw [if_neg hc] at hτi
      unfold Fluid.advance; rw [hτi]
      show (k + 1) * cpt ≤ _
      omega
  | active c m =>
    rw [hσ] at h
    obtain ⟨rfl, h1, h2, h3, h4⟩ := h
    have hτi : τ i = .active (job i).t.offset m := by
      rw [← hτ, start_other (by rw [hσ]; exact Prog.noConfusion), hσ]
    exact key m hτi (by omega) (Or.inr ⟨h1, h2, h3, h4⟩)
  | finished c e =>
    rw [hσ] at h
    have hτi : τ i = .finished c e := by
      rw [← hτ, start_other (by rw [hσ]; exact Prog.noConfusion), hσ]
    unfold Fluid.advance; rw [hτi]
    exact h

theorem run_paced {job : Nat → Job} {cpt i : Nat} {speed : Speed} {v δ : ℚ} (hpos : 0 < cpt)
    (hv : 0 ≤ v) (hδ : 0 ≤ δ) (ha : (job i).after = none) (hs : ∀ curr σ, speed curr σ i = v)
    (hl : ∀ k, (job i).t.offset ≤ (k + 1) * cpt →
      ((min cpt ((k + 1) * cpt - (job i).t.offset) : ℕ) * v : ℚ) ≤
        (((min cpt ((k + 1) * cpt - (job i).t.offset) : ℕ) * v : ℚ).floor.toNat : ℚ) + δ) (k : Nat)
    (h32 : k * cpt < 4294967296) :
    Paced v δ (job i).t.totalBytes (job i).t.offset cpt (k * cpt) (run id job cpt speed k i) := by
  induction k with
  | zero => show 0 * cpt ≤ _; omega
  | succ k ih =>
    have hk : (k + 1) * cpt = k * cpt + cpt := by ring
    exact advance_paced hpos hv hδ ha (hs _ _) (hl k) h32 (ih (by omega))

/-- A transfer that moves less than one byte per timestep. -/
theorem run_stuck {job : Nat → Job} {cpt i : Nat} {speed : Speed} {v : ℚ} (hv : 0 ≤ v) (hvc : cpt * v < 1)
    (ha : (job i).after = none) (hs : ∀ curr σ, speed curr σ i = v) (hB : 0 < (job i).t.totalBytes) (k : Nat) :
    run id job cpt speed k i = .waiting ∨ ∃ c, run id job cpt speed k i = .active c 0 := by
  induction k with
  | zero => exact Or.inl rfl
  | succ k ih =>
    have key : ∀ τ : Fluid.State, (τ i = .waiting ∨ ∃ c, τ i = .active c 0) →
        (advance id job cpt speed ((k + 1) * cpt) τ i = .waiting ∨ ∃ c, advance id job cpt speed ((k + 1) * cpt) τ i = .active c 0) := by
      intro τ h
      rcases h with h | ⟨c, h⟩
      · left; unfold advance; rw [h]
      · right; refine ⟨c, ?_⟩
        rw [advance_exact h, credit_free ha, hs]
        have hz : moves (job i).t 0 (min cpt ((k + 1) * cpt - c)) v = 0 := by
          show min _ ((min cpt ((k + 1) * cpt - c) : ℕ) * v : ℚ).floor.toNat = 0
          have h1 : ((min cpt ((k + 1) * cpt - c) : ℕ) * v : ℚ) < 1 := by
            refine lt_of_le_of_lt (mul_le_mul_of_nonneg_right ?_ hv) hvc
            exact_mod_cast Nat.min_le_left _ _
          have h2 := floor_toNat_le (mul_nonneg (Nat.cast_nonneg (min cpt ((k + 1) * cpt - c))) hv)
          have h3 : ((((min cpt ((k + 1) * cpt - c) : ℕ) * v : ℚ).floor.toNat : ℕ) : ℚ) < 1 := lt_of_le_of_lt h2 h1
          have h4 : ((min cpt ((k + 1) * cpt - c) : ℕ) * v : ℚ).floor.toNat < 1 := by exact_mod_cast h3
          omega
        rw [hz, if_neg (by omega)]
    refine key _ ?_
    unfold Fluid.start
    split
    · rename_i c _; exact Or.inr ⟨c, rfl⟩
    · exact ih

end NPE
