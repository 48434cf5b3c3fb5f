import Verif.Proofs.FluidCrowd
import Verif.Proofs.FluidShiftRounded
import Verif.Spec.Deadline

/-
Every transfer moves at least at the speed that it has if all transfers are active; so it ends in time.
-/

namespace NPE

/-- The clock at the end of a run. -/
def Ending.clock : Ending → Nat
  | .finished _ c => c
  | .limit _ c => c
open NPE.Spec NPE.Spec.Fluid

section
variable {R : Rounding} {job : Nat → Job} {cpt : Nat}

theorem credit_ge {curr i c : Nat} {σ : Fluid.State} : min cpt (curr - c) ≤ credit job cpt curr σ i c := by
  unfold Fluid.credit
  split
  · exact le_rfl
  · split
    · split
      · omega
      · exact le_rfl
    · exact le_rfl

theorem credit_end {curr i c : Nat} {σ : Fluid.State} (hc : c ≤ curr) :
    max c (curr - cpt) + credit job cpt curr σ i c ≤ curr + cpt := by
  unfold Fluid.credit
  split
  · omega
  · split
    · split
      · omega
      · omega
    · omega

/-- Ends are at most one timestep ahead of the clock. -/
theorem run_near {speed : Speed} (k i : Nat) : InTime (k * cpt) ((k + 1) * cpt) (run id job cpt speed k i) := by
  induction k generalizing i with
  | zero => trivial
  | succ k ih =>
    have hk : (k + 1) * cpt = k * cpt + cpt := by ring
    have hk2 : (k + 1 + 1) * cpt = k * cpt + 2 * cpt := by ring
    have hs : InTime ((k + 1) * cpt) ((k + 1 + 1) * cpt) (Fluid.start job ((k + 1) * cpt) (run id job cpt speed k) i) :=
      start_inTime ((ih i).le (by omega) (by omega))
    show InTime _ _ (advance id job cpt speed ((k + 1) * cpt) (Fluid.start job ((k + 1) * cpt) (run id job cpt speed k)) i)
    cases ha : Fluid.start job ((k + 1) * cpt) (run id job cpt speed k) i with
    | waiting => unfold Fluid.advance; rw [ha]; trivial
    | finished c e => unfold Fluid.advance; rw [ha]; rw [ha] at hs; exact hs
    | active c m =>
      rw [advance_exact ha]
      rw [ha] at hs
      have hs : c ≤ (k + 1) * cpt := hs
      split
      · refine ⟨hs, le_trans (Nat.mod_le _ _) ?_⟩
        have h1 := moves_time (t := (job i).t) (m := m)
          (cr := credit job cpt ((k + 1) * cpt) (Fluid.start job ((k + 1) * cpt) (run id job cpt speed k)) i c)
          (v := speed ((k + 1) * cpt) (Fluid.start job ((k + 1) * cpt) (run id job cpt speed k)) i)
        have h2 := credit_end (job := job) (cpt := cpt) (curr := (k + 1) * cpt) (i := i) (c := c)
          (σ := Fluid.start job ((k + 1) * cpt) (run id job cpt speed k)) hs
        omega
      · exact hs

/-- The same with rounding, up to one cycle. -/
theorem near_round {speed : Speed} (k : Nat) (h24 : (k + 2) * cpt + 2 ≤ 16777216) (i : Nat) :
    InTime (k * cpt) ((k + 1) * cpt + 1) (run R.fl job cpt speed k i) := by
  induction k generalizing i with
  | zero => trivial
  | succ k ih =>
    have hk : (k + 1) * cpt = k * cpt + cpt := by ring
    have hk2 : (k + 1 + 1) * cpt = k * cpt + 2 * cpt := by ring
    have hk3 : (k + 1 + 2) * cpt = k * cpt + 3 * cpt := by ring
    have hk4 : (k + 2) * cpt = k * cpt + 2 * cpt := by ring
    have hs : InTime ((k + 1) * cpt) ((k + 1 + 1) * cpt + 1) (Fluid.start job ((k + 1) * cpt) (run R.fl job cpt speed k) i) :=
      start_inTime ((ih (by omega) i).le (by omega) (by omega))
    show InTime _ _ (advance R.fl job cpt speed ((k + 1) * cpt) (Fluid.start job ((k + 1) * cpt) (run R.fl job cpt speed k)) i)
    cases ha : Fluid.start job ((k + 1) * cpt) (run R.fl job cpt speed k) i with
    | waiting => unfold Fluid.advance; rw [ha]; trivial
    | finished c e => unfold Fluid.advance; rw [ha]; rw [ha] at hs; exact hs
    | active c m =>
      rw [ha] at hs
      have hs : c ≤ (k + 1) * cpt := hs
      rw [advance_whole ha hs (by omega)]
      split
      · refine ⟨hs, ?_⟩
        have h1 := credit_end (job := job) (cpt := cpt) (curr := (k + 1) * cpt) (i := i) (c := c)
          (σ := Fluid.start job ((k + 1) * cpt) (run R.fl job cpt speed k)) hs
        have hcr := credit_le (job := job) (cpt := cpt) (curr := (k + 1) * cpt) (i := i) (c := c)
          (σ := Fluid.start job ((k + 1) * cpt) (run R.fl job cpt speed k))
        generalize credit job cpt ((k + 1) * cpt) (Fluid.start job ((k + 1) * cpt) (run R.fl job cpt speed k)) i c = cr at *
        generalize speed ((k + 1) * cpt) (Fluid.start job ((k + 1) * cpt) (run R.fl job cpt speed k)) i = v at *
        have h2 := (cycles_between (R := R) (b := roundBytes R ((job i).t.totalBytes - m) cr v) (cr := cr) (v := v)
          (Nat.min_le_right _ _) (by omega)).2.1
        omega
      · exact hs

/-- The rounded end of a part of a transfer, whatever the clock. -/
theorem end_late {cr b s : Nat} {v : ℚ} (hb : b ≤ (R.fl (R.fl cr * v)).floor.toNat) (hs : s + cr ≤ 100000000) :
    (R.fl (R.fl (s : ℚ) + (roundCycles R b v : Int))).floor.toNat ≤ s + cr + 26 := by
  have hs0 : (0 : ℚ) ≤ s := Nat.cast_nonneg _
  have hc0 : (0 : ℚ) ≤ cr := Nat.cast_nonneg _
  have hsum : (s : ℚ) + cr ≤ 100000000 := by exact_mod_cast hs
  have hz : 0 ≤ (roundCycles R b v : ℚ) ∧ (roundCycles R b v : ℚ) ≤ cr * (1 + 1 / 16777216) ^ 3 + 1 := by
    rcases Nat.eq_zero_or_pos b with h0 | h0
    · subst h0
      rw [cycles_zero]
      refine ⟨by simp, ?_⟩
      rw [Int.cast_zero]
      positivity
    · have hpos := speed_pos hb h0
      have hc1 := R.fl_nonneg hc0
      have hx0 : 0 ≤ R.fl (R.fl cr * v) := R.fl_nonneg (by positivity)
      have h1 : (b : ℚ) ≤ R.fl (R.fl cr * v) := by
        have h2 := toNat_floor_le hx0
        have h3 : (b : ℚ) ≤ ((R.fl (R.fl cr * v)).floor.toNat : ℚ) := by exact_mod_cast hb
        linarith
      have h2 : R.fl b ≤ R.fl (R.fl cr * v) := by
        have := R.mono h1
        rwa [R.idem] at this
      have h3 := R.fl_le_err (x := R.fl cr * v) (by positivity)
      have h4 := R.fl_le_err hc0
      have h5 : R.fl b / v ≤ cr * (1 + 1 / 16777216) ^ 2 := by
        rw [div_le_iff₀ hpos]
        have h6 : R.fl cr * v ≤ cr * (1 + 1 / 16777216) * v := mul_le_mul_of_nonneg_right h4 hpos.le
        calc R.fl b ≤ R.fl cr * v * (1 + 1 / 16777216) := le_trans h2 h3
          _ ≤ cr * (1 + 1 / 16777216) * v * (1 + 1 / 16777216) := mul_le_mul_of_nonneg_right h6 (by norm_num)
          _ = _ := by ring
      have hq : 0 ≤ R.fl b / v := div_nonneg (R.fl_nonneg (Nat.cast_nonneg _)) hpos.le
      have h6 := R.fl_le_err hq
      have h7 : R.fl (R.fl b / v) ≤ cr * (1 + 1 / 16777216) ^ 3 := by
        calc _ ≤ _ := h6
          _ ≤ cr * (1 + 1 / 16777216) ^ 2 * (1 + 1 / 16777216) := mul_le_mul_of_nonneg_right h5 (by norm_num)
          _ = _ := by ring
      unfold roundCycles
      have h8 := R.fl_nonneg hq
      constructor
      · exact le_trans h8 Rat.le_ceil
      · have := Rat.ceil_lt (x := R.fl (R.fl b / v))
        linarith
  have h1 := R.fl_le_err hs0
  have h0 := R.fl_nonneg hs0
  have hx : 0 ≤ R.fl (s : ℚ) + (roundCycles R b v : Int) := add_nonneg h0 hz.1
  have h2 := R.fl_le_err hx
  have h3 := toNat_floor_le (R.fl_nonneg hx)
  have h4 : ((R.fl (R.fl (s : ℚ) + (roundCycles R b v : Int))).floor.toNat : ℚ) < (s + cr + 26 + 1 : Nat) := by
    push_cast
    nlinarith [hz.2]
  have h5 : (R.fl (R.fl (s : ℚ) + (roundCycles R b v : Int))).floor.toNat < s + cr + 26 + 1 := by exact_mod_cast h4
  omega

/-- With rounding, at any clock within the limit of cycles, ends are at most one timestep and 26 cycles ahead. -/
theorem near_late {speed : Speed} (k : Nat) (hlim : k * cpt ≤ 50000000) (i : Nat) :
    InTime (k * cpt) ((k + 1) * cpt + 26) (run R.fl job cpt speed k i) := by
  induction k generalizing i with
  | zero => trivial
  | succ k ih =>
    have hk : (k + 1) * cpt = k * cpt + cpt := by ring
    have hk2 : (k + 1 + 1) * cpt = k * cpt + 2 * cpt := by ring
    have hs : InTime ((k + 1) * cpt) ((k + 1 + 1) * cpt + 26) (Fluid.start job ((k + 1) * cpt) (run R.fl job cpt speed k) i) :=
      start_inTime ((ih (by omega) i).le (by omega) (by omega))
    show InTime _ _ (advance R.fl job cpt speed ((k + 1) * cpt) (Fluid.start job ((k + 1) * cpt) (run R.fl job cpt speed k)) i)
    cases ha : Fluid.start job ((k + 1) * cpt) (run R.fl job cpt speed k) i with
    | waiting => unfold Fluid.advance; rw [ha]; trivial
    | finished c e => unfold Fluid.advance; rw [ha]; rw [ha] at hs; exact hs
    | active c m =>
      rw [ha] at hs
      have hs : c ≤ (k + 1) * cpt := hs
      have h1 := credit_end (job := job) (cpt := cpt) (curr := (k + 1) * cpt) (i := i) (c := c)
        (σ := Fluid.start job ((k + 1) * cpt) (run R.fl job cpt speed k)) hs
      unfold Fluid.advance
      rw [ha]
      simp only
      split
      · refine ⟨hs, le_trans (Nat.mod_le _ _) ?_⟩
        have h2 := end_late (R := R) (s := max c ((k + 1) * cpt - cpt))
          (cr := credit job cpt ((k + 1) * cpt) (Fluid.start job ((k + 1) * cpt) (run R.fl job cpt speed k)) i c)
          (v := speed ((k + 1) * cpt) (Fluid.start job ((k + 1) * cpt) (run R.fl job cpt speed k)) i)
          (Nat.min_le_right ((job i).t.totalBytes - m) _) (by omega)
        unfold roundCycles at h2
        exact le_trans h2 (by omega)
      · exact hs

theorem perStep_le {cr : Nat} {v w : ℚ} (hcr : cpt ≤ cr) (hv : v ≤ w) :
    perStep R.fl cpt v ≤ (R.fl (R.fl cr * w)).floor.toNat := by
  unfold perStep
  rcases le_or_gt v 0 with h0 | h0
  · have h1 : R.fl cpt * v ≤ 0 := mul_nonpos_of_nonneg_of_nonpos (R.fl_nonneg (Nat.cast_nonneg _)) h0
    have h2 := R.fl_nonpos h1
    have h3 : (R.fl (R.fl cpt * v)).floor ≤ 0 := by
      have : ((R.fl (R.fl cpt * v)).floor : ℚ) ≤ 0 := le_trans (Rat.floor_le _) h2
      exact_mod_cast this
    omega
  · refine Int.toNat_le_toNat (Rat.le_floor_iff.mpr (le_trans (Rat.floor_le _) (R.mono ?_)))
    exact mul_le_mul (R.mono (by exact_mod_cast hcr)) hv h0.le (R.fl_nonneg (Nat.cast_nonneg _))

/-- An active transfer has bytes left. -/
theorem run_left {speed : Speed} (k i : Nat) {c m : Nat} (h : run R.fl job cpt speed k i = .active c m) :
    m < (job i).t.totalBytes := by
  induction k generalizing c m with
  | zero => cases h
  | succ k ih =>
    have hs : ∀ c m, Fluid.start job ((k + 1) * cpt) (run R.fl job cpt speed k) i = .active c m → m ≤ (job i).t.totalBytes := by
      intro c m h
      unfold Fluid.start at h
      split at h
      · obtain ⟨_, rfl⟩ := Prog.active.inj h
        exact Nat.zero_le _
      · exact (ih h).le
    change advance R.fl job cpt speed ((k + 1) * cpt) (Fluid.start job ((k + 1) * cpt) (run R.fl job cpt speed k)) i = _ at h
    unfold Fluid.advance at h
    cases ha : Fluid.start job ((k + 1) * cpt) (run R.fl job cpt speed k) i with
    | waiting => rw [ha] at h; cases h
    | finished c e => rw [ha] at h; cases h
    | active c' m' =>
      rw [ha] at h
      have := hs _ _ ha
      simp only at h
      split at h
      · cases h
      · obtain ⟨_, rfl⟩ := Prog.active.inj h
        omega

/-- A transfer that is not waiting moves on. -/
theorem advance_more {speed : Speed} {curr i : Nat} {σ : Fluid.State} {v : ℚ} {w : Nat} (hnw : σ i ≠ .waiting)
    (hc : ∀ c m, σ i = .active c m → v ≤ speed curr σ i ∧
      (w = 0 ∨ m ≤ (job i).t.totalBytes ∧ cpt ≤ credit job cpt curr σ i c ∧ w ≤ m + perStep R.fl cpt v)) :
    advance R.fl job cpt speed curr σ i ≠ .waiting ∧
    ∀ c m, advance R.fl job cpt speed curr σ i = .active c m → w ≤ m := by
  cases hσ : σ i with
  | waiting => exact absurd hσ hnw
  | finished c e =>
    unfold Fluid.advance; rw [hσ]
    exact ⟨Prog.noConfusion, fun _ _ h => by cases h⟩
  | active c m =>
    obtain ⟨h1, h2⟩ := hc c m hσ
    unfold Fluid.advance; rw [hσ]
    simp only
    constructor
    · split <;> exact Prog.noConfusion
    · intro c' m' h
      split at h
      · cases h
      · obtain ⟨rfl, rfl⟩ := Prog.active.inj h
        rcases h2 with rfl | ⟨h0, h2, h3⟩
        · exact Nat.zero_le _
        · have := perStep_le (R := R) h2 h1
          omega

variable {n x : Nat} {v : Nat → ℚ} {T D : Nat → Nat} {speed : Speed}

/-- Transfers that move at least at speed `v` are finished in time. -/
theorem done_by (hpos : 0 < cpt) (DL : Deadlines R.fl job n cpt x v T D) {K : Nat}
    (hnear : ∀ k, k ≤ K → ∀ i, InTime (k * cpt) ((k + 1) * cpt + x) (run R.fl job cpt speed k i))
    (hs : ∀ k, k < K → ∀ i, i < n → ∀ c m, Fluid.start job ((k + 1) * cpt) (run R.fl job cpt speed k) i = .active c m →
      v i ≤ speed ((k + 1) * cpt) (Fluid.start job ((k + 1) * cpt) (run R.fl job cpt speed k)) i) :
    ∀ b i, D i ≤ b → i < n → D i ≤ K → ∃ c e, run R.fl job cpt speed (D i) i = .finished c e := by
  intro b
  induction b with
  | zero =>
    intro i h0 hi _
    have := DL.first i hi
    have := (DL.steps i hi).1
    omega
  | succ b ih =>
    intro i hb hi hK
    obtain ⟨hTD, hB⟩ := DL.steps i hi
    obtain ⟨T', hT'⟩ : ∃ T', T i = T' + 1 := ⟨T i - 1, by have := DL.first i hi; omega⟩
    have hst : Fluid.start job ((T' + 1) * cpt) (run R.fl job cpt speed T') i ≠ .waiting := by
      cases hr : run R.fl job cpt speed T' i with
      | active c m =>
        rw [start_other (by rw [hr]; exact Prog.noConfusion), hr]; exact Prog.noConfusion
      | finished c m =>
        rw [start_other (by rw [hr]; exact Prog.noConfusion), hr]; exact Prog.noConfusion
      | waiting =>
        have ho := DL.offset i hi
        rw [hT'] at ho
        have key : ∃ c, begins job ((T' + 1) * cpt) (run R.fl job cpt speed T') i = some c := by
          unfold begins
          rw [hr]
          simp only
          rw [if_pos ho]
          cases ha : (job i).after with
          | none => exact ⟨_, rfl⟩
          | some pd =>
            obtain ⟨p, d⟩ := pd
            obtain ⟨hp, hd⟩ := DL.after i hi p d ha
            rw [hT'] at hd
            have hlt : D p ≤ T' := by
              have : (D p + 1) * cpt ≤ (T' + 1) * cpt := by omega
              have := Nat.le_of_mul_le_mul_right this hpos
              omega
            obtain ⟨c, e, he⟩ := ih p (by omega) hp (by omega)
            have hn := hnear (D p) (by omega) p
            rw [he] at hn
            have he' := run_finished_le (k' := T') hlt he
            simp only [he']
            have h2 := hn.2
            have h3 := Nat.mod_le (e + d) 4294967296
            rw [if_pos (by omega)]
            exact ⟨_, rfl⟩
        obtain ⟨c, hc⟩ := key
        unfold Fluid.start
        rw [hc]
        exact Prog.noConfusion
    have track : ∀ r, T i + r ≤ D i → run R.fl job cpt speed (T i + r) i ≠ .waiting ∧
        ∀ c m, run R.fl job cpt speed (T i + r) i = .active c m → r * perStep R.fl cpt (v i) ≤ m := by
      intro r
      induction r with
      | zero =>
        intro hr
        rw [hT']
        have := advance_more (R := R) (job := job) (cpt := cpt) (speed := speed) (v := v i) (w := 0) hst
          (fun c m h => ⟨hs T' (by omega) i hi c m h, Or.inl rfl⟩)
        rw [Nat.zero_mul]
        exact this
      | succ r ihr =>
        intro hr
        obtain ⟨h1, h2⟩ := ihr (by omega)
        have hn := hnear (T i + r) (by omega) i
        have hsame := start_other (job := job) (curr := (T i + r + 1) * cpt) h1
        refine advance_more (R := R) (job := job) (cpt := cpt) (speed := speed) (v := v i) (curr := (T i + r + 1) * cpt)
          (σ := Fluid.start job ((T i + r + 1) * cpt) (run R.fl job cpt speed (T i + r)))
          (by rw [hsame]; exact h1) fun c m h => ⟨hs _ (by omega) i hi c m h, Or.inr ⟨?_, ?_, ?_⟩⟩
        · rw [hsame] at h
          exact (run_left _ i h).le
        · rw [hsame] at h
          rw [h] at hn
          have hn : c ≤ (T i + r) * cpt := hn
          have e : (T i + r + 1) * cpt = (T i + r) * cpt + cpt := by ring
          refine le_trans ?_ credit_ge
          omega
        · rw [hsame] at h
          have := h2 c m h
          have e : (r + 1) * perStep R.fl cpt (v i) = r * perStep R.fl cpt (v i) + perStep R.fl cpt (v i) := by ring
          omega
    obtain ⟨h1, h2⟩ := track (D i - T i) (by omega)
    rw [show T i + (D i - T i) = D i by omega] at h1 h2
    cases hr : run R.fl job cpt speed (D i) i with
    | waiting => exact absurd hr h1
    | finished c e => exact ⟨c, e, rfl⟩
    | active c m =>
      have := h2 c m hr
      have := run_left (D i) i hr
      omega

/-- How a run ends of which the deadlines are before the limit of cycles. -/
theorem ends_by (hpos : 0 < cpt) (DL : Deadlines R.fl job n cpt x v T D) {e : Ending}
    (h : EndsAs n cpt (run R.fl job cpt speed) e) {K : Nat} (hK : 1 ≤ K) (hD : ∀ i, i < n → D i ≤ K)
    (hlim : K * cpt ≤ 50000000)
    (hnear : ∀ k, k ≤ K → ∀ i, InTime (k * cpt) ((k + 1) * cpt + x) (run R.fl job cpt speed k i))
    (hs : ∀ k, k < K → (k + 1) * cpt ≤ e.clock → ∀ i, i < n → ∀ c m,
      Fluid.start job ((k + 1) * cpt) (run R.fl job cpt speed k) i = .active c m →
      v i ≤ speed ((k + 1) * cpt) (Fluid.start job ((k + 1) * cpt) (run R.fl job cpt speed k)) i) :
    ∃ s c, e = .finished s c ∧ c ≤ K * cpt ∧
      ∀ (i : Nat) (t : TState), s.ts[i]? = some t → t.endc ≤ (D i + 1) * cpt + x := by
  have done : ∀ K', K' ≤ K → K' * cpt ≤ e.clock → ∀ i, i < n → D i ≤ K' →
      ∃ c e, run R.fl job cpt speed (D i) i = .finished c e := by
    intro K' h1 h2 i hi hDi
    refine done_by (K := K') hpos DL (fun k hk => hnear k (by omega)) (fun k hk => hs k (by omega) ?_) _ i le_rfl hi hDi
    exact le_trans (Nat.mul_le_mul_right _ hk) h2
  cases e with
  | limit s c =>
    obtain ⟨_, k, b1, b2, b3⟩ := h
    exfalso
    have hk : K ≤ k := by
      have h1 : K * cpt < k * cpt := by omega
      exact (Nat.lt_of_mul_lt_mul_right h1).le
    refine b3 fun i hi => ?_
    obtain ⟨c', e', he⟩ := done K le_rfl (show K * cpt ≤ c by omega) i hi (hD i hi)
    exact ⟨c', e', run_finished_le (le_trans (hD i hi) hk) he⟩
  | finished s c =>
    obtain ⟨l, k, b1, b2, b3, b4⟩ := h
    have hk : k ≤ K := by
      by_contra hcon
      refine b4 K hK (by omega) fun i hi => ?_
      have : K * cpt ≤ k * cpt := Nat.mul_le_mul_right _ (by omega)
      obtain ⟨c', e', he⟩ := done K le_rfl (show K * cpt ≤ c by omega) i hi (hD i hi)
      exact ⟨c', e', run_finished_le (hD i hi) he⟩
    refine ⟨s, c, rfl, by rw [b2]; exact Nat.mul_le_mul_right _ hk, fun i t ht => ?_⟩
    have hi : i < n := by rw [← l]; exact (List.getElem?_eq_some_iff.mp ht).1
    have h1 := b3 i t ht
    by_cases hDi : D i ≤ k
    · obtain ⟨c', e', he⟩ := done k hk (show k * cpt ≤ c by omega) i hi hDi
      have h2 := run_finished_le hDi he
      rw [h1] at h2
      obtain ⟨_, h3⟩ := Prog.finished.inj h2
      have hn := hnear (D i) (hD i hi) i
      rw [he] at hn
      rw [h3]
      exact hn.2
    · have hn := hnear k hk i
      rw [h1] at hn
      have : (k + 1) * cpt ≤ (D i + 1) * cpt := Nat.mul_le_mul_right _ (by omega)
      have := hn.2
      omega

end

/-! ### The engine -/

theorem runLoop_reach {cfg : SimCfg} {ho : HashOrder} {wl : Workload} {s0 : Sim}
    (h0 : initSim cfg.fp cfg.dev ho wl = .ok s0) {e : Ending} (h : runLoop cfg ho wl = .ok e) :
    ∃ s, Reach cfg s0 e.clock s := by
  unfold runLoop at h
  rw [h0, Out.bind_ok] at h
  rcases simLoop_reach (cfg := cfg) (s0 := s0) simFuel 0 s0 e .start (Or.inl rfl) (by rw [Nat.zero_add]; exact h) with
    ⟨s, c, rfl, hs, _⟩ | ⟨s, c, rfl, hs, _⟩
  · exact ⟨s, hs⟩
  · exact ⟨s, hs⟩

/-! ### Speeds -/

section
variable {job : Nat → Job} {cpt n : Nat}

theorem load_crowd {dev : Device} (hT : TableOk .exact dev.tbt) (hinj : ∀ i, i < n → 0 ≤ (job i).t.injectionRate)
    (hpos : 0 < cpt) {curr : Nat} (hcur : cpt ≤ curr) {w : TState → Nat} (hw : ∀ (j : Job) c, w (j.began c) = w (j.began 0))
    {σ : Fluid.State} (hst : ∀ i c m, σ i = .active c m → c ≤ curr) :
    load dev job n cpt w curr σ ≤ load dev job n cpt w cpt (fun _ => .active 0 0) := by
  unfold Fluid.load
  refine List.sum_le_sum fun j hj => ?_
  rw [List.mem_range] at hj
  have hone : share (cpt - cpt) cpt ((job j).began 0) = 1 := by
    unfold share Job.began
    have : (cpt : ℚ) ≠ 0 := by exact_mod_cast hpos.ne'
    simp [this]
  have hown := own_nonneg hT (hinj j hj)
  have hall : 0 ≤ (w ((job j).began 0) : ℚ) * (share (cpt - cpt) cpt ((job j).began 0) * own .exact dev (job j).t) := by
    rw [hone, one_mul]; exact mul_nonneg (Nat.cast_nonneg _) hown
  cases hσ : σ j with
  | waiting => exact hall
  | finished c e => exact hall
  | active c m =>
    simp only
    rw [hw (job j) c, hone, one_mul]
    refine mul_le_mul_of_nonneg_left ?_ (Nat.cast_nonneg _)
    refine mul_le_of_le_one_left hown ?_
    unfold share Job.began
    have hc := hst j c m hσ
    have e1 : ((curr - cpt : ℕ) : ℚ) = (curr : ℚ) - cpt := by push_cast [Nat.cast_sub hcur]; ring
    have hp : (0 : ℚ) < cpt := by exact_mod_cast hpos
    rw [div_le_one (by rw [e1]; linarith)]
    have : ((curr - cpt : ℕ) : ℚ) ≤ ((max (curr - cpt) c : ℕ) : ℚ) := by exact_mod_cast le_max_left _ _
    linarith

/-- A transfer never has less than its part of the load of all transfers. -/
theorem crowded_le {dev : Device} (hT : TableOk .exact dev.tbt) (hC : Capacities dev)
    (hinj : ∀ i, i < n → 0 ≤ (job i).t.injectionRate) (hpos : 0 < cpt) {curr : Nat} (hcur : cpt ≤ curr) {σ : Fluid.State}
    (hst : ∀ i c m, σ i = .active c m → c ≤ curr) {i : Nat} (hi : i < n) :
    crowded dev job n cpt i ≤ shared dev job n cpt curr σ i := by
  have hL : ∀ {w : TState → Nat}, (∀ (j : Job) c, w (j.began c) = w (j.began 0)) →
      load dev job n cpt w curr σ ≤ load dev job n cpt w cpt (fun _ => .active 0 0) := fun hw =>
    load_crowd hT hinj hpos hcur hw hst
  unfold crowded Fluid.shared
  simp only
  refine mul_le_mul_of_nonneg_left (min_one3 ?_ ?_ ?_) (own_nonneg hT (hinj i hi))
  · exact served_le hC.1 le_rfl (foldl_max_nonneg le_rfl) (foldl_max_le _ le_rfl fun l _ => hL fun _ _ => rfl)
  · exact served_le (hinj i hi) le_rfl (load_nonneg hT hinj hst) (hL fun _ _ => rfl)
  · cases hdst : (job i).t.dst with
    | mcast gs => exact le_rfl
    | unicast d =>
      simp only
      unfold Device.getSinkAbsorptionRate
      cases dev.getCoreType d with
      | ok ct => exact served_le (hC.2.2 ct) le_rfl (load_nonneg hT hinj hst) (hL fun _ _ => rfl)
      | _ => exact le_rfl

/-! ### Speeds with rounding -/

theorem sum_rise {R : Rounding} {g g' : Nat → ℚ} {w : Nat → Nat} : ∀ (l : List Nat), (∀ j ∈ l, g j ≤ g' j) → ∀ {a a' : ℚ}, a ≤ a' →
    (l.flatMap fun j => List.replicate (w j) (g j)).foldl (fun y x => R.fl (y + x)) a ≤
      (l.flatMap fun j => List.replicate (w j) (g' j)).foldl (fun y x => R.fl (y + x)) a' := by
  have rep : ∀ (k : Nat) {x x' a a' : ℚ}, x ≤ x' → a ≤ a' →
      (List.replicate k x).foldl (fun y x => R.fl (y + x)) a ≤ (List.replicate k x').foldl (fun y x => R.fl (y + x)) a' := by
    intro k
    induction k with
    | zero => intro x x' a a' _ h; exact h
    | succ k ih => intro x x' a a' hx h; exact ih hx (R.mono (add_le_add h hx))
  intro l
  induction l with
  | nil => intro _ a a' h; exact h
  | cons j l ih =>
    intro hl a a' h
    rw [List.flatMap_cons, List.flatMap_cons, List.foldl_append, List.foldl_append]
    exact ih (fun k hk => hl k (by simp [hk])) (rep _ (hl j (by simp)) h)

variable {fp : FP} {dev : Device}

theorem demand_crowd (hT : TableOk fp dev.tbt) {j : Nat} (hinj : 0 ≤ (job j).t.injectionRate)
    (hr : fp.f32.Rep (job j).t.injectionRate) {curr : Nat} {σ : Fluid.State} :
    demand fp dev job cpt curr σ j ≤ demand fp dev job cpt cpt (fun _ => .active 0 0) j := by
  have h0 := demand_nonneg (cpt := cpt) hT hinj hr cpt (fun _ => Prog.active 0 0)
  unfold demand at h0 ⊢
  cases σ j with
  | waiting => exact h0
  | finished c e => exact h0
  | active c m =>
    refine fp.f32.mono (mul_le_mul_of_nonneg_right (fp.f32.mono ?_) (own_rep hT hinj hr).1)
    refine div_le_div_of_nonneg_right (fp.f32.mono ?_) (fp.f32.fl_nonneg (Nat.cast_nonneg _))
    exact_mod_cast (by omega : curr - max (curr - cpt) c ≤ cpt - max (cpt - cpt) 0)

theorem loadIn_crowd (hT : TableOk fp dev.tbt) (hinj : ∀ i, i < n → 0 ≤ (job i).t.injectionRate)
    (hr : ∀ i, i < n → fp.f32.Rep (job i).t.injectionRate) {order all : List Nat} (hsub : order.Sublist all)
    (hall : ∀ i ∈ all, i < n) {w : TState → Nat} {curr : Nat} {σ : Fluid.State} :
    loadIn fp dev job cpt order w curr σ ≤ loadIn fp dev job cpt all w cpt (fun _ => .active 0 0) := by
  unfold loadIn
  refine le_trans (sum_rise (w := fun j => w ((job j).began 0)) (g' := demand fp dev job cpt cpt (fun _ => .active 0 0)) order
    (fun j hj => ?_) le_rfl) ?_
  · have := hall j (hsub.subset hj)
    exact demand_crowd hT (hinj j this) (hr j this)
  · refine sumIn_le (hsub.flatMap _) le_rfl fp.f32.fl_zero fun y hy => ?_
    obtain ⟨j, hj, hy⟩ := List.mem_flatMap.mp hy
    rw [(List.mem_replicate.mp hy).2]
    exact demand_nonneg hT (hinj j (hall j hj)) (hr j (hall j hj)) _ _

theorem crowdedIn_le (hT : TableOk fp dev.tbt) (hC : Capacities dev)
    (hinj : ∀ i, i < n → 0 ≤ (job i).t.injectionRate) (hr : ∀ i, i < n → fp.f32.Rep (job i).t.injectionRate)
    {order : Nat → List Nat} {all : List Nat} {curr : Nat} (hsub : (order curr).Sublist all) (hall : ∀ i ∈ all, i < n)
    {σ : Fluid.State} {i : Nat} (hi : i < n) :
    crowdedIn fp dev job cpt all i ≤ sharedIn fp dev job cpt order curr σ i := by
  have hL : ∀ {w : TState → Nat}, loadIn fp dev job cpt (order curr) w curr σ ≤
      loadIn fp dev job cpt all w cpt (fun _ => .active 0 0) := loadIn_crowd hT hinj hr hsub hall
  have hN : ∀ {w : TState → Nat}, 0 ≤ loadIn fp dev job cpt (order curr) w curr σ :=
    loadIn_nonneg hT hinj hr fun j hj => hall j (hsub.subset hj)
  obtain ⟨o1, o2⟩ := own_rep (dev := dev) hT (hinj i hi) (hr i hi)
  unfold crowdedIn Fluid.sharedIn
  simp only
  refine limited_le (dev := dev) o1 o2 (min_one3 ?_ ?_ ?_)
  · exact servedIn_le hC.1 le_rfl (foldl_max_nonneg le_rfl) (foldl_max_le _ le_rfl fun l _ => hL)
  · exact servedIn_le (hinj i hi) le_rfl hN hL
  · cases hdst : (job i).t.dst with
    | mcast gs => exact le_rfl
    | unicast d =>
      simp only
      unfold Device.getSinkAbsorptionRate
      cases dev.getCoreType d with
      | ok ct => exact servedIn_le (hC.2.2 ct) le_rfl hN hL
      | _ => exact le_rfl

/-- Every list of some of the transfers is a part of an arrangement of all of them. -/
theorem extend_order {l : List Nat} (hl : l.Nodup) (hn : ∀ i ∈ l, i < n) :
    ∃ all, l.Sublist all ∧ all.Perm (List.range n) := by
  refine ⟨l ++ (List.range n).filter (fun i => decide (i ∉ l)), List.sublist_append_left _ _, ?_⟩
  rw [List.perm_ext_iff_of_nodup]
  · intro i
    simp only [List.mem_append, List.mem_filter, List.mem_range, decide_eq_true_eq]
    constructor
    · rintro (h | h)
      · exact hn i h
      · exact h.1
    · intro h
      by_cases hi : i ∈ l
      · exact Or.inl hi
      · exact Or.inr ⟨h, hi⟩
  · refine List.Nodup.append hl (List.nodup_range.filter _) ?_
    intro i h1 h2
    have := (List.mem_filter.mp h2).2
    simp only [decide_eq_true_eq] at this
    exact this h1
  · exact List.nodup_range

end
end NPE
