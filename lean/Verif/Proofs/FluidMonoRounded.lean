import Verif.Proofs.FluidMono
import Verif.Proofs.FluidRounded

/-
Transfers that wait for nothing, with rounding: with lower speeds, none of them ends earlier.
-/

namespace NPE
open NPE.Spec NPE.Spec.Fluid

/-- As `Behind`; rounding can move an end by one cycle, and who is still active has bytes left. -/
def Trails (total total' b : Nat) : Prog → Prog → Prop
  | .waiting, .waiting => True
  | .active c m, .active c' m' => c' = c ∧ m' ≤ m ∧ m ≤ total
  | .finished c e, .active c' m' => c' = c ∧ e ≤ b + 1 ∧ m' < total'
  | .finished c e, .finished c' e' => c' = c ∧ e ≤ e'
  | _, _ => False

/-- Bytes of a timestep and the cycles that they take, rounded. -/
def roundBytes (R : Rounding) (left cr : Nat) (v : ℚ) : Nat := min left (R.fl (R.fl cr * v)).floor.toNat
def roundCycles (R : Rounding) (b : Nat) (v : ℚ) : Int := (R.fl (R.fl b / v)).ceil

section
variable {R : Rounding} {job job' : Nat → Job} {cpt : Nat}

theorem part_le {cr : Nat} {v v' : ℚ} (hv : v' ≤ v) : (R.fl (R.fl cr * v')).floor.toNat ≤ (R.fl (R.fl cr * v)).floor.toNat := by
  refine Int.toNat_le_toNat ?_
  refine Rat.le_floor_iff.mpr (le_trans (Rat.floor_le _) (R.mono ?_))
  exact mul_le_mul_of_nonneg_left hv (R.fl_nonneg (Nat.cast_nonneg cr))

theorem speed_pos {cr b : Nat} {v : ℚ} (hb : b ≤ (R.fl (R.fl cr * v)).floor.toNat) (h0 : 0 < b) : 0 < v := by
  by_contra hcon
  have h1 : R.fl cr * v ≤ 0 := mul_nonpos_of_nonneg_of_nonpos (R.fl_nonneg (Nat.cast_nonneg cr)) (not_lt.mp hcon)
  have h2 := R.fl_nonpos h1
  have h3 : (R.fl (R.fl cr * v)).floor ≤ 0 := by
    have : ((R.fl (R.fl cr * v)).floor : ℚ) ≤ 0 := le_trans (Rat.floor_le _) h2
    exact_mod_cast this
  omega

theorem cycles_zero {v : ℚ} : roundCycles R 0 v = 0 := by
  unfold roundCycles
  rw [Nat.cast_zero, R.fl_zero, zero_div, R.fl_zero]
  decide

theorem cycles_between {cr b : Nat} {v : ℚ} (hb : b ≤ (R.fl (R.fl cr * v)).floor.toNat) (hcr : cr + 1 ≤ 16777216) :
    0 ≤ roundCycles R b v ∧ roundCycles R b v ≤ cr + 1 ∧ (0 < b → 1 ≤ roundCycles R b v) := by
  rcases Nat.eq_zero_or_pos b with h0 | h0
  · subst h0
    rw [cycles_zero]
    omega
  · have hpos := speed_pos hb h0
    unfold roundCycles
    rw [R.fl_nat (n := cr) (by omega)] at hb
    have hx0 : 0 ≤ R.fl (cr * v) := R.fl_nonneg (by positivity)
    have h1 : (b : ℚ) ≤ R.fl (cr * v) := by
      have h2 := toNat_floor_le hx0
      have h3 : (b : ℚ) ≤ ((R.fl (cr * v)).floor.toNat : ℚ) := by exact_mod_cast hb
      linarith
    have h2 : R.fl b ≤ R.fl (cr * v) := by
      have := R.mono h1
      rwa [R.idem] at this
    have h3 : R.fl (cr * v) ≤ cr * v + cr * v / 16777216 := by
      have := R.fl_le_err (x := cr * v) (by positivity)
      linarith
    have h4 : R.fl b / v ≤ cr + cr / 16777216 := by
      rw [div_le_iff₀ hpos]
      have : ((cr : ℚ) + cr / 16777216) * v = cr * v + cr * v / 16777216 := by ring
      rw [this]; linarith
    have h5 : R.fl b / v ≤ ((cr + 1 : Nat) : ℚ) := by
      have : (cr : ℚ) / 16777216 ≤ 1 := by
        rw [div_le_one (by norm_num)]
        exact_mod_cast (by omega : cr ≤ 16777216)
      push_cast; linarith
    have h6 : R.fl (R.fl b / v) ≤ ((cr + 1 : Nat) : ℚ) := by
      have := R.mono h5
      rwa [R.fl_nat (n := cr + 1) (by omega)] at this
    have hbq : (0 : ℚ) < b := by exact_mod_cast h0
    have h7 : 0 < R.fl b := lt_of_lt_of_le (by nlinarith) (R.fl_ge_err hbq.le)
    have h8 : 0 < R.fl b / v := div_pos h7 hpos
    have h9 : 0 < R.fl (R.fl b / v) := lt_of_lt_of_le (by nlinarith) (R.fl_ge_err h8.le)
    have hc : 1 ≤ (R.fl (R.fl b / v)).ceil := by
      have h10 : (0 : ℚ) < ((R.fl (R.fl b / v)).ceil : ℚ) := lt_of_lt_of_le h9 Rat.le_ceil
      have : 0 < (R.fl (R.fl b / v)).ceil := by exact_mod_cast h10
      omega
    refine ⟨by omega, ?_, fun _ => hc⟩
    rw [Rat.ceil_le_iff]
    push_cast at h6 ⊢
    exact h6

/-- More bytes at a lower speed take longer. -/
theorem cycles_mono {cr b b' : Nat} {v v' : ℚ} (hb : b ≤ b') (hv : v' ≤ v)
    (hm : b' ≤ (R.fl (R.fl cr * v')).floor.toNat) : roundCycles R b v ≤ roundCycles R b' v' := by
  rcases Nat.eq_zero_or_pos b' with h0 | h0
  · have : b = 0 := by omega
    rw [h0, this, cycles_zero, cycles_zero]
  · have hpos := speed_pos hm h0
    unfold roundCycles
    refine Rat.ceil_le_iff.mpr (le_trans (R.mono ?_) Rat.le_ceil)
    exact div_le_div₀ (R.fl_nonneg (Nat.cast_nonneg _)) (R.mono (by exact_mod_cast hb)) hpos hv

theorem advance_round {speed : Speed} {curr i c m : Nat} {σ : Fluid.State} (h : σ i = .active c m)
    (ha : (job i).after = none) (hc : c ≤ curr) (hcpt : cpt ≤ curr) (h24 : curr + 1 ≤ 16777216) :
    advance R.fl job cpt speed curr σ i =
      if m + roundBytes R ((job i).t.totalBytes - m) (min cpt (curr - c)) (speed curr σ i) = (job i).t.totalBytes then
        .finished c (max c (curr - cpt) +
          (roundCycles R (roundBytes R ((job i).t.totalBytes - m) (min cpt (curr - c)) (speed curr σ i)) (speed curr σ i)).toNat)
      else .active c (m + roundBytes R ((job i).t.totalBytes - m) (min cpt (curr - c)) (speed curr σ i)) := by
  unfold Fluid.advance
  rw [h]
  simp only
  rw [credit_free ha]
  obtain ⟨z0, z1, _⟩ := cycles_between (R := R)
    (b := roundBytes R ((job i).t.totalBytes - m) (min cpt (curr - c)) (speed curr σ i))
    (cr := min cpt (curr - c)) (v := speed curr σ i) (Nat.min_le_right _ _) (by omega)
  unfold roundBytes roundCycles at *
  generalize min ((job i).t.totalBytes - m) (R.fl (R.fl ((min cpt (curr - c) : ℕ) : ℚ) * speed curr σ i)).floor.toNat = B at *
  generalize (R.fl (R.fl (B : ℚ) / speed curr σ i)).ceil = z at *
  have e : R.fl (R.fl ((max c (curr - cpt) : ℕ) : ℚ) + (z : ℚ)) = ((max c (curr - cpt) + z.toNat : ℕ) : ℚ) := by
    rw [R.fl_nat (n := max c (curr - cpt)) (by omega)]
    have hz : (z : ℚ) = ((z.toNat : ℕ) : ℚ) := by
      have := Int.toNat_of_nonneg z0
      exact_mod_cast this.symm
    rw [hz, ← Nat.cast_add, R.fl_nat (by omega)]
  rw [e]
  have e2 : (((max c (curr - cpt) + z.toNat : ℕ) : ℚ)).floor = ((max c (curr - cpt) + z.toNat : ℕ) : Int) := by
    have := Rat.floor_intCast ((max c (curr - cpt) + z.toNat : ℕ) : Int)
    exact_mod_cast this
  rw [e2, Int.toNat_natCast, Nat.mod_eq_of_lt (by omega)]

theorem start_trails {total total' b curr i i' : Nat} {σ σ' : Fluid.State} (ho : (job' i').t.offset = (job i).t.offset)
    (ha : (job i).after = none) (ha' : (job' i').after = none) (h : Trails total total' b (σ i) (σ' i')) :
    Trails total total' b (start job curr σ i) (start job' curr σ' i') := by
  cases hσ : σ i with
  | waiting =>
    cases hσ' : σ' i' with
    | waiting =>
      unfold Fluid.start
      rw [begins_free ha hσ, begins_free ha' hσ', ho]
      by_cases hle : (job i).t.offset ≤ curr
      · rw [if_pos hle]
        exact ⟨rfl, le_rfl, Nat.zero_le _⟩
      · rw [if_neg hle, hσ, hσ']
        trivial
    | active c m => rw [hσ, hσ'] at h; exact h.elim
    | finished c e => rw [hσ, hσ'] at h; exact h.elim
  | active c m =>
    rw [start_other (by rw [hσ]; exact Prog.noConfusion)]
    have : σ' i' ≠ .waiting := by intro h'; rw [hσ, h'] at h; exact h
    rw [start_other this]; exact h
  | finished c e =>
    rw [start_other (by rw [hσ]; exact Prog.noConfusion)]
    have : σ' i' ≠ .waiting := by intro h'; rw [hσ, h'] at h; exact h
    rw [start_other this]; exact h

theorem advance_trails {speed speed' : Speed} {curr i i' : Nat} {σ σ' : Fluid.State} (hcur : cpt ≤ curr)
    (h24 : curr + 1 ≤ 16777216)
    (hb : (job i).t.totalBytes ≤ (job' i').t.totalBytes) (ha : (job i).after = none) (ha' : (job' i').after = none)
    (hs : ∀ c m, σ' i' = .active c m → ∀ c' m', σ i = .active c' m' → speed' curr σ' i' ≤ speed curr σ i)
    (hst : ∀ c m, σ' i' = .active c m → c ≤ curr)
    (h : Trails (job i).t.totalBytes (job' i').t.totalBytes (curr - cpt) (σ i) (σ' i')) :
    Trails (job i).t.totalBytes (job' i').t.totalBytes curr (advance R.fl job cpt speed curr σ i) (advance R.fl job' cpt speed' curr σ' i') := by
  have idle : ∀ {jb : Nat → Job} {sp : Speed} {τ : Fluid.State} {j c e : Nat}, τ j = .finished c e →
      advance R.fl jb cpt sp curr τ j = .finished c e := by
    intro jb sp τ j c e hτ; unfold Fluid.advance; rw [hτ]
  have idle' : ∀ {jb : Nat → Job} {sp : Speed} {τ : Fluid.State} {j : Nat}, τ j = .waiting →
      advance R.fl jb cpt sp curr τ j = .waiting := by
    intro jb sp τ j hτ; unfold Fluid.advance; rw [hτ]
  cases hσ : σ i with
  | waiting =>
    cases hσ' : σ' i' with
    | waiting => rw [idle' hσ, idle' hσ']; trivial
    | active c m => rw [hσ, hσ'] at h; exact h.elim
    | finished c e => rw [hσ, hσ'] at h; exact h.elim
  | finished c e =>
    cases hσ' : σ' i' with
    | waiting => rw [hσ, hσ'] at h; exact h.elim
    | finished c' e' => rw [idle hσ, idle hσ']; rw [hσ, hσ'] at h; exact h
    | active c' m' =>
      rw [hσ, hσ'] at h
      obtain ⟨h1, h2, h3⟩ := h
      have hc := hst c' m' hσ'
      rw [idle hσ, advance_round hσ' ha' hc hcur h24]
      have hp : roundBytes R ((job' i').t.totalBytes - m') (min cpt (curr - c')) (speed' curr σ' i') ≤ (job' i').t.totalBytes - m' :=
        Nat.min_le_left _ _
      obtain ⟨_, _, hz⟩ := cycles_between (R := R)
        (b := roundBytes R ((job' i').t.totalBytes - m') (min cpt (curr - c')) (speed' curr σ' i'))
        (cr := min cpt (curr - c')) (v := speed' curr σ' i') (Nat.min_le_right _ _) (by omega)
      generalize roundBytes R ((job' i').t.totalBytes - m') (min cpt (curr - c')) (speed' curr σ' i') = B at *
      generalize roundCycles R B (speed' curr σ' i') = z at *
      split
      · refine ⟨h1, ?_⟩
        have := hz (by omega)
        omega
      · exact ⟨h1, by omega, by omega⟩
  | active c m =>
    cases hσ' : σ' i' with
    | waiting => rw [hσ, hσ'] at h; exact h.elim
    | finished c' e' => rw [hσ, hσ'] at h; exact h.elim
    | active c' m' =>
      have hv := hs c' m' hσ' c m hσ
      have hcc := hst c' m' hσ'
      rw [hσ, hσ'] at h
      obtain ⟨h1, h2, h3⟩ := h
      subst h1
      rw [advance_round hσ ha hcc hcur h24, advance_round hσ' ha' hcc hcur h24]
      have hx := part_le (R := R) (cr := min cpt (curr - c')) hv
      have hlong : roundBytes R ((job i).t.totalBytes - m) (min cpt (curr - c')) (speed curr σ i) ≤
          roundBytes R ((job' i').t.totalBytes - m') (min cpt (curr - c')) (speed' curr σ' i') → _ :=
        fun hle => cycles_mono (R := R) (cr := min cpt (curr - c')) hle hv (Nat.min_le_right _ _)
      obtain ⟨_, z1, _⟩ := cycles_between (R := R)
        (b := roundBytes R ((job i).t.totalBytes - m) (min cpt (curr - c')) (speed curr σ i))
        (cr := min cpt (curr - c')) (v := speed curr σ i) (Nat.min_le_right _ _) (by omega)
      have e1 : roundBytes R ((job i).t.totalBytes - m) (min cpt (curr - c')) (speed curr σ i) = min _ _ := rfl
      have e2 : roundBytes R ((job' i').t.totalBytes - m') (min cpt (curr - c')) (speed' curr σ' i') = min _ _ := rfl
      generalize roundBytes R ((job i).t.totalBytes - m) (min cpt (curr - c')) (speed curr σ i) = B at *
      generalize roundBytes R ((job' i').t.totalBytes - m') (min cpt (curr - c')) (speed' curr σ' i') = B' at *
      generalize (R.fl (R.fl ((min cpt (curr - c') : ℕ) : ℚ) * speed curr σ i)).floor.toNat = X at *
      generalize (R.fl (R.fl ((min cpt (curr - c') : ℕ) : ℚ) * speed' curr σ' i')).floor.toNat = X' at *
      generalize roundCycles R B (speed curr σ i) = z at *
      generalize roundCycles R B' (speed' curr σ' i') = z' at *
      by_cases f' : m' + B' = (job' i').t.totalBytes
      · have f : m + B = (job i).t.totalBytes := by omega
        rw [if_pos f, if_pos f']
        have := hlong (by omega)
        exact ⟨rfl, by omega⟩
      · rw [if_neg f']
        by_cases f : m + B = (job i).t.totalBytes
        · rw [if_pos f]
          exact ⟨rfl, by omega, by omega⟩
        · rw [if_neg f]
          exact ⟨rfl, by omega, by omega⟩

theorem round_inTime {speed : Speed} {n : Nat} (hfree : ∀ i, i < n → (job i).after = none) (k i : Nat) (hi : i < n) :
    ∀ c m, run R.fl job cpt speed k i = .active c m → c ≤ k * cpt := by
  induction k with
  | zero => intro c m h; cases h
  | succ k ih =>
    intro c m h
    have e : (k + 1) * cpt = k * cpt + cpt := by ring
    change advance R.fl job cpt speed ((k + 1) * cpt) (Fluid.start job ((k + 1) * cpt) (run R.fl job cpt speed k)) i = _ at h
    have key : ∀ c m, Fluid.start job ((k + 1) * cpt) (run R.fl job cpt speed k) i = .active c m → c ≤ (k + 1) * cpt := by
      intro c m h
      cases hσ : run R.fl job cpt speed k i with
      | waiting =>
        unfold Fluid.start at h
        rw [begins_free (hfree i hi) hσ] at h
        by_cases hle : (job i).t.offset ≤ (k + 1) * cpt
        · rw [if_pos hle] at h
          obtain ⟨rfl, _⟩ := Prog.active.inj h
          exact hle
        · rw [if_neg hle, hσ] at h; cases h
      | active c' m' =>
        rw [start_other (by rw [hσ]; exact Prog.noConfusion), hσ] at h
        obtain ⟨rfl, _⟩ := Prog.active.inj h
        have := ih _ _ hσ
        omega
      | finished c' e' =>
        rw [start_other (by rw [hσ]; exact Prog.noConfusion), hσ] at h
        cases h
    cases ha : Fluid.start job ((k + 1) * cpt) (run R.fl job cpt speed k) i with
    | waiting => unfold Fluid.advance at h; rw [ha] at h; cases h
    | finished c' e' => unfold Fluid.advance at h; rw [ha] at h; cases h
    | active c' m' =>
      have := key _ _ ha
      unfold Fluid.advance at h
      rw [ha] at h
      simp only at h
      split at h
      · cases h
      · obtain ⟨rfl, _⟩ := Prog.active.inj h
        exact this

variable {n : Nat} {f : Nat → Nat}

def AllTrail (n : Nat) (f : Nat → Nat) (job job' : Nat → Job) (b : Nat) (σ σ' : Fluid.State) : Prop :=
  ∀ i, i < n → Trails (job i).t.totalBytes (job' (f i)).t.totalBytes b (σ i) (σ' (f i))

theorem Freely.run_trails (F : Freely n f job job') {n' : Nat} (hn : ∀ i, i < n → f i < n')
    (hfree' : ∀ i, i < n' → (job' i).after = none) {speed speed' : Speed}
    (hs : ∀ k, AllTrail n f job job' (k * cpt) (start job ((k + 1) * cpt) (run R.fl job cpt speed k))
        (start job' ((k + 1) * cpt) (run R.fl job' cpt speed' k)) →
      ∀ i, i < n → speed' ((k + 1) * cpt) (start job' ((k + 1) * cpt) (run R.fl job' cpt speed' k)) (f i) ≤
        speed ((k + 1) * cpt) (start job ((k + 1) * cpt) (run R.fl job cpt speed k)) i)
    (k : Nat) (hk : k * cpt + 1 ≤ 16777216) :
    AllTrail n f job job' (k * cpt) (run R.fl job cpt speed k) (run R.fl job' cpt speed' k) := by
  induction k with
  | zero => intro i _; trivial
  | succ k ih =>
    have e : (k + 1) * cpt = k * cpt + cpt := by ring
    have ih := ih (by omega)
    have h1 : AllTrail n f job job' ((k + 1) * cpt - cpt) (start job ((k + 1) * cpt) (run R.fl job cpt speed k))
        (start job' ((k + 1) * cpt) (run R.fl job' cpt speed' k)) := by
      intro i hi
      rw [show (k + 1) * cpt - cpt = k * cpt by omega]
      exact start_trails (F.data i hi).offset (F.free i hi) (F.free' i hi) (ih i hi)
    intro i hi
    refine advance_trails (by omega) hk (F.data i hi).bytes (F.free i hi) (F.free' i hi)
      (fun _ _ _ _ _ _ => hs k (by rw [show (k + 1) * cpt - cpt = k * cpt by omega] at h1; exact h1) i hi) ?_ (h1 i hi)
    intro c m h
    cases hσ : run R.fl job' cpt speed' k (f i) with
    | waiting =>
      unfold Fluid.start at h
      rw [begins_free (F.free' i hi) hσ] at h
      by_cases hle : (job' (f i)).t.offset ≤ (k + 1) * cpt
      · rw [if_pos hle] at h
        obtain ⟨rfl, _⟩ := Prog.active.inj h
        exact hle
      · rw [if_neg hle, hσ] at h; cases h
    | active c' m' =>
      rw [start_other (by rw [hσ]; exact Prog.noConfusion), hσ] at h
      obtain ⟨rfl, _⟩ := Prog.active.inj h
      have := round_inTime (R := R) hfree' k (f i) (hn i hi) _ _ hσ
      omega
    | finished c' e' =>
      rw [start_other (by rw [hσ]; exact Prog.noConfusion), hσ] at h
      cases h

/-! ### Speeds and ends -/

theorem own_rep {fp : FP} {dev : Device} (hT : TableOk fp dev.tbt) {t : Transfer} (h : 0 ≤ t.injectionRate)
    (hr : fp.f32.Rep t.injectionRate) : 0 ≤ own fp dev t ∧ fp.f32.Rep (own fp dev t) := by
  unfold own
  split
  · rename_i b hb
    obtain ⟨h1, h2, _⟩ := interpolateBW_ok hT hb
    refine ⟨le_min h h1, ?_⟩
    rcases min_choice t.injectionRate b with e | e <;> rw [e] <;> assumption
  · exact ⟨le_rfl, fp.f32.fl_zero⟩

theorem sharedIn_le_alone {fp : FP} {dev : Device} (hT : TableOk fp dev.tbt) {order : Nat → List Nat} {curr i : Nat}
    {σ σ' : Fluid.State} (hinj : 0 ≤ (job i).t.injectionRate) (hr : fp.f32.Rep (job i).t.injectionRate) :
    sharedIn fp dev job cpt order curr σ' i ≤ alone fp dev job curr σ i := by
  obtain ⟨h1, h2⟩ := own_rep (dev := dev) hT hinj hr
  have key : ∀ d : ℚ, (if d < 1 then reduced fp dev (own fp dev (job i).t) d else own fp dev (job i).t) ≤
      own fp dev (job i).t := by
    intro d
    have := applyDerate_le' (dev := dev) (d := some d) h1 h2
    rwa [applyDerate_reduced] at this
  exact key _

theorem trails_times {n' : Nat} (hf : ∀ i, i < n → f i < n') {total total' : Nat → Nat} {b : Nat → Nat} {speed speed' : Speed}
    (hA : ∀ k, k * cpt + 1 ≤ 16777216 → ∀ i, i < n →
      Trails (total i) (total' i) (b k) (run R.fl job cpt speed k i) (run R.fl job' cpt speed' k (f i)))
    {e : Ending} {s' : Sim} {c' : Nat} (h : EndsAs n cpt (run R.fl job cpt speed) e)
    (h' : EndsAs n' cpt (run R.fl job' cpt speed') (.finished s' c')) (hc' : c' + 1 ≤ 16777216) :
    ∃ s c, e = .finished s c ∧ c ≤ c' ∧ ∀ (i : Nat) (t : TState), s.ts[i]? = some t →
      ∃ t', s'.ts[f i]? = some t' ∧ t'.start = t.start ∧ t.endc ≤ t'.endc := by
  obtain ⟨l', k', a1, a2, a3, _⟩ := h'
  have get : ∀ i, i < n → ∃ t' e, s'.ts[f i]? = some t' ∧ run R.fl job cpt speed k' i = .finished t'.start e ∧ e ≤ t'.endc := by
    intro i hi
    have hlt : f i < s'.ts.length := by rw [l']; exact hf i hi
    have h1 := a3 _ _ (List.getElem?_eq_getElem hlt)
    have h2 := hA k' (by omega) i hi
    rw [h1] at h2
    cases h3 : run R.fl job cpt speed k' i with
    | waiting => rw [h3] at h2; exact h2.elim
    | active c m => rw [h3] at h2; exact h2.elim
    | finished c e =>
      rw [h3] at h2
      exact ⟨_, e, List.getElem?_eq_getElem hlt, by rw [h2.1], h2.2⟩
  have all : AllFinished n (run R.fl job cpt speed k') := by
    intro i hi
    obtain ⟨t', e, _, h2, _⟩ := get i hi
    exact ⟨_, _, h2⟩
  cases e with
  | limit s c =>
    obtain ⟨_, k, b1, b2, b3⟩ := h
    exfalso
    refine b3 (allFinished_le ?_ all)
    have h1 : k' * cpt < (k + 1) * cpt := by
      have : (k + 1) * cpt = k * cpt + cpt := by ring
      omega
    have := Nat.lt_of_mul_lt_mul_right h1
    omega
  | finished s c =>
    obtain ⟨l, k, b1, b2, b3, b4⟩ := h
    have hk : k ≤ k' := by
      by_contra hcon
      exact b4 k' a1 (by omega) all
    refine ⟨s, c, rfl, by rw [b2, a2]; exact Nat.mul_le_mul_right _ hk, fun i t ht => ?_⟩
    obtain ⟨t', e, h1, h2, h4⟩ := get i (by rw [← l]; exact (List.getElem?_eq_some_iff.mp ht).1)
    have h3 := run_finished_le hk (b3 i t ht)
    rw [h2] at h3
    obtain ⟨x1, x2⟩ := Prog.finished.inj h3
    exact ⟨t', h1, x1, x2 ▸ h4⟩

end
end NPE
