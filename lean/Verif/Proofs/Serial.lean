import Verif.Proofs.FluidDeadline
import Verif.Proofs.Calm
import Verif.Spec.Serial
import Mathlib.Algebra.BigOperators.Ring.Finset

/-
If transfers share fairly, the time in which anything is transferred is not longer than all of them need one at a time.
-/

namespace NPE
open NPE.Spec NPE.Spec.Fluid

section
variable {R : Rounding} {job : Nat → Job} {n cpt : Nat} {speed : Speed}

/-- The state in which timestep `k + 1` is computed. -/
def within (R : Rounding) (job : Nat → Job) (cpt : Nat) (speed : Speed) (k : Nat) : Fluid.State :=
  Fluid.start job ((k + 1) * cpt) (run R.fl job cpt speed k)

/-- What a transfer may have used of the time. -/
def usedUp (B : Nat) (o F cpt : ℚ) : Prog → ℚ
  | .waiting => 0
  | .active _ m => F * (m / o) + cpt
  | .finished _ _ => F * (B / o) + 2 * cpt

theorem usedUp_le {B : Nat} {o F c : ℚ} (ho : 0 < o) (hF : 0 ≤ F) (hc : 0 ≤ c) {p : Prog} (h : ∀ s m, p = .active s m → m ≤ B) :
    usedUp B o F c p ≤ F * (B / o) + 2 * c := by
  cases p with
  | waiting => show (0 : ℚ) ≤ _; positivity
  | finished s e => exact le_rfl
  | active s m =>
    have h1 : (m : ℚ) ≤ B := by exact_mod_cast h s m rfl
    have h2 : (m : ℚ) / o ≤ B / o := div_le_div_of_nonneg_right h1 ho.le
    have := mul_le_mul_of_nonneg_left h2 hF
    show F * (m / o) + c ≤ _
    linarith

/-- The parts of the time that a transfer has had are not more than what it needs. -/
theorem parts_le (F : ℚ) (hF : 0 ≤ F) {i : Nat} (o : ℚ) (ho : 0 < o) (K : Nat)
    (hs : ∀ k, k < K → ∀ c m, within R job cpt speed k i = .active c m → 1 ≤ underWay n (within R job cpt speed k) ∧
      (cpt : ℚ) * o ≤ F * underWay n (within R job cpt speed k) *
        perStep R.fl cpt (speed ((k + 1) * cpt) (within R job cpt speed k) i)) :
    (∑ k ∈ Finset.range K, if (within R job cpt speed k i).going then
        (cpt : ℚ) / underWay n (within R job cpt speed k) else 0) ≤
      usedUp (job i).t.totalBytes o F cpt (run R.fl job cpt speed K i) ∧
    ∀ c m, run R.fl job cpt speed K i = .active c m → c ≤ K * cpt := by
  induction K with
  | zero =>
    refine ⟨?_, fun c m h => by cases h⟩
    rw [Finset.sum_range_zero]
    exact le_rfl
  | succ K ih =>
    obtain ⟨ih1, ih2⟩ := ih fun k hk => hs k (by omega)
    rw [Finset.sum_range_succ]
    generalize (∑ k ∈ Finset.range K, if (within R job cpt speed k i).going then
        (cpt : ℚ) / underWay n (within R job cpt speed k) else 0) = S at ih1 ⊢
    have hcp : (0 : ℚ) ≤ cpt := Nat.cast_nonneg _
    have hrun : run R.fl job cpt speed (K + 1) i = advance R.fl job cpt speed ((K + 1) * cpt) (within R job cpt speed K) i := rfl
    rw [hrun]
    have hK : (K + 1) * cpt = K * cpt + cpt := by ring
    have hstart : ∀ c m, within R job cpt speed K i = .active c m → c ≤ (K + 1) * cpt := active_le K i
    cases ha : within R job cpt speed K i with
    | waiting =>
      have hw : run R.fl job cpt speed K i = .waiting := by
        by_contra hne
        have := start_other (job := job) (curr := (K + 1) * cpt) hne
        exact hne (this.symm.trans ha)
      rw [hw] at ih1
      unfold Fluid.advance
      rw [ha]
      refine ⟨?_, fun c m h => by cases h⟩
      simp only [Prog.going, Bool.false_eq_true, if_false, add_zero]
      exact ih1
    | finished c e =>
      have hw : run R.fl job cpt speed K i = .finished c e := by
        by_cases hne : run R.fl job cpt speed K i = .waiting
        · unfold within Fluid.start at ha
          cases hb : begins job ((K + 1) * cpt) (run R.fl job cpt speed K) i with
          | none => rw [hb] at ha; exact ha
          | some x => rw [hb] at ha; cases ha
        · have := start_other (job := job) (curr := (K + 1) * cpt) hne
          exact this.symm.trans ha
      rw [hw] at ih1
      unfold Fluid.advance
      rw [ha]
      refine ⟨?_, fun c m h => by cases h⟩
      simp only [Prog.going, Bool.false_eq_true, if_false, add_zero]
      exact ih1
    | active c m =>
      obtain ⟨hA, hspeed⟩ := hs K (by omega) c m ha
      have hA' : (1 : ℚ) ≤ underWay n (within R job cpt speed K) := by exact_mod_cast hA
      have hone : (cpt : ℚ) / underWay n (within R job cpt speed K) ≤ cpt := div_le_self hcp hA'
      simp only [Prog.going, if_true]
      unfold Fluid.advance
      rw [ha]
      simp only
      by_cases hne : run R.fl job cpt speed K i = .waiting
      · rw [hne] at ih1
        have ih1 : S ≤ (0 : ℚ) := ih1
        split
        · refine ⟨?_, fun c m h => by cases h⟩
          show _ ≤ F * (((job i).t.totalBytes : ℚ) / o) + 2 * cpt
          have : 0 ≤ F * (((job i).t.totalBytes : ℚ) / o) := by positivity
          linarith
        · refine ⟨?_, fun c' m' h => ?_⟩
          · show _ ≤ F * (_ / o) + cpt
            have : ∀ x : Nat, 0 ≤ F * ((x : ℚ) / o) := fun x => by positivity
            have := this (m + min ((job i).t.totalBytes - m) (R.fl (R.fl (credit job cpt ((K + 1) * cpt)
              (within R job cpt speed K) i c) * speed ((K + 1) * cpt) (within R job cpt speed K) i)).floor.toNat)
            linarith
          · obtain ⟨rfl, _⟩ := Prog.active.inj h
            exact hstart _ _ ha
      · have hr : run R.fl job cpt speed K i = .active c m :=
          (start_other (job := job) (curr := (K + 1) * cpt) hne).symm.trans ha
        rw [hr] at ih1
        have ih1 : S ≤ F * ((m : ℚ) / o) + cpt := ih1
        have hc := ih2 c m hr
        have hm := run_left K i hr
        split
        · refine ⟨?_, fun c m h => by cases h⟩
          show _ ≤ F * (((job i).t.totalBytes : ℚ) / o) + 2 * cpt
          have h1 : (m : ℚ) ≤ (job i).t.totalBytes := by exact_mod_cast hm.le
          have h2 := mul_le_mul_of_nonneg_left (div_le_div_of_nonneg_right h1 ho.le) hF
          linarith
        · next hnf =>
          refine ⟨?_, fun c' m' h => ?_⟩
          · show _ ≤ F * (_ / o) + cpt
            have hcr : cpt ≤ credit job cpt ((K + 1) * cpt) (within R job cpt speed K) i c :=
              le_trans (by omega) credit_ge
            have hp := perStep_le (R := R) hcr (le_refl (speed ((K + 1) * cpt) (within R job cpt speed K) i))
            generalize perStep R.fl cpt (speed ((K + 1) * cpt) (within R job cpt speed K) i) = P at hp hspeed
            generalize (R.fl (R.fl (credit job cpt ((K + 1) * cpt) (within R job cpt speed K) i c) *
              speed ((K + 1) * cpt) (within R job cpt speed K) i)).floor.toNat = Q at hp hnf ⊢
            have hPm : m + P ≤ m + min ((job i).t.totalBytes - m) Q := by omega
            have hPm' : ((m : ℚ) + P) ≤ ((m + min ((job i).t.totalBytes - m) Q : ℕ) : ℚ) := by exact_mod_cast hPm
            have h2 := mul_le_mul_of_nonneg_left (div_le_div_of_nonneg_right hPm' ho.le) hF
            have h3 : (cpt : ℚ) / underWay n (within R job cpt speed K) ≤ F * (P / o) := by
              rw [div_le_iff₀ (by linarith)]
              have : F * ((P : ℚ) / o) * underWay n (within R job cpt speed K) =
                F * underWay n (within R job cpt speed K) * P / o := by ring
              rw [this, le_div_iff₀ ho]
              exact hspeed
            have h4 : F * (((m : ℚ) + P) / o) = F * (m / o) + F * (P / o) := by ring
            linarith
          · obtain ⟨rfl, _⟩ := Prog.active.inj h
            exact hstart _ _ ha

/-- The timesteps in which anything is transferred. -/
theorem busySteps_le (F : ℚ) (hF : 0 ≤ F) (o : Nat → ℚ) (ho : ∀ i, i < n → 0 < o i) (K : Nat)
    (hs : ∀ k, k < K → ∀ i, i < n → ∀ c m, within R job cpt speed k i = .active c m →
      (cpt : ℚ) * o i ≤ F * underWay n (within R job cpt speed k) *
        perStep R.fl cpt (speed ((k + 1) * cpt) (within R job cpt speed k) i)) :
    (busySteps R.fl job n cpt speed K * cpt : ℚ) ≤ F * (∑ i ∈ Finset.range n, (job i).t.totalBytes / o i) + 2 * n * cpt := by
  have hone : ∀ k i, i < n → ∀ c m, within R job cpt speed k i = .active c m → 1 ≤ underWay n (within R job cpt speed k) := by
    intro k i hi c m h
    refine Finset.card_pos.mpr ⟨i, Finset.mem_filter.mpr ⟨Finset.mem_range.mpr hi, ?_⟩⟩
    rw [h]
    rfl
  have h1 : (busySteps R.fl job n cpt speed K * cpt : ℚ) =
      ∑ i ∈ Finset.range n, ∑ k ∈ Finset.range K, if (within R job cpt speed k i).going then
        (cpt : ℚ) / underWay n (within R job cpt speed k) else 0 := by
    rw [Finset.sum_comm]
    unfold busySteps
    rw [Finset.card_filter]
    push_cast
    rw [Finset.sum_mul]
    refine Finset.sum_congr rfl fun k _ => ?_
    rw [← Finset.sum_filter, Finset.sum_const, nsmul_eq_mul]
    show _ = (underWay n (within R job cpt speed k) : ℚ) * (cpt / underWay n (within R job cpt speed k))
    by_cases h : 0 < underWay n (within R job cpt speed k)
    · have h' : 0 < underWay n (Fluid.start job ((k + 1) * cpt) (run R.fl job cpt speed k)) := h
      rw [if_pos h', one_mul, mul_div_cancel₀]
      exact_mod_cast h.ne'
    · have h' : ¬ 0 < underWay n (Fluid.start job ((k + 1) * cpt) (run R.fl job cpt speed k)) := h
      rw [if_neg h', Nat.eq_zero_of_not_pos h]
      simp
  rw [h1, Finset.mul_sum]
  have h2 : (2 * n * cpt : ℚ) = ∑ _i ∈ Finset.range n, 2 * (cpt : ℚ) := by
    rw [Finset.sum_const, Finset.card_range, nsmul_eq_mul]; ring
  rw [h2, ← Finset.sum_add_distrib]
  refine Finset.sum_le_sum fun i hi => ?_
  have hi := Finset.mem_range.mp hi
  refine le_trans (parts_le (n := n) F hF (o i) (ho i hi) K fun k hk c m h => ⟨hone k i hi c m h, hs k hk i hi c m h⟩).1
    (usedUp_le (ho i hi) hF (Nat.cast_nonneg _) fun s m h => (run_left K i h).le)

/-- Without pauses, every timestep from cycle `O` on is busy until all transfers are finished. -/
theorem busySteps_all (hcl : ∀ i, i < n → ∀ j d, (job i).after = some (j, d) → j < n ∧ d = 0)
    (rank : Nat → Nat) (hrank : ∀ i, i < n → ∀ j d, (job i).after = some (j, d) → rank j < rank i)
    (O : Nat) (hO : ∀ i, i < n → (job i).t.offset ≤ O) {k : Nat} (hk : O ≤ (k + 1) * cpt)
    (hnear : ∀ i, i < n → ∀ c e, run R.fl job cpt speed k i = .finished c e → e ≤ (k + 1) * cpt)
    (hun : ¬ AllFinished n (run R.fl job cpt speed k)) : 0 < underWay n (within R job cpt speed k) := by
  obtain ⟨i, hi, hni⟩ : ∃ i, i < n ∧ ∀ c e, run R.fl job cpt speed k i ≠ .finished c e := by
    by_contra hcon
    push Not at hcon
    exact hun fun i hi => hcon i hi
  suffices H : ∀ b i, rank i ≤ b → i < n → (∀ c e, run R.fl job cpt speed k i ≠ .finished c e) →
      ∃ j, j < n ∧ (within R job cpt speed k j).going = true by
    obtain ⟨j, hj, h⟩ := H (rank i) i le_rfl hi hni
    exact Finset.card_pos.mpr ⟨j, Finset.mem_filter.mpr ⟨Finset.mem_range.mpr hj, h⟩⟩
  intro b
  induction b with
  | zero =>
    intro i hb hi hni
    refine ⟨i, hi, ?_⟩
    cases hr : run R.fl job cpt speed k i with
    | finished c e => exact absurd hr (hni c e)
    | active c m =>
      have : within R job cpt speed k i = .active c m := (start_other (by rw [hr]; exact Prog.noConfusion)).trans hr
      rw [this]; rfl
    | waiting =>
      have key : begins job ((k + 1) * cpt) (run R.fl job cpt speed k) i = some (job i).t.offset := by
        unfold begins
        rw [hr]
        simp only
        rw [if_pos (le_trans (hO i hi) hk)]
        cases ha : (job i).after with
        | none => rfl
        | some pd =>
          have := hrank i hi pd.1 pd.2 ha
          omega
      unfold within Fluid.start
      rw [key]; rfl
  | succ b ih =>
    intro i hb hi hni
    cases hr : run R.fl job cpt speed k i with
    | finished c e => exact absurd hr (hni c e)
    | active c m =>
      have : within R job cpt speed k i = .active c m := (start_other (by rw [hr]; exact Prog.noConfusion)).trans hr
      exact ⟨i, hi, by rw [this]; rfl⟩
    | waiting =>
      cases ha : (job i).after with
      | none =>
        refine ⟨i, hi, ?_⟩
        have key : begins job ((k + 1) * cpt) (run R.fl job cpt speed k) i = some (job i).t.offset := by
          unfold begins
          rw [hr]
          simp only
          rw [if_pos (le_trans (hO i hi) hk), ha]
        unfold within Fluid.start
        rw [key]; rfl
      | some pd =>
        obtain ⟨j, d⟩ := pd
        obtain ⟨hj, rfl⟩ := hcl i hi j d ha
        by_cases hf : ∃ c e, run R.fl job cpt speed k j = .finished c e
        · obtain ⟨c, e, hf⟩ := hf
          refine ⟨i, hi, ?_⟩
          have he := hnear j hj c e hf
          have key : begins job ((k + 1) * cpt) (run R.fl job cpt speed k) i =
              some (max (job i).t.offset ((e + 0) % 4294967296)) := by
            unfold begins
            rw [hr]
            simp only
            rw [if_pos (le_trans (hO i hi) hk), ha]
            simp only
            rw [hf]
            simp only
            rw [if_pos (le_trans (Nat.mod_le _ _) (by omega))]
          unfold within Fluid.start
          rw [key]; rfl
        · push Not at hf
          exact ih j (by have := hrank i hi j 0 ha; omega) hj hf

/-- The number of busy timesteps if there is no pause after cycle `O`. -/
theorem busySteps_ge {K : Nat} (O : Nat) (hpos : 0 < cpt)
    (h : ∀ k, k < K → O ≤ (k + 1) * cpt → 0 < underWay n (within R job cpt speed k)) :
    K * cpt ≤ O + busySteps R.fl job n cpt speed K * cpt := by
  have h1 : (Finset.range K).card ≤ busySteps R.fl job n cpt speed K + O / cpt := by
    have hsub : Finset.range K ⊆
        ((Finset.range K).filter fun k => 0 < underWay n (Fluid.start job ((k + 1) * cpt) (run R.fl job cpt speed k))) ∪
          Finset.range (O / cpt) := by
      intro k hk
      rw [Finset.mem_union]
      by_cases hO : O ≤ (k + 1) * cpt
      · exact Or.inl (Finset.mem_filter.mpr ⟨hk, h k (Finset.mem_range.mp hk) hO⟩)
      · refine Or.inr (Finset.mem_range.mpr ?_)
        have : (k + 1) * cpt ≤ O := by omega
        exact (Nat.le_div_iff_mul_le hpos).mpr this
    refine le_trans (Finset.card_le_card hsub) (le_trans (Finset.card_union_le _ _) ?_)
    rw [Finset.card_range]
    exact le_rfl
  rw [Finset.card_range] at h1
  have h2 := Nat.mul_le_mul_right cpt h1
  rw [Nat.add_mul] at h2
  have h3 := Nat.div_mul_le_self O cpt
  omega

end

/-! ### Speeds -/

section
variable {dev : Device} {job : Nat → Job} {n cpt : Nat}

/-- Loads are at most what one transfer may ask for, times the number of transfers under way. -/
theorem load_underWay {curr : Nat} (hpos : 0 < cpt) (hcur : cpt ≤ curr) {w : TState → Nat} {cap : ℚ} {σ : Fluid.State}
    (hown : ∀ j, j < n → 0 ≤ own .exact dev (job j).t)
    (hcap : ∀ j, j < n → ∀ c, (w ((job j).began c) : ℚ) * own .exact dev (job j).t ≤ cap)
    (hst : ∀ j c m, σ j = .active c m → c ≤ curr) :
    load dev job n cpt w curr σ ≤ underWay n σ * cap := by
  have h1 : (underWay n σ * cap : ℚ) = ((List.range n).map fun j => if (σ j).going then cap else 0).sum := by
    unfold underWay
    rw [Finset.card_filter]
    push_cast
    rw [Finset.sum_mul]
    have : ∀ m, ∑ x ∈ Finset.range m, (if (σ x).going = true then (1 : ℚ) else 0) * cap =
        ((List.range m).map fun j => if (σ j).going then cap else 0).sum := by
      intro m
      induction m with
      | zero => rfl
      | succ m ih =>
        rw [Finset.sum_range_succ, ih, List.range_succ, List.map_append, List.sum_append]
        simp only [List.map_cons, List.map_nil, List.sum_cons, List.sum_nil, add_zero, ite_mul, one_mul, zero_mul]
    exact this n
  rw [h1]
  unfold Fluid.load
  refine List.sum_le_sum fun j hj => ?_
  have hj := List.mem_range.mp hj
  cases hσ : σ j with
  | waiting => exact le_rfl
  | finished c e => exact le_rfl
  | active c m =>
    simp only [Prog.going, if_true]
    have hc := hst j c m hσ
    have hsh : share (curr - cpt) curr ((job j).began c) ≤ 1 := by
      unfold share Job.began
      have e1 : ((curr - cpt : ℕ) : ℚ) = (curr : ℚ) - cpt := by push_cast [Nat.cast_sub hcur]; ring
      have hp : (0 : ℚ) < cpt := by exact_mod_cast hpos
      rw [div_le_one (by rw [e1]; linarith)]
      have : ((curr - cpt : ℕ) : ℚ) ≤ ((max (curr - cpt) c : ℕ) : ℚ) := by exact_mod_cast le_max_left _ _
      linarith
    refine le_trans ?_ (hcap j hj c)
    exact mul_le_mul_of_nonneg_left (mul_le_of_le_one_left (hown j hj) hsh) (Nat.cast_nonneg _)

theorem served_underWay {cap x A : ℚ} (hA : 1 ≤ A) (hx : 0 ≤ x) (h : x ≤ A * cap) : 1 / A ≤ served cap x := by
  unfold served
  split
  · rw [div_le_one (by linarith)]; exact hA
  · next hne =>
    have hp : 0 < x := lt_of_le_of_ne hx (Ne.symm hne)
    rw [div_le_div_iff₀ (by linarith) hp]
    linarith

/-- A transfer has at least its bandwidth divided by the number of transfers under way. -/
theorem shared_underWay (hT : TableOk .exact dev.tbt) (hinj : ∀ i, i < n → 0 ≤ (job i).t.injectionRate) {curr : Nat}
    (hpos : 0 < cpt) (hcur : cpt ≤ curr) {σ : Fluid.State} (hst : ∀ j c m, σ j = .active c m → c ≤ curr) {i c m : Nat} (hi : i < n)
    (ha : σ i = .active c m)
    (hfit : ∀ cap w, Passes dev ((job i).began c) cap w → ∀ j, j < n → ∀ x, (w ((job j).began x) : ℚ) * own .exact dev (job j).t ≤ cap) :
    own .exact dev (job i).t / underWay n σ ≤ shared dev job n cpt curr σ i := by
  have hown : ∀ j, j < n → 0 ≤ own .exact dev (job j).t := fun j hj => own_nonneg hT (hinj j hj)
  have hA : (1 : ℚ) ≤ underWay n σ := by
    have : 0 < underWay n σ := Finset.card_pos.mpr ⟨i, Finset.mem_filter.mpr ⟨Finset.mem_range.mpr hi, by rw [ha]; rfl⟩⟩
    exact_mod_cast this
  have hload : ∀ cap w, Passes dev ((job i).began c) cap w → load dev job n cpt w curr σ ≤ underWay n σ * cap := fun cap w hp =>
    load_underWay hpos hcur hown (hfit cap w hp) hst
  have hnn : ∀ w, 0 ≤ load dev job n cpt w curr σ := fun w => load_nonneg hT hinj hst
  unfold Fluid.shared
  simp only
  rw [div_eq_mul_one_div]
  refine mul_le_mul_of_nonneg_left (le_min ?_ (le_min ?_ (le_min ?_ ?_))) (hown i hi)
  · rw [div_le_one (by linarith)]; exact hA
  · cases hroute : (job i).route with
    | nil =>
      simp only [List.map_nil, List.foldl_nil]
      unfold served
      rw [if_pos rfl, div_le_one (by linarith)]
      exact hA
    | cons l0 ls =>
      refine served_underWay hA (foldl_max_nonneg le_rfl) ?_
      have hcap : 0 ≤ (underWay n σ : ℚ) * dev.linkBw :=
        le_trans (hnn _) (hload _ _ (.link l0 (by show l0 ∈ (job i).route; rw [hroute]; exact List.mem_cons_self)))
      have : ∀ (l : List Int) (a : ℚ), (∀ x ∈ l, x ∈ (job i).route) → a ≤ underWay n σ * dev.linkBw →
          (l.map fun l => load dev job n cpt (fun u => u.route.count l) curr σ).foldl max a ≤ underWay n σ * dev.linkBw := by
        intro l
        induction l with
        | nil => intro a _ h; exact h
        | cons x l ih =>
          intro a h h'
          rw [List.map_cons, List.foldl_cons]
          exact ih _ (fun y hy => h y (List.mem_cons_of_mem _ hy))
            (max_le h' (hload _ _ (.link x (h x List.mem_cons_self))))
      exact this _ 0 (fun x hx => by rw [hroute]; exact hx) hcap
  · exact served_underWay hA (hnn _) (hload _ _ .source)
  · cases hdst : (job i).t.dst with
    | mcast gs =>
      rw [div_le_one (by linarith)]; exact hA
    | unicast d =>
      simp only
      cases hr : dev.getSinkAbsorptionRate d with
      | ok a => exact served_underWay hA (hnn _) (hload _ _ (.sink d a hdst hr))
      | _ => rw [div_le_one (by linarith)]; exact hA

/-- Whole bytes of a speed at which at least `M` bytes are moved in a timestep. -/
theorem floor_large {x : ℚ} {M : Nat} (hx : (M : ℚ) ≤ x) : (M : ℚ) * x ≤ (M + 1) * x.floor.toNat := by
  have h0 : 0 ≤ x := le_trans (Nat.cast_nonneg _) hx
  have h1 : (M : Int) ≤ x.floor := Rat.le_floor_iff.mpr (by exact_mod_cast hx)
  have h2 : ((x.floor.toNat : ℕ) : ℚ) = (x.floor : ℚ) := by
    have := Int.toNat_of_nonneg (le_trans (Int.natCast_nonneg M) h1)
    exact_mod_cast this
  have h3 : x - 1 < x.floor := by exact_mod_cast Rat.lt_floor (x := x)
  have h4 : (M : ℚ) ≤ (x.floor : ℚ) := by exact_mod_cast h1
  rw [h2]
  nlinarith [Nat.cast_nonneg (α := ℚ) M]

end

end NPE
