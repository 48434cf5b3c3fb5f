import Verif.Proofs.SerialRounded
import Verif.Props.Serial

/-
Property C155 with rounding.
-/

namespace NPE.Props
open NPE NPE.Spec NPE.Spec.Fluid

theorem askers_le {dev : Device} {s0 : Sim} {job : Nat → Job} (hd : Describes job s0)
    (hsp : FewUsers dev s0) (σ : Fluid.State) {i c : Nat} (hi : i < s0.ts.length) {cap : ℚ} {w : TState → Nat}
    (hp : Passes dev ((job i).began c) cap w) : askers job s0.ts.length w σ ≤ 65536 := by
  have hwt := passes_weight hp
  refine le_trans ?_ (hsp _ (List.getElem_mem hi) cap w (passes_described hd hi hp))
  have e : (s0.ts.map w) = (List.range s0.ts.length).map fun j => w ((job j).began 0) := by
    refine List.ext_getElem? fun j => ?_
    rw [List.getElem?_map, List.getElem?_map]
    by_cases hj : j < s0.ts.length
    · rw [List.getElem?_eq_getElem hj, List.getElem?_range hj, Option.map_some, Option.map_some]
      obtain ⟨e1, e2, _⟩ := hd j _ (List.getElem?_eq_getElem hj)
      rw [hwt s0.ts[j] ((job j).began 0) e1.symm e2.symm]
    · rw [List.getElem?_eq_none (by omega), List.getElem?_eq_none (by rw [List.length_range]; omega)]
      rfl
  rw [e]
  unfold askers
  refine List.sum_le_sum fun j _ => ?_
  cases σ j with
  | waiting => exact Nat.zero_le _
  | finished x y => exact Nat.zero_le _
  | active x y =>
    simp only
    rw [hwt ((job j).began x) ((job j).began 0) rfl rfl]

/-- C155 for any rounding, for at most 16384 transfers, at most 65536 demands at every point, and timesteps of at least 26
cycles: a part in 32 is added for roundings of speeds, and one more timestep for each transfer because ends are rounded. -/
theorem C155_rounded (fp : FP) (dev : Device) (hdev : DeviceOk dev) (hT : TableOk fp dev.tbt) (cpt : Nat) (hpos : 26 ≤ cpt)
    (hcpt : cpt < 4244967296) (golden : GoldenMap) (ho : HashOrder) (hb : ∀ l, (ho.buckets l).Perm l) (wl : Workload)
    (hw : ∀ t ∈ wl.transfers, 0 ≤ t.injectionRate ∧ RectsOk t) (hrep : ∀ t ∈ wl.transfers, fp.f32.Rep t.injectionRate)
    (hp : ∀ t ∈ wl.transfers, ¬ NamesParent t)
    (s0 : Sim) (h0 : initSim fp dev ho wl = .ok s0) (hfit : FitsEach fp dev s0) (hfew : FewUsers dev s0)
    (hn : s0.ts.length ≤ 16384) (M : Nat) (hM : 1 ≤ M)
    (hrate : ∀ t ∈ s0.ts, (M * s0.ts.length * (33 / 32) : ℚ) ≤ cpt * own fp dev t.params)
    (O : Nat) (hO : ∀ t ∈ wl.transfers, t.offset ≤ O)
    (e : Ending) (h : runLoop (simConfig fp dev cpt golden true) ho wl = .ok e) :
    (e.clock : ℚ) ≤ O + 33 / 32 * ((1 + 1 / M) * (s0.ts.map fun t => needed fp dev t.params).sum) +
      (3 * s0.ts.length + 1) * cpt := by
  have hpos' : 0 < cpt := by omega
  obtain ⟨job, hd⟩ := describes_exists h0
  obtain ⟨order, hR, hE⟩ := C111_shared fp dev hdev hT cpt hpos' hcpt golden ho wl hw s0 h0 job hd
  have hends := hE e h
  -- the run until its end
  have hend : ∃ sx, Reach (simConfig fp dev cpt golden true) s0 e.clock sx ∧ e.clock ≤ 50000000 + cpt := by
    have h2 := h
    unfold runLoop at h2
    obtain ⟨x0, hx, h2⟩ := Out.bind_eq_ok.mp h2
    have e0 : x0 = s0 := Out.ok.inj (hx.symm.trans h0)
    subst e0
    rcases simLoop_reach (cfg := simConfig fp dev cpt golden true) (s0 := x0) simFuel 0 x0 _ .start (Or.inl rfl)
      (by rw [Nat.zero_add]; exact h2) with ⟨s', c', he, hs, _⟩ | ⟨s', c', he, hs, _⟩ <;>
    · subst he
      refine ⟨s', hs, ?_⟩
      show c' ≤ _
      cases hs with
      | start => omega
      | step _ hc _ =>
        have : (simConfig fp dev cpt golden true).cpt = cpt := rfl
        rw [this]
        omega
  obtain ⟨sx, hreach, hclock⟩ := hend
  obtain ⟨kf, hkf, _, hord⟩ := hR _ _ hreach
  have hlate : ∀ k, k < kf → k * cpt ≤ 50000000 := by
    intro k hk
    have h1 : (k + 1) * cpt ≤ kf * cpt := Nat.mul_le_mul_right _ hk
    rw [Nat.add_mul, Nat.one_mul] at h1
    omega
  have hMp : (0 : ℚ) < M := by exact_mod_cast hM
  have hcp : (0 : ℚ) < cpt := by exact_mod_cast hpos'
  have hinj : ∀ i, i < s0.ts.length → 0 ≤ (job i).t.injectionRate := fun i hi => (hw _ (describes_mem h0 hd hi)).1
  have hrep' : ∀ i, i < s0.ts.length → fp.f32.Rep (job i).t.injectionRate := fun i hi => hrep _ (describes_mem h0 hd hi)
  have hrate' : ∀ i, i < s0.ts.length → (M * s0.ts.length * (33 / 32) : ℚ) ≤ cpt * own fp dev (job i).t := by
    intro i hi
    have := hrate _ (List.getElem_mem hi)
    rw [← (hd i _ (List.getElem?_eq_getElem hi)).1] at this
    exact this
  have hown : ∀ i, i < s0.ts.length → 0 < own fp dev (job i).t := by
    intro i hi
    have h1 := hrate' i hi
    have h2 : (0 : ℚ) < s0.ts.length := by exact_mod_cast (by omega : 0 < s0.ts.length)
    have h3 : 0 < cpt * own fp dev (job i).t := lt_of_lt_of_le (by positivity) h1
    exact (mul_pos_iff_of_pos_left hcp).mp h3
  -- the speeds
  have hspeed : ∀ k, k < kf → ∀ i, i < s0.ts.length → ∀ c m,
      within fp.f32 job cpt (sharedIn fp dev job cpt order) k i = .active c m →
      (cpt : ℚ) * own fp dev (job i).t ≤
        33 / 32 * (1 + 1 / M) * underWay s0.ts.length (within fp.f32 job cpt (sharedIn fp dev job cpt order) k) *
        perStep fp.f32.fl cpt (sharedIn fp dev job cpt order ((k + 1) * cpt)
          (within fp.f32 job cpt (sharedIn fp dev job cpt order) k) i) := by
    intro k hk i hi c m ha
    obtain ⟨o1, o2⟩ := hord k hk
    have hcur : cpt ≤ (k + 1) * cpt := Nat.le_mul_of_pos_left _ (by omega)
    have hlt : (k + 1) * cpt < 4294967296 := by
      have := hlate k hk
      rw [Nat.add_mul, Nat.one_mul]
      omega
    have hst : ∀ j c m, within fp.f32 job cpt (sharedIn fp dev job cpt order) k j = .active c m → c ≤ (k + 1) * cpt := active_le k
    have hA : 1 ≤ underWay s0.ts.length (within fp.f32 job cpt (sharedIn fp dev job cpt order) k) :=
      Finset.card_pos.mpr ⟨i, Finset.mem_filter.mpr ⟨Finset.mem_range.mpr hi, by rw [ha]; rfl⟩⟩
    have hAn : underWay s0.ts.length (within fp.f32 job cpt (sharedIn fp dev job cpt order) k) ≤ s0.ts.length := underWay_le
    have hA1 : (1 : ℚ) ≤ underWay s0.ts.length (within fp.f32 job cpt (sharedIn fp dev job cpt order) k) := by exact_mod_cast hA
    have hA2 : (underWay s0.ts.length (within fp.f32 job cpt (sharedIn fp dev job cpt order) k) : ℚ) ≤ 16384 := by
      exact_mod_cast le_trans hAn hn
    have hA3 : (underWay s0.ts.length (within fp.f32 job cpt (sharedIn fp dev job cpt order) k) : ℚ) ≤ s0.ts.length := by
      exact_mod_cast hAn
    have hsh := sharedIn_underWay (fp := fp) (dev := dev) (job := job) (cpt := cpt) (order := order) (curr := (k + 1) * cpt)
      (i := i) (c := c) (σ := within fp.f32 job cpt (sharedIn fp dev job cpt order) k) hA1 hA2 (hown i hi).le
      (fun w => loadIn_nonneg (n := s0.ts.length) hT hinj hrep' fun j hj => ((o2 j).mp hj).1) ?_
    · generalize sharedIn fp dev job cpt order ((k + 1) * cpt) (within fp.f32 job cpt (sharedIn fp dev job cpt order) k) i = v at hsh ⊢
      generalize (underWay s0.ts.length (within fp.f32 job cpt (sharedIn fp dev job cpt order) k) : ℚ) = A at hA1 hA3 hsh ⊢
      have hr := hrate' i hi
      have hob := hown i hi
      generalize own fp dev (job i).t = o at hsh hr hob ⊢
      have hA0 : 0 < A := by linarith
      have hv : 0 ≤ v := le_trans (by positivity) hsh
      have hy : (cpt * o / A) * (491 / 500) ≤ cpt * v := by
        have := mul_le_mul_of_nonneg_left hsh hcp.le
        calc (cpt * o / A) * (491 / 500) = cpt * (o / A * (491 / 500)) := by ring
          _ ≤ _ := this
      have hMy : (M : ℚ) * (33 / 32) ≤ cpt * o / A := by
        rw [le_div_iff₀ hA0]
        refine le_trans ?_ hr
        have := mul_le_mul_of_nonneg_left hA3 (by positivity : (0 : ℚ) ≤ M * (33 / 32))
        linarith
      have hps := perStep_large (fp := fp) hv hy hMy
      generalize (perStep fp.f32.fl cpt v : ℚ) = P at hps ⊢
      have h2 : cpt * o / A ≤ 33 / 32 * (1 + 1 / M) * P := by
        have : 33 / 32 * (1 + 1 / (M : ℚ)) * P = (33 / 32 * ((M + 1) * P)) / M := by field_simp
        rw [this, le_div_iff₀ hMp]
        linarith
      rw [div_le_iff₀ hA0] at h2
      linarith
    · intro cap w hpass
      have h2 := loadIn_close (fp := fp) (dev := dev) (cpt := cpt) (w := w) (fun j hj => (hown j hj).le) o1 o2
        (curr := (k + 1) * cpt) (fun j _ x y hx => hst j x y hx) hpos' hcur hlt (passes_weight hpass)
        (askers_le hd hfew _ hi hpass)
      have h3 := asked_underWay (fp := fp) (dev := dev) (job := job) (n := s0.ts.length) (w := w) (cap := cap) hpos' hcur
        (fun j hj => (hown j hj).le) (fun j hj x => fits_described hd hfit hi hpass hj x) hst
      have h4 := (abs_le.mp h2).2
      have h4' : loadIn fp dev job cpt (order ((k + 1) * cpt)) w ((k + 1) * cpt) (within fp.f32 job cpt (sharedIn fp dev job cpt order) k) -
        asked fp dev job s0.ts.length cpt w ((k + 1) * cpt) (within fp.f32 job cpt (sharedIn fp dev job cpt order) k) ≤
        asked fp dev job s0.ts.length cpt w ((k + 1) * cpt) (within fp.f32 job cpt (sharedIn fp dev job cpt order) k) / 128 := h4
      linarith
  -- the order in which transfers wait
  have hpar : ∀ i, i < s0.ts.length → ∀ j d, (job i).after = some (j, d) → (j < s0.ts.length ∧ d = 0) ∧
      (job j).t.offset * s0.ts.length + j < (job i).t.offset * s0.ts.length + i := by
    intro i hi j d ha
    have hj := describes_closed hd hi ha
    have hg := List.getElem?_eq_getElem hi
    have hwait := ((hd i _ hg).2.2 j d).mp ha
    have hnp : ¬ NamesParent s0.ts[i].params := hp _ ((initSim_ok h0).1.slots i _ hg).1
    have hb0 := computeRates_ok fp dev true
    have h1 := (C19_partial (simConfig fp dev cpt golden true) hb0 ho hb wl s0 h0 0 s0 .start i _ hg hnp j d).mp hwait
    obtain ⟨tj, ti, g1, g2, hlt⟩ := C21_waits_for_earlier (simConfig fp dev cpt golden true) hb0 ho hb wl s0 h0 0 s0 .start i _ hg hnp j d hwait
    refine ⟨⟨hj, h1.1⟩, ?_⟩
    rw [(hd j _ g1).1, (hd i _ g2).1]
    rcases hlt with hlt | ⟨heq, hlt⟩
    · have : (tj.params.offset + 1) * s0.ts.length ≤ ti.params.offset * s0.ts.length := Nat.mul_le_mul_right _ hlt
      rw [Nat.add_mul, Nat.one_mul] at this
      omega
    · rw [heq]; omega
  have key : (∀ k, k < kf → ¬ AllFinished s0.ts.length (run fp.f32.fl job cpt (sharedIn fp dev job cpt order) k)) →
      (kf * cpt : ℚ) ≤ O + 33 / 32 * ((1 + 1 / M) * (s0.ts.map fun t => needed fp dev t.params).sum) + 3 * s0.ts.length * cpt := by
    intro hK
    have h1 := busySteps_ge_late (R := fp.f32) (job := job) (n := s0.ts.length) (speed := sharedIn fp dev job cpt order) (K := kf)
      hpos (fun i hi j d ha => (hpar i hi j d ha).1)
      (fun i => (job i).t.offset * s0.ts.length + i) (fun i hi j d ha => (hpar i hi j d ha).2) O
      (fun i hi => hO _ (describes_mem h0 hd hi)) hpos'
      (fun k hk i _ c e hf => by
        have := near_late (R := fp.f32) (job := job) (speed := sharedIn fp dev job cpt order) k (hlate k hk) i
        rw [hf] at this
        exact this.2) hK
    have h2 := busySteps_le (R := fp.f32) (job := job) (n := s0.ts.length) (speed := sharedIn fp dev job cpt order)
      (33 / 32 * (1 + 1 / M)) (by positivity) (fun i => own fp dev (job i).t) hown kf hspeed
    rw [sum_needed hd] at h2
    have h1' : (kf * cpt : ℚ) ≤ O + busySteps fp.f32.fl job s0.ts.length cpt (sharedIn fp dev job cpt order) kf * cpt +
        s0.ts.length * cpt := by
      exact_mod_cast h1
    linarith
  have hzero : s0.ts.length ≠ 0 → ¬ AllFinished s0.ts.length (run fp.f32.fl job cpt (sharedIn fp dev job cpt order) 0) := by
    intro hn hall
    obtain ⟨c, e, hf⟩ := hall 0 (by omega)
    cases hf
  have hsum : 0 ≤ (s0.ts.map fun t => needed fp dev t.params).sum := by
    rw [← sum_needed hd]
    exact Finset.sum_nonneg fun i hi => div_nonneg (Nat.cast_nonneg _) (hown i (Finset.mem_range.mp hi)).le
  rw [hkf]
  push_cast
  cases e with
  | finished s c =>
    obtain ⟨hlen, k, hk1, hck, _, hfirst⟩ := hends
    have hkk : k = kf := Nat.eq_of_mul_eq_mul_right hpos' (hck.symm.trans hkf)
    subst hkk
    by_cases hn0 : s0.ts.length = 0
    · have hk : k = 1 := by
        by_contra hne
        exact hfirst 1 le_rfl (by omega) fun i hi => by omega
      rw [hk, hn0]
      push_cast
      have : 0 ≤ 33 / 32 * ((1 + 1 / (M : ℚ)) * (s0.ts.map fun t => needed fp dev t.params).sum) := by positivity
      have : (0 : ℚ) ≤ O := Nat.cast_nonneg _
      linarith
    · have := key fun k' hk' => by
        rcases Nat.eq_zero_or_pos k' with rfl | hpos'
        · exact hzero hn0
        · exact hfirst k' hpos' hk'
      linarith
  | limit s c =>
    obtain ⟨hlen, k, hck, _, hun⟩ := hends
    have hkk : k = kf := Nat.eq_of_mul_eq_mul_right hpos' (hck.symm.trans hkf)
    subst hkk
    have := key fun k' hk' hall => hun fun i hi => by
      obtain ⟨c, e, hf⟩ := hall i hi
      exact ⟨c, e, run_finished_le hk'.le hf⟩
    linarith

/-! ### Example -/

/-- The two-by-two grid with IEEE arithmetic, and its initial state for two transfers to the same sink. -/
def ieeeDev : Device := { wormhole .ieee false 1 with rows := 2, cols := 2 }
def ieeeState : Sim := match initSim .ieee ieeeDev ⟨id, id⟩ (Sample.wl [serialBig 4 0, serialBig 4 1]) with
  | .ok s => s
  | _ => ⟨[], [], [], [], initGrids ieeeDev, Stats.init ieeeDev⟩

/-- With IEEE rounding the run ends at cycle 2432; with `M = 1737` the bound is 3312. -/
example : initSim .ieee ieeeDev ⟨id, id⟩ (Sample.wl [serialBig 4 0, serialBig 4 1]) = .ok ieeeState ∧
    FitsEach .ieee ieeeDev ieeeState ∧
    ieeeState.ts.all (fun t => decide ((1737 * 2 * (33 / 32) : ℚ) ≤ 128 * own .ieee ieeeDev t.params)) = true ∧
    ieeeState.ts.map (fun t => needed .ieee ieeeDev t.params) = [8192 / 7, 8192 / 7] ∧
    (match runLoop (simConfig .ieee ieeeDev 128 (Sample.wl [serialBig 4 0, serialBig 4 1]).golden true) ⟨id, id⟩ (Sample.wl [serialBig 4 0, serialBig 4 1]) with
      | .ok e => some e.clock
      | _ => none) = some 2432 ∧
    0 + 33 / 32 * ((1 + 1 / 1737 : ℚ) * (8192 / 7 + 8192 / 7)) + (3 * 2 + 1) * 128 < 3312 := by
  refine ⟨by decide +kernel, fits_of_test (by decide +kernel), ?_, ?_, ?_, ?_⟩ <;> decide +kernel

end NPE.Props
