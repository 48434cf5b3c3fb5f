import Verif.Proofs.Serial
import Verif.Props.Calm
import Verif.Props.Deps

/-
Property C155: congestion is never worse than one transfer at a time.
-/

namespace NPE.Props
open NPE NPE.Spec NPE.Spec.Fluid

theorem passes_described {dev : Device} {job : Nat → Job} {s0 : Sim} (hd : Describes job s0) {i c : Nat} (hi : i < s0.ts.length)
    {cap : ℚ} {w : TState → Nat} (hp : Passes dev ((job i).began c) cap w) : Passes dev s0.ts[i] cap w := by
  obtain ⟨e1, e2, _⟩ := hd i _ (List.getElem?_eq_getElem hi)
  cases hp with
  | link l hl => exact .link l (by rw [← e2]; exact hl)
  | source =>
    have e : ((job i).began c).params = s0.ts[i].params := e1
    rw [e]
    exact .source
  | sink d a h1 h2 =>
    have e : ((job i).began c).params = s0.ts[i].params := e1
    rw [e] at h1 ⊢
    exact .sink d _ h1 h2

theorem fits_described {fp : FP} {dev : Device} {job : Nat → Job} {s0 : Sim} (hd : Describes job s0) (hfit : FitsEach fp dev s0)
    {i c : Nat} (hi : i < s0.ts.length) {cap : ℚ} {w : TState → Nat} (hp : Passes dev ((job i).began c) cap w) {j : Nat}
    (hj : j < s0.ts.length) (x : Nat) : (w ((job j).began x) : ℚ) * own fp dev (job j).t ≤ cap := by
  obtain ⟨e1, e2, _⟩ := hd j _ (List.getElem?_eq_getElem hj)
  have h := hfit _ (List.getElem_mem hi) cap w (passes_described hd hi hp) _ (List.getElem_mem hj)
  rw [← e1, passes_weight hp s0.ts[j] ((job j).began x) e1.symm e2.symm] at h
  exact h

/-- C155 in a timestep: if no single transfer overloads a link, source or sink, a transfer has at least its own bandwidth
divided by the number of transfers under way. -/
theorem C155_share (dev : Device) (hT : TableOk .exact dev.tbt) (cpt : Nat) (hpos : 0 < cpt) (ho : HashOrder) (wl : Workload)
    (hw : ∀ t ∈ wl.transfers, 0 ≤ t.injectionRate) (s0 : Sim) (h0 : initSim .exact dev ho wl = .ok s0)
    (job : Nat → Job) (hd : Describes job s0) (hfit : FitsEach .exact dev s0) (σ : Fluid.State) (curr : Nat) (hcur : cpt ≤ curr)
    (hst : ∀ j c m, σ j = .active c m → c ≤ curr) (i c m : Nat) (hi : i < s0.ts.length) (ha : σ i = .active c m) :
    own .exact dev (job i).t / underWay s0.ts.length σ ≤ shared dev job s0.ts.length cpt curr σ i :=
  shared_underWay hT (fun _ hi => hw _ (describes_mem h0 hd hi)) hpos hcur hst hi ha fun _ _ hp _ hj x =>
    fits_described hd hfit hi hp hj x

theorem underWay_le {n : Nat} {σ : Fluid.State} : underWay n σ ≤ n :=
  le_trans (Finset.card_filter_le _ _) (Finset.card_range n).le

theorem sum_needed {fp : FP} {dev : Device} {job : Nat → Job} {s0 : Sim} (hd : Describes job s0) :
    (∑ i ∈ Finset.range s0.ts.length, ((job i).t.totalBytes : ℚ) / own fp dev (job i).t) =
      (s0.ts.map fun t => needed fp dev t.params).sum := by
  have h1 : ∀ m, m ≤ s0.ts.length → (∑ i ∈ Finset.range m, ((job i).t.totalBytes : ℚ) / own fp dev (job i).t) =
      ((s0.ts.take m).map fun t => needed fp dev t.params).sum := by
    intro m
    induction m with
    | zero => intro _; simp
    | succ m ih =>
      intro hm
      rw [Finset.sum_range_succ, ih (by omega), List.take_add_one, List.getElem?_eq_getElem (by omega), Option.toList_some,
        List.map_append, List.sum_append, List.map_cons, List.map_nil, List.sum_cons, List.sum_nil, add_zero]
      rw [(hd m _ (List.getElem?_eq_getElem (by omega))).1]
      rfl
  rw [h1 _ le_rfl, List.take_length]

/-- C155 in exact arithmetic.  The workload has no transfer groups, no single transfer overloads a link, source or sink, and
every transfer moves at least `M` bytes in a timestep even with one part in as many as there are transfers of its bandwidth.
Then, from the last offset `O` on, the run takes no more than the sum of the times that the transfers need on their own, and
a part in `M` of it (bytes are whole), and two timesteps for each transfer. -/
theorem C155_exact (dev : Device) (hdev : DeviceOk dev) (hT : TableOk .exact dev.tbt) (cpt : Nat) (hpos : 0 < cpt)
    (hcpt : cpt < 4244967296) (golden : GoldenMap) (ho : HashOrder) (hb : ∀ l, (ho.buckets l).Perm l) (wl : Workload)
    (hw : ∀ t ∈ wl.transfers, 0 ≤ t.injectionRate ∧ RectsOk t) (hp : ∀ t ∈ wl.transfers, ¬ NamesParent t)
    (s0 : Sim) (h0 : initSim .exact dev ho wl = .ok s0) (hfit : FitsEach .exact dev s0) (M : Nat) (hM : 1 ≤ M)
    (hrate : ∀ t ∈ s0.ts, (M * s0.ts.length : ℚ) ≤ cpt * own .exact dev t.params)
    (O : Nat) (hO : ∀ t ∈ wl.transfers, t.offset ≤ O)
    (e : Ending) (h : runLoop (simConfig .exact dev cpt golden true) ho wl = .ok e) :
    (e.clock : ℚ) ≤ O + (1 + 1 / M) * (s0.ts.map fun t => needed .exact dev t.params).sum + (2 * s0.ts.length + 1) * cpt := by
  obtain ⟨job, hd⟩ := describes_exists h0
  have hends := (C111_exact dev hdev hT cpt hpos hcpt golden ho wl hw s0 h0 job hd).2 e h
  have hMp : (0 : ℚ) < M := by exact_mod_cast hM
  have hcp : (0 : ℚ) < cpt := by exact_mod_cast hpos
  have hinj : ∀ i, i < s0.ts.length → 0 ≤ (job i).t.injectionRate := fun i hi => (hw _ (describes_mem h0 hd hi)).1
  have hrate' : ∀ i, i < s0.ts.length → (M * s0.ts.length : ℚ) ≤ cpt * own .exact dev (job i).t := by
    intro i hi
    have := hrate _ (List.getElem_mem hi)
    rw [← (hd i _ (List.getElem?_eq_getElem hi)).1] at this
    exact this
  have hown : ∀ i, i < s0.ts.length → 0 < own .exact dev (job i).t := by
    intro i hi
    have h1 := hrate' i hi
    have h2 : (0 : ℚ) < s0.ts.length := by exact_mod_cast (by omega : 0 < s0.ts.length)
    have h3 : 0 < cpt * own .exact dev (job i).t := lt_of_lt_of_le (by positivity) h1
    exact (mul_pos_iff_of_pos_left hcp).mp h3
  -- the speeds
  have hspeed : ∀ k, ∀ i, i < s0.ts.length → ∀ c m, within FP.exact.f32 job cpt (shared dev job s0.ts.length cpt) k i = .active c m →
      (cpt : ℚ) * own .exact dev (job i).t ≤ (1 + 1 / M) * underWay s0.ts.length (within FP.exact.f32 job cpt (shared dev job s0.ts.length cpt) k) *
        perStep FP.exact.f32.fl cpt (shared dev job s0.ts.length cpt ((k + 1) * cpt) (within FP.exact.f32 job cpt (shared dev job s0.ts.length cpt) k) i) := by
    intro k i hi c m ha
    have hsh := C155_share dev hT cpt hpos ho wl (fun t ht => (hw t ht).1) s0 h0 job hd hfit _ ((k + 1) * cpt)
      (Nat.le_mul_of_pos_left _ (by omega)) (active_le k) i c m hi ha
    have hA : (1 : ℚ) ≤ underWay s0.ts.length (within FP.exact.f32 job cpt (shared dev job s0.ts.length cpt) k) := by
      have : 0 < underWay s0.ts.length (within FP.exact.f32 job cpt (shared dev job s0.ts.length cpt) k) :=
        Finset.card_pos.mpr ⟨i, Finset.mem_filter.mpr ⟨Finset.mem_range.mpr hi, by rw [ha]; rfl⟩⟩
      exact_mod_cast this
    have hAn : (underWay s0.ts.length (within FP.exact.f32 job cpt (shared dev job s0.ts.length cpt) k) : ℚ) ≤ s0.ts.length := by
      exact_mod_cast underWay_le
    have hsh' : own .exact dev (job i).t / underWay s0.ts.length (within FP.exact.f32 job cpt (shared dev job s0.ts.length cpt) k) ≤
      shared dev job s0.ts.length cpt ((k + 1) * cpt) (within FP.exact.f32 job cpt (shared dev job s0.ts.length cpt) k) i := hsh
    generalize shared dev job s0.ts.length cpt ((k + 1) * cpt) (within FP.exact.f32 job cpt (shared dev job s0.ts.length cpt) k) i = v at hsh' ⊢
    generalize (underWay s0.ts.length (within FP.exact.f32 job cpt (shared dev job s0.ts.length cpt) k) : ℚ) = A at hA hAn hsh' ⊢
    have hr := hrate' i hi
    have hob := hown i hi
    generalize own .exact dev (job i).t = o at hsh' hr hob ⊢
    have hA0 : 0 < A := by linarith
    rw [div_le_iff₀ hA0] at hsh'
    have hx : (M : ℚ) ≤ (cpt : ℚ) * v := by
      have h1 : (M : ℚ) * A ≤ (cpt * v) * A := by
        calc (M : ℚ) * A ≤ M * s0.ts.length := mul_le_mul_of_nonneg_left hAn hMp.le
          _ ≤ cpt * o := hr
          _ ≤ cpt * (v * A) := mul_le_mul_of_nonneg_left hsh' hcp.le
          _ = (cpt * v) * A := by ring
      exact le_of_mul_le_mul_right h1 hA0
    have hfl := floor_large hx
    have e1 : perStep FP.exact.f32.fl cpt v = ((cpt : ℚ) * v).floor.toNat := rfl
    rw [e1]
    generalize (((cpt : ℚ) * v).floor.toNat : ℚ) = P at hfl ⊢
    have h2 : (cpt : ℚ) * v ≤ (1 + 1 / M) * P := by
      have : (1 + 1 / (M : ℚ)) * P = ((M + 1) * P) / M := by field_simp
      rw [this, le_div_iff₀ hMp]
      linarith
    calc (cpt : ℚ) * o ≤ cpt * (v * A) := mul_le_mul_of_nonneg_left hsh' hcp.le
      _ = A * (cpt * v) := by ring
      _ ≤ A * ((1 + 1 / M) * P) := mul_le_mul_of_nonneg_left h2 hA0.le
      _ = _ := by ring
  -- the order in which transfers wait
  have hpar : ∀ i, i < s0.ts.length → ∀ j d, (job i).after = some (j, d) → (j < s0.ts.length ∧ d = 0) ∧
      (job j).t.offset * s0.ts.length + j < (job i).t.offset * s0.ts.length + i := by
    intro i hi j d ha
    have hj := describes_closed hd hi ha
    have hg := List.getElem?_eq_getElem hi
    have hwait := ((hd i _ hg).2.2 j d).mp ha
    have hnp : ¬ NamesParent s0.ts[i].params := hp _ ((initSim_ok h0).1.slots i _ hg).1
    have hb0 := computeRates_ok .exact dev true
    have h1 := (C19_partial (simConfig .exact dev cpt golden true) hb0 ho hb wl s0 h0 0 s0 .start i _ hg hnp j d).mp hwait
    obtain ⟨tj, ti, g1, g2, hlt⟩ := C21_waits_for_earlier (simConfig .exact dev cpt golden true) hb0 ho hb wl s0 h0 0 s0 .start i _ hg hnp j d hwait
    refine ⟨⟨hj, h1.1⟩, ?_⟩
    rw [(hd j _ g1).1, (hd i _ g2).1]
    rcases hlt with hlt | ⟨heq, hlt⟩
    · have : (tj.params.offset + 1) * s0.ts.length ≤ ti.params.offset * s0.ts.length := Nat.mul_le_mul_right _ hlt
      rw [Nat.add_mul, Nat.one_mul] at this
      omega
    · rw [heq]; omega
  have key : ∀ K, (∀ k, k < K → ¬ AllFinished s0.ts.length (run id job cpt (shared dev job s0.ts.length cpt) k)) →
      (K * cpt : ℚ) ≤ O + (1 + 1 / M) * (s0.ts.map fun t => needed .exact dev t.params).sum + 2 * s0.ts.length * cpt := by
    intro K hK
    have h1 := busySteps_ge (R := FP.exact.f32) (job := job) (n := s0.ts.length) (speed := shared dev job s0.ts.length cpt) (K := K) O hpos
      fun k hk hOk => busySteps_all (R := FP.exact.f32) (fun i hi j d ha => (hpar i hi j d ha).1)
        (fun i => (job i).t.offset * s0.ts.length + i) (fun i hi j d ha => (hpar i hi j d ha).2) O
        (fun i hi => hO _ (describes_mem h0 hd hi)) hOk
        (fun i _ c e hf => by
          have := run_near (job := job) (cpt := cpt) (speed := shared dev job s0.ts.length cpt) k i
          have hf' : run id job cpt (shared dev job s0.ts.length cpt) k i = .finished c e := hf
          rw [hf'] at this
          exact this.2) (hK k hk)
    have h2 := busySteps_le (R := FP.exact.f32) (job := job) (n := s0.ts.length) (speed := shared dev job s0.ts.length cpt) (1 + 1 / M)
      (by positivity) (fun i => own .exact dev (job i).t) hown K fun k _ => hspeed k
    rw [sum_needed hd] at h2
    have h1' : (K * cpt : ℚ) ≤ O + busySteps FP.exact.f32.fl job s0.ts.length cpt (shared dev job s0.ts.length cpt) K * cpt := by
      exact_mod_cast h1
    linarith
  have hzero : s0.ts.length ≠ 0 → ¬ AllFinished s0.ts.length (run id job cpt (shared dev job s0.ts.length cpt) 0) := by
    intro hn hall
    obtain ⟨c, e, hf⟩ := hall 0 (by omega)
    cases hf
  have hsum : 0 ≤ (s0.ts.map fun t => needed .exact dev t.params).sum := by
    rw [← sum_needed hd]
    exact Finset.sum_nonneg fun i hi => div_nonneg (Nat.cast_nonneg _) (hown i (Finset.mem_range.mp hi)).le
  cases e with
  | finished s c =>
    obtain ⟨hlen, k, hk1, rfl, _, hfirst⟩ := hends
    show ((k * cpt : ℕ) : ℚ) ≤ _
    push_cast
    by_cases hn : s0.ts.length = 0
    · have hk : k = 1 := by
        by_contra hne
        exact hfirst 1 le_rfl (by omega) fun i hi => by omega
      rw [hk, hn]
      push_cast
      have : 0 ≤ (1 + 1 / (M : ℚ)) * (s0.ts.map fun t => needed .exact dev t.params).sum := by positivity
      have : (0 : ℚ) ≤ O := Nat.cast_nonneg _
      linarith
    · have := key k fun k' hk' => by
        rcases Nat.eq_zero_or_pos k' with rfl | hpos'
        · exact hzero hn
        · exact hfirst k' hpos' hk'
      linarith
  | limit s c =>
    obtain ⟨hlen, k, rfl, _, hun⟩ := hends
    show ((k * cpt : ℕ) : ℚ) ≤ _
    push_cast
    have := key k fun k' hk' hall => hun fun i hi => by
      obtain ⟨c, e, hf⟩ := hall i hi
      exact ⟨c, e, run_finished_le hk'.le hf⟩
    linarith

/-- If the bound is within the limit of cycles, the run finishes. -/
theorem C155_finishes (dev : Device) (hdev : DeviceOk dev) (hT : TableOk .exact dev.tbt) (cpt : Nat) (hpos : 0 < cpt)
    (hcpt : cpt < 4244967296) (golden : GoldenMap) (ho : HashOrder) (hb : ∀ l, (ho.buckets l).Perm l) (wl : Workload)
    (hw : ∀ t ∈ wl.transfers, 0 ≤ t.injectionRate ∧ RectsOk t) (hp : ∀ t ∈ wl.transfers, ¬ NamesParent t)
    (s0 : Sim) (h0 : initSim .exact dev ho wl = .ok s0) (hfit : FitsEach .exact dev s0) (M : Nat) (hM : 1 ≤ M)
    (hrate : ∀ t ∈ s0.ts, (M * s0.ts.length : ℚ) ≤ cpt * own .exact dev t.params)
    (O : Nat) (hO : ∀ t ∈ wl.transfers, t.offset ≤ O)
    (hlim : O + (1 + 1 / M) * (s0.ts.map fun t => needed .exact dev t.params).sum + (2 * s0.ts.length + 1) * cpt ≤ 50000000)
    (e : Ending) (h : runLoop (simConfig .exact dev cpt golden true) ho wl = .ok e) : ∃ s c, e = .finished s c := by
  have hc := le_trans (C155_exact dev hdev hT cpt hpos hcpt golden ho hb wl hw hp s0 h0 hfit M hM hrate O hO e h) hlim
  have hends := (C111_exact dev hdev hT cpt hpos hcpt golden ho wl hw s0 h0 _ (describes_exists h0).choose_spec).2 e h
  cases e with
  | finished s c => exact ⟨s, c, rfl⟩
  | limit s c =>
    obtain ⟨_, k, _, hgt, _⟩ := hends
    have : (c : ℚ) ≤ 50000000 := hc
    have : c ≤ 50000000 := by exact_mod_cast this
    omega

/-! ### Examples -/

/-- A test for `FitsEach`. -/
def fitsTest (fp : FP) (dev : Device) (ts : List TState) : Bool :=
  ts.all fun t => ts.all fun u => (t.route.all fun l => decide ((u.route.count l : ℚ) * own fp dev u.params ≤ dev.linkBw)) &&
    decide ((leaves dev t.params.noc t.params.src u : ℚ) * own fp dev u.params ≤ t.params.injectionRate) &&
    match t.params.dst with
    | .unicast d =>
      match dev.getSinkAbsorptionRate d with
      | .ok a => decide ((reaches dev t.params.noc d u : ℚ) * own fp dev u.params ≤ a)
      | _ => true
    | .mcast _ => true

theorem fits_of_test {fp : FP} {dev : Device} {s0 : Sim} (h : fitsTest fp dev s0.ts = true) : FitsEach fp dev s0 := by
  intro t ht cap w hp u hu
  unfold fitsTest at h
  have h1 := List.all_eq_true.mp (List.all_eq_true.mp h t ht) u hu
  simp only [Bool.and_eq_true, List.all_eq_true, decide_eq_true_eq] at h1
  obtain ⟨⟨h1, h2⟩, h3⟩ := h1
  cases hp with
  | link l hl => exact h1 l hl
  | source => exact h2
  | sink d a hd ha =>
    rw [hd] at h3
    simp only [ha, decide_eq_true_eq] at h3
    exact h3

/-- Transfers of 8192-byte packets from core (0,x), and from core (1,1) to the DRAM core (0,0). -/
def serialBig (n : Nat) (x : Nat) : Transfer := Transfer.make 8192 n ⟨0, 0, x⟩ (.unicast ⟨0, 1, 1⟩) 28 0 .noc0
def toDram (n : Nat) : Transfer := Transfer.make 8192 n ⟨0, 1, 1⟩ (.unicast ⟨0, 0, 0⟩) 28 0 .noc0

/-- The initial state. -/
def serialState (l : List Transfer) : Sim := match initSim .exact Sample.dev ⟨id, id⟩ (Sample.wl l) with
  | .ok s => s
  | _ => ⟨[], [], [], [], initGrids Sample.dev, Stats.init Sample.dev⟩

/-- Two transfers to the same sink need 1170.3 cycles each; together they end at cycle 2333, about the time that both need one
after the other; alone they would end at cycle 1171.  With `M = 1792` the bound is 2982. -/
example : initSim .exact Sample.dev ⟨id, id⟩ (Sample.wl [serialBig 4 0, serialBig 4 1]) = .ok (serialState [serialBig 4 0, serialBig 4 1]) ∧
    FitsEach .exact Sample.dev (serialState [serialBig 4 0, serialBig 4 1]) ∧
    (serialState [serialBig 4 0, serialBig 4 1]).ts.all (fun t => decide ((1792 * 2 : ℚ) ≤ 128 * own .exact Sample.dev t.params)) = true ∧
    (serialState [serialBig 4 0, serialBig 4 1]).ts.map (fun t => needed .exact Sample.dev t.params) = [8192 / 7, 8192 / 7] ∧
    times Sample.dev ⟨id, id⟩ [serialBig 4 0, serialBig 4 1] true = some (2432, [(0, 2333), (0, 2333)]) ∧
    times Sample.dev ⟨id, id⟩ [serialBig 4 0, serialBig 4 1] false = some (1280, [(0, 1171), (0, 1171)]) := by
  refine ⟨by decide +kernel, fits_of_test (by decide +kernel), ?_, ?_, ?_, ?_⟩ <;> decide +kernel

/-- The condition on single transfers is needed: this one alone is too much for its sink, and takes longer than the bound
(6237 cycles). -/
example : fitsTest .exact Sample.dev (serialState [toDram 20]).ts = false ∧
    (serialState [toDram 20]).ts.map (fun t => needed .exact Sample.dev t.params) = [40960 / 7] ∧
    (128 * 28 : ℚ) = 3584 * 1 ∧ 0 + (1 + 1 / 3584 : ℚ) * (40960 / 7) + (2 * 1 + 1) * 128 < 6238 ∧
    times Sample.dev ⟨id, id⟩ [toDram 20] true = some (6912, [(0, 6827)]) := by
  refine ⟨?_, ?_, ?_, ?_, ?_⟩ <;> decide +kernel

end NPE.Props
