import Verif.Props.SerialRounded
import Verif.Props.Limit

/-
Property C156: congestion slows a workload down at most by the number of its transfers.
-/

namespace NPE.Props
open NPE NPE.Spec NPE.Spec.Fluid

/-- The bound of C155 with rounding. -/
def serialBound (fp : FP) (dev : Device) (cpt : Nat) (s0 : Sim) (M O : Nat) : ℚ :=
  O + 33 / 32 * ((1 + 1 / M) * (s0.ts.map fun t => needed fp dev t.params).sum) + (3 * s0.ts.length + 1) * cpt

/-- The workloads of C155 for any rounding. -/
structure Serial (fp : FP) (dev : Device) (cpt : Nat) (ho : HashOrder) (wl : Workload) (s0 : Sim) (M O : Nat) : Prop where
  device : DeviceOk dev
  table : TableOk fp dev.tbt
  lo : 26 ≤ cpt
  hi : cpt ≤ 25000000
  buckets : ∀ l, (ho.buckets l).Perm l
  rate : ∀ t ∈ wl.transfers, 0 ≤ t.injectionRate ∧ RectsOk t
  rep : ∀ t ∈ wl.transfers, fp.f32.Rep t.injectionRate
  groups : ∀ t ∈ wl.transfers, ¬ NamesParent t
  init : initSim fp dev ho wl = .ok s0
  fits : FitsEach fp dev s0
  few : FewUsers dev s0
  size : s0.ts.length ≤ 16384
  pos : 1 ≤ M
  large : ∀ t ∈ s0.ts, (M * s0.ts.length * (33 / 32) : ℚ) ≤ cpt * own fp dev t.params
  offset : ∀ t ∈ wl.transfers, t.offset ≤ O
  limit : serialBound fp dev cpt s0 M O ≤ 50000000

/-- C155 for the figures that are reported: no estimate with congestion is above the sum of the times that the transfers need
one at a time, from the last offset on, with the additions of `C155_rounded`, a timestep, and 26 cycles. -/
theorem C155_estimated (fp : FP) (dev : Device) (cpt : Nat) (ho : HashOrder) (wl : Workload) (s0 : Sim) (M O : Nat)
    (S : Serial fp dev cpt ho wl s0 M O) (hon : OnChips dev wl.transfers)
    (s : Sim) (st : Stats) (h : runSingle fp dev ho cpt true wl = .ok (.inl (s, st)))
    (d : Int) (ds : DevStats) (g : Nat × Nat) (hm : (d, ds) ∈ st) (hg : wl.golden.at d = .ok g) :
    (ds.estimated : ℚ) ≤ serialBound fp dev cpt s0 M O + cpt + 26 - g.1 ∨ ds.estimated = 0 := by
  have hpos : 0 < cpt := by have := S.lo; omega
  have hcpt : cpt < 4244967296 := by have := S.hi; omega
  obtain ⟨s0', c, h0, hrun, hcc, _⟩ := runSingle_ok h
  have e0 : s0' = s0 := Out.ok.inj (h0.symm.trans S.init)
  subst e0
  have hclock := C155_rounded fp dev S.device S.table cpt S.lo hcpt wl.golden ho S.buckets wl S.rate S.rep S.groups s0' h0 S.fits S.few
    S.size M S.pos S.large O S.offset _ hrun
  have hclock' : (c : ℚ) ≤ serialBound fp dev cpt s0' M O := hclock
  have hc50 : c ≤ 50000000 := by
    have : (c : ℚ) ≤ 50000000 := le_trans hclock' S.limit
    exact_mod_cast this
  obtain ⟨job, hd⟩ := describes_exists h0
  obtain ⟨order, _, hE⟩ := C111_shared fp dev S.device S.table cpt hpos hcpt wl.golden ho wl S.rate s0' h0 job hd
  obtain ⟨_, k, _, hck, hall, _⟩ := hE _ hrun
  have hends : ∀ t ∈ s.ts, t.endc ≤ c + cpt + 26 := by
    intro t ht
    obtain ⟨i, ht⟩ := List.mem_iff_getElem?.mp ht
    have h1 := near_late (R := fp.f32) (job := job) (cpt := cpt) (speed := sharedIn fp dev job cpt order) k (by omega) i
    rw [hall i t ht] at h1
    have h2 := h1.2
    rw [Nat.add_mul, Nat.one_mul] at h2
    omega
  obtain ⟨gs, ge, m, e1, e2, _, e4, e5, _⟩ := C35_estimated fp dev S.device cpt hpos true ho wl hon s st h d ds hm
  rw [hg] at e1
  have e1 := Out.ok.inj e1
  subst e1
  rcases le_total gs m with hle | hle
  · rcases e2.2 with hz | ⟨t, ht, _, hend⟩
    · refine Or.inr ?_
      have := e4 hle
      omega
    · refine Or.inl ?_
      have h1 := hends t ht
      have h2 := e4 hle
      have h3 : (ds.estimated : ℚ) + gs ≤ c + cpt + 26 := by
        have : ds.estimated + gs ≤ c + cpt + 26 := by omega
        exact_mod_cast this
      show (ds.estimated : ℚ) ≤ _ - (gs : ℚ)
      linarith
  · exact Or.inr (e5 hle)

/-- C156, for any rounding: the estimate with congestion is at most the number of transfers times the estimate without
congestion, from the last offset on, if no single transfer overloads a point and all transfers count for the device.  A few
timesteps for each transfer and a small part are added for rounding. -/
theorem C156_slowdown (fp : FP) (dev : Device) (cpt : Nat) (ho : HashOrder) (wl : Workload) (s0 : Sim) (M O : Nat)
    (S : Serial fp dev cpt ho wl s0 M O) (hon : OnChips dev wl.transfers)
    (s s' : Sim) (st st' : Stats) (h : runSingle fp dev ho cpt true wl = .ok (.inl (s, st)))
    (h' : runSingle fp dev ho cpt false wl = .ok (.inl (s', st')))
    (d : Int) (ds ds' : DevStats) (g : Nat × Nat) (hm : (d, ds) ∈ st) (hm' : (d, ds') ∈ st') (hg : wl.golden.at d = .ok g)
    (hrel : ∀ t ∈ wl.transfers, Relevant d g t) (hO : g.1 ≤ O) :
    (ds.estimated : ℚ) ≤ (O - g.1) + 17 / 16 * (1 + 1 / M) * (wl.transfers.length * (ds'.estimated + cpt + 24)) +
      (3 * wl.transfers.length + 2) * cpt + 26 := by
  have hpos : 0 < cpt := by have := S.lo; omega
  have hMp : (0 : ℚ) < M := by exact_mod_cast S.pos
  have hlen : s0.ts.length = wl.transfers.length := (initSim_ok S.init).1.len
  have hgs : (g.1 : ℚ) ≤ O := by exact_mod_cast hO
  have hown : ∀ t ∈ s0.ts, 0 < own fp dev t.params := by
    intro t ht
    have h1 := S.large t ht
    have h2 : (0 : ℚ) < s0.ts.length := by exact_mod_cast List.length_pos_of_mem ht
    have h3 : (0 : ℚ) < cpt := by exact_mod_cast hpos
    exact (mul_pos_iff_of_pos_left h3).mp (lt_of_lt_of_le (by positivity) h1)
  have hneed : ∀ t ∈ s0.ts, needed fp dev t.params ≤ (1 + 1 / 16777216) ^ 2 * ((ds'.estimated : ℚ) + cpt + 24) := by
    intro t ht
    obtain ⟨i, hi⟩ := List.mem_iff_getElem?.mp ht
    have hmem : t.params ∈ wl.transfers := ((initSim_ok S.init).1.slots i _ hi).1
    obtain ⟨u, _, _, _, h2⟩ := C106_partial fp dev S.device S.table cpt hpos S.hi false ho wl hon s' st' h' d ds' g hm' hg t.params hmem
      (hrel _ hmem) ⟨(S.rate _ hmem).1, S.rep _ hmem⟩
    have e : aloneBw fp dev t.params = own fp dev t.params := rfl
    rw [e] at h2
    unfold rounded at h2
    unfold needed
    rw [div_le_iff₀ (hown t ht)]
    have hoff : (g.1 : ℚ) ≤ t.params.offset := by exact_mod_cast (hrel _ hmem).2.1
    have h3 := mul_le_mul_of_nonneg_left (show (ds'.estimated : ℚ) + g.1 - t.params.offset + 24 + cpt ≤ ds'.estimated + cpt + 24 by linarith)
      (show 0 ≤ own fp dev t.params * (1 + 1 / 16777216) ^ 2 from mul_nonneg (hown t ht).le (by norm_num))
    calc _ ≤ _ := h2
      _ ≤ _ := h3
      _ = _ := by ring
  have hsum : (s0.ts.map fun t => needed fp dev t.params).sum ≤
      wl.transfers.length * ((1 + 1 / 16777216) ^ 2 * ((ds'.estimated : ℚ) + cpt + 24)) := by
    rw [← hlen]
    have := List.sum_le_card_nsmul (s0.ts.map fun t => needed fp dev t.params) _ (by
      intro x hx
      obtain ⟨t, ht, rfl⟩ := List.mem_map.mp hx
      exact hneed t ht)
    rwa [List.length_map, nsmul_eq_mul] at this
  have hX : (0 : ℚ) ≤ (ds'.estimated : ℚ) + cpt + 24 := by positivity
  have hN : (0 : ℚ) ≤ wl.transfers.length * ((ds'.estimated : ℚ) + cpt + 24) := by positivity
  have hF : (0 : ℚ) ≤ 1 + 1 / M := by positivity
  have hall : 33 / 32 * ((1 + 1 / (M : ℚ)) * (s0.ts.map fun t => needed fp dev t.params).sum) ≤
      17 / 16 * (1 + 1 / M) * (wl.transfers.length * (ds'.estimated + cpt + 24)) := by
    have h1 := mul_le_mul_of_nonneg_left hsum hF
    have h2 : (1 + 1 / (M : ℚ)) * (wl.transfers.length * ((1 + 1 / 16777216) ^ 2 * ((ds'.estimated : ℚ) + cpt + 24))) =
      (1 + 1 / 16777216) ^ 2 * ((1 + 1 / M) * (wl.transfers.length * (ds'.estimated + cpt + 24))) := by ring
    have h3 : 0 ≤ (1 + 1 / (M : ℚ)) * (wl.transfers.length * (ds'.estimated + cpt + 24)) := mul_nonneg hF hN
    rw [h2] at h1
    have h4 : 33 / 32 * ((1 + 1 / 16777216 : ℚ) ^ 2) ≤ 17 / 16 := by norm_num
    have h5 := mul_le_mul_of_nonneg_right h4 h3
    linarith
  have hq : (0 : ℚ) ≤ 17 / 16 * (1 + 1 / M) * (wl.transfers.length * (ds'.estimated + cpt + 24)) := by positivity
  have hc0 : (0 : ℚ) ≤ (3 * wl.transfers.length + 2) * cpt := by positivity
  rcases C155_estimated fp dev cpt ho wl s0 M O S hon s st h d ds g hm hg with h1 | h1
  · unfold serialBound at h1
    rw [hlen] at h1
    linarith
  · rw [h1]
    push_cast
    linarith

/-! ### Example -/

/-- Two large transfers to the same sink. -/
def bigPair : Workload := windowed 0 [serialBig 4 0, serialBig 4 1]

def bigState : Sim := match initSim .exact Sample.dev ⟨id, id⟩ bigPair with
  | .ok s => s
  | _ => ⟨[], [], [], [], initGrids Sample.dev, Stats.init Sample.dev⟩

/-- The estimates of its two runs. -/
def bigEstimates (en : Bool) : Option (List (Int × Nat)) :=
  match runSingle .exact Sample.dev ⟨id, id⟩ 128 en bigPair with
  | .ok (.inl (_, st)) => some (st.map fun e => (e.1, e.2.estimated))
  | _ => none

/-- A test for `FewUsers`. -/
def fewTest (dev : Device) (ts : List TState) : Bool :=
  ts.all fun t => (t.route.all fun l => decide ((ts.map fun u => u.route.count l).sum ≤ 65536)) &&
    decide ((ts.map (leaves dev t.params.noc t.params.src)).sum ≤ 65536) &&
    match t.params.dst with
    | .unicast d => decide ((ts.map (reaches dev t.params.noc d)).sum ≤ 65536)
    | .mcast _ => true

theorem few_of_test {dev : Device} {s0 : Sim} (h : fewTest dev s0.ts = true) : FewUsers dev s0 := by
  intro t ht cap w hp
  unfold fewTest at h
  have h1 := List.all_eq_true.mp h t ht
  simp only [Bool.and_eq_true, List.all_eq_true, decide_eq_true_eq] at h1
  obtain ⟨⟨h1, h2⟩, h3⟩ := h1
  cases hp with
  | link l hl => exact h1 l hl
  | source => exact h2
  | sink d a hd ha =>
    rw [hd] at h3
    simpa using h3

/-- The hypotheses hold for this workload. -/
theorem bigPair_serial : Serial .exact Sample.dev 128 ⟨id, id⟩ bigPair bigState 1737 0 := by
  have hts : ∀ t ∈ bigPair.transfers, t.dst = .unicast ⟨0, 1, 1⟩ ∧ 0 ≤ t.injectionRate ∧ t.groupId = -1 := by decide +kernel
  exact {
    device := ⟨by decide, by decide, by decide, by decide, fun _ => rfl⟩
    table := (C26_devices .exact "wormhole_b0" (wormhole .exact false 1) rfl).2
    lo := by decide
    hi := by decide
    buckets := fun _ => .refl _
    rate := fun t ht => ⟨(hts t ht).2.1, fun gs hgs => by rw [(hts t ht).1] at hgs; cases hgs⟩
    rep := fun _ _ => rfl
    groups := fun t ht hn => hn.1 (hts t ht).2.2
    init := by decide +kernel
    fits := fits_of_test (by decide +kernel)
    few := few_of_test (by decide +kernel)
    size := by decide +kernel
    pos := by decide
    large := by decide +kernel
    offset := by decide +kernel
    limit := by decide +kernel }

/-- Congestion doubles the estimate: two transfers that use a sink at its full rate. -/
example : bigEstimates true = some [(0, 2333), (-1, 2333)] ∧ bigEstimates false = some [(0, 1171), (-1, 1171)] ∧
    serialBound .exact Sample.dev 128 bigState 1737 0 < 3312 := by decide +kernel

end NPE.Props
