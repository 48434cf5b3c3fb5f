import Verif.Proofs.Credit
import Verif.Props.Crowd
import Verif.Props.RandomTest
import Verif.Props.Timing
import Verif.Props.Stats

/-
Properties C59 (any rounding), C105 and C106: what cannot be moved in time.
-/

namespace NPE.Props
open NPE NPE.Spec

/-- The injection rate is a `float` that is not negative. -/
def SaneRate (fp : FP) (t : Transfer) : Prop := 0 ≤ t.injectionRate ∧ fp.f32.Rep t.injectionRate

/-- The bandwidth of a transfer that is alone: injection rate or table, whichever is smaller (zero if the table
has no bandwidth for the transfer). -/
def aloneBw (fp : FP) (dev : Device) (t : Transfer) : ℚ :=
  match interpolateBW fp dev.tbt dev.maxBw t.packetSize t.numPackets with
  | .ok b => min t.injectionRate b
  | _ => 0

theorem aloneBw_nonneg {fp : FP} {dev : Device} (hT : TableOk fp dev.tbt) (t : Transfer) (h : SaneRate fp t) :
    0 ≤ aloneBw fp dev t := by
  unfold aloneBw
  split
  · rename_i b hb
    exact le_min h.1 (interpolateBW_ok hT hb).1
  · exact le_rfl

/-- The rate computation of a device with a good table gives no transfer more than it has alone. -/
theorem within_alone {fp : FP} {dev : Device} (hT : TableOk fp dev.tbt) (en : Bool) :
    WithinCap (computeRates fp dev en) (SaneRate fp) (aloneBw fp dev) := by
  intro sot curr g ts live ts' g' hn h i t hi ht h0
  obtain ⟨_, _, _, h4⟩ := computeRates_bw hn h
  obtain ⟨t0, b, d, a1, a2, a3, _⟩ := h4 i hi
  rw [ht] at a3
  have e := Option.some.inj a3
  subst e
  obtain ⟨b1, b2, _, _⟩ := tableBw_ok hT a2
  refine le_trans (applyDerate_le' (b1 h0.1) (b2 h0.2)) ?_
  unfold tableBw at a2
  obtain ⟨x, h1, h2⟩ := Out.bind_eq_ok.mp a2
  show b ≤ aloneBw fp dev t0.params
  unfold aloneBw
  rw [h1, ← Out.ok.inj h2]

/-- C59 with any rounding, for every device with a good table (all devices of the factory), with and without congestion.  A transfer without dependency moves at
most its bandwidth (alone) times the cycles since its start, up to a relative error of 2^-22; a transfer
with a dependency exceeds this by at most one timestep.  For completed transfers the cycles count up to the
recorded end, which rounding moves by less than 24 cycles. -/
theorem C59_rounded_partial (fp : FP) (dev : Device) (hT : TableOk fp dev.tbt)
    (cpt : Nat) (hcpt : cpt ≤ 25000000) (golden : GoldenMap) (en : Bool) (ho : HashOrder) (wl : Workload) (s0 : Sim)
    (h0 : initSim fp dev ho wl = .ok s0) (c : Nat) (s : Sim) (hs : Reach (simConfig fp dev cpt golden en) s0 c s)
    (i : Nat) (t : TState) (ht : s.ts[i]? = some t) (hrate : SaneRate fp t.params) :
    (Active s i → (t.moved : ℚ) ≤
      rounded (aloneBw fp dev t.params) * ((c : ℚ) - t.start + extraCredit cpt t)) ∧
    (Completed s i →
      (t.moved : ℚ) ≤ rounded (aloneBw fp dev t.params) * ((t.endc : ℚ) - t.start + 24 + extraCredit cpt t) ∧
      (t.moved : ℚ) ≤ rounded (aloneBw fp dev t.params) * ((c : ℚ) - t.start + extraCredit cpt t)) := by
  obtain ⟨I, _⟩ := initSim_ok h0
  have h := credit_rounded (cfg := simConfig fp dev cpt golden en) (C14_device_models fp dev en cpt golden)
    (within_alone hT en) (fun t => aloneBw_nonneg hT t) hcpt (init_inv h0) I.live
    (fun j hj => I.queue.symm.subset (List.mem_range.mpr hj)) hs i t ht hrate
  have hK := rounded_nonneg (aloneBw_nonneg hT t.params hrate)
  constructor
  · intro ha
    refine (h.1 ha).trans (mul_le_mul_of_nonneg_left ?_ hK)
    have hs0 := slack_le cpt c s.deps t
    unfold extraCredit
    show (c : ℚ) - t.start + slack cpt c s.deps t ≤ _
    linarith
  · intro hc
    exact h.2 (by obtain ⟨_, _, _, h, _⟩ := hc; rw [← waiting_iff]; exact h)
      (by obtain ⟨_, _, _, _, h⟩ := hc; exact h)

/-- Every transfer of a run that ended normally, with any rounding. -/
theorem finished_credit {fp : FP} {dev : Device} (hT : TableOk fp dev.tbt)
    {cpt : Nat} (hcpt : cpt ≤ 25000000) {en : Bool} {ho : HashOrder} {wl : Workload} {s : Sim} {st : Stats}
    (h : runSingle fp dev ho cpt en wl = .ok (.inl (s, st))) {t : TState} (ht : t ∈ s.ts)
    (hrate : SaneRate fp t.params) :
    t.params.offset ≤ t.start ∧
    (t.params.totalBytes : ℚ) ≤ rounded (aloneBw fp dev t.params) *
      ((t.endc : ℚ) - t.params.offset + 24 + extraCredit cpt t) ∧
    (t.params.totalBytes : ℚ) ≤ rounded (aloneBw fp dev t.params) *
      (50000000 + cpt - t.params.offset + extraCredit cpt t) := by
  obtain ⟨s0, c, h0, h1, _, hs, hl, hq, _⟩ := runSingle_ok h
  obtain ⟨i, hi⟩ := List.mem_iff_getElem?.mp ht
  obtain ⟨a1, a2, a3, a4, a5⟩ := (C14_all_delivered _ (C14_device_models fp dev en cpt wl.golden) ho wl s c h1).2 i t hi
  obtain ⟨b1, b2⟩ := (C59_rounded_partial fp dev hT cpt hcpt wl.golden en ho wl s0 h0 c s hs i t hi hrate).2
    ⟨t, hi, a1, a4, a5⟩
  have hK := rounded_nonneg (aloneBw_nonneg hT t.params hrate)
  have hoff : (t.params.offset : ℚ) ≤ t.start := by exact_mod_cast a2
  have hc : (c : ℚ) ≤ 50000000 + cpt := by
    have : c ≤ 50000000 + cpt := by
      cases hs with
      | start => omega
      | step _ hc _ =>
        have e : (simConfig fp dev cpt wl.golden en).cpt = cpt := rfl
        rw [e]
        omega
    exact_mod_cast this
  rw [a1] at b1 b2
  exact ⟨a2, b1.trans (mul_le_mul_of_nonneg_left (by linarith) hK), b2.trans (mul_le_mul_of_nonneg_left (by linarith) hK)⟩

/-! ### C105: the cycle limit is reported -/

/-- A transfer with more bytes than its bandwidth (alone) can move from its offset to the cycle limit, and two
timesteps more. -/
def Overlong (fp : FP) (dev : Device) (cpt : Nat) (t : Transfer) : Prop :=
  rounded (aloneBw fp dev t) * (50000000 + 2 * cpt - t.offset) < t.totalBytes

/-- C105 for `runPerfEstimation`: if a workload of executable transfers contains an overlong one, the result is the
cycle limit error, whatever else the workload contains, with and without congestion. -/
theorem C105_estimate (fp : FP) (cfg : Config) (api : Api)
    (hmake : Api.make fp cfg = .ok api) (hcpt : cfg.cyclesPerTimestep ≤ 25000000) (ho : HashOrder)
    (hord : ∀ l, (ho.links l).Perm l) (wl : Workload) (hw : wl.Dense) (hg : GoldenAll api.dev wl.golden)
    (hx : ∀ t ∈ wl.transfers, Executable api.dev t) (hrate : ∀ t ∈ wl.transfers, SaneRate fp t)
    (t : Transfer) (ht : t ∈ wl.transfers) (hlong : Overlong fp api.dev cfg.cyclesPerTimestep t) :
    api.runPerf fp ho wl = .ok (.inr .exceededSimCycleLimit) := by
  obtain ⟨ecfg, hpos, hdev⟩ := make_ok hmake
  obtain ⟨_, hrows, hcols, hmax⟩ := factory_rates hdev
  obtain ⟨hcap, hT⟩ := C26_devices fp _ _ hdev
  have hd := factory_devices_ok fp _ _ hdev
  have hsim : ∀ en, api.runSim fp ho en wl = .ok (.inr .exceededSimCycleLimit) := by
    intro en
    rcases runSim_total hd hT hcap hmax ⟨hrows, hcols⟩ (by rw [ecfg]; exact hpos)
      (by rw [ecfg]; omega) hord hw hg hx hrate en with ⟨r, h⟩ | h
    · exfalso
      unfold Api.runSim at h
      obtain ⟨r', h5, h⟩ := Out.bind_eq_ok.mp h
      rw [ecfg] at h5
      rcases r' with ⟨s, st⟩ | err
      · obtain ⟨s0, c, h0, h6, _⟩ := runSingle_ok h5
        have hperm := (C14_all_delivered _ (C14_device_models fp api.dev en _ wl.golden) ho wl s c h6).1
        obtain ⟨u, hu, rfl⟩ := List.mem_map.mp (hperm.symm.subset ht)
        have hsane := hrate _ ht
        have h7 := (finished_credit hT hcpt h5 hu hsane).2.2
        have hK := rounded_nonneg (aloneBw_nonneg hT u.params hsane)
        have hext : extraCredit cfg.cyclesPerTimestep u ≤ cfg.cyclesPerTimestep := by
          unfold extraCredit
          split
          · positivity
          · exact le_rfl
        have := mul_le_mul_of_nonneg_left hext hK
        unfold Overlong at hlong
        nlinarith
      · simp at h
    · exact h
  unfold Api.runPerf
  simp only
  split
  · rw [hsim, Out.bind_ok]
  · exact hsim _

/-- C105 for the public interface: the same for a workload that is overlong after pre-processing. -/
theorem C105 (fp : FP) (cfg : Config) (api : Api)
    (hmake : Api.make fp cfg = .ok api) (hcpt : cfg.cyclesPerTimestep ≤ 25000000) (ho : HashOrder)
    (hord : ∀ l, (ho.links l).Perm l) (phs : List Phase) (golden : GoldenMap)
    (hgold : ∀ d : Int, 0 ≤ d → d < api.dev.chips → ∃ w, golden.lookup d = some w)
    (hx : ∀ ph ∈ phs, ∀ t ∈ ph.transfers, Executable api.dev t)
    (hrate : cfg.inferInjectionRate = true ∨
      ∀ ph ∈ phs, ∀ t ∈ ph.transfers, 0 ≤ t.injectionRate ∧ fp.f32.Rep t.injectionRate)
    (hscale : cfg.scaleSchedule = 0 ∨ (0 ≤ cfg.scaleSchedule ∧
      ∀ ph ∈ phs, ∀ t ∈ ph.transfers, (t.offset : ℚ) * cfg.scaleSchedule ≤ 4294967295 / 2))
    (wl : Workload) (hpre : api.preprocess fp (buildWith phs golden) = .ok wl)
    (t : Transfer) (ht : t ∈ wl.transfers) (hlong : Overlong fp api.dev cfg.cyclesPerTimestep t) :
    api.runNPE fp ho (buildWith phs golden) = .ok (.inr .exceededSimCycleLimit) := by
  obtain ⟨wl', h1, h2, h3, h4, hg⟩ := built_preprocess hmake hgold hx hrate hscale
  rw [hpre] at h1
  have e := Out.ok.inj h1
  subst e
  unfold Api.runNPE
  rw [hpre, Out.bind_ok, exec_validate_all h2 h3, Out.bind_ok, if_pos rfl,
    C105_estimate fp cfg api hmake hcpt ho hord wl h2 hg h3 h4 t ht hlong]
  rfl

/-- The transfer of the two tests of the cycle limit, test/test_npe_engine.cpp:49-50 and
py/pytest/test_bindings.py:53-56.  The 10^10 bytes do not fit into 32 bits; 1410065408 remain. -/
def tooMuch (size packets : Nat) (rate : ℚ) (noc : Noc) : Transfer :=
  Transfer.make size packets ⟨0, 1, 1⟩ (.unicast ⟨0, 1, 5⟩) rate 0 noc

theorem tooMuch_long (fp : FP) {t : Transfer} (hb : t.totalBytes = 1410065408) (ho : t.offset = 0)
    (hi : t.injectionRate = fp.f32.fl (281 / 10)) : Overlong fp (wormhole fp false 1) 10000 t := by
  have h1 : aloneBw fp (wormhole fp false 1) t ≤ 281 / 10 * (1 + 1 / 16777216) := by
    unfold aloneBw
    split
    · refine (min_le_left _ _).trans ?_
      rw [hi]
      exact fp.f32.fl_le_err (by norm_num)
    · norm_num
  unfold Overlong rounded
  rw [hb, ho]
  push_cast
  nlinarith

theorem tooMuch_exec (fp : FP) {t : Transfer} (hb : t.totalBytes = 1410065408)
    (hs : 1 ≤ t.packetSize ∧ t.packetSize < 4294967296) (hp : 1 ≤ t.numPackets) (h1 : t.src = ⟨0, 1, 1⟩)
    (h2 : t.dst = .unicast ⟨0, 1, 5⟩) (h3 : t.groupId = -1) : Executable (wormhole fp false 1) t := by
  refine ⟨hp, hs, by rw [hb]; decide, ?_, ?_, fun h => absurd h3 h⟩
  · rw [h1]
    exact ⟨⟨le_rfl, Int.one_pos⟩, ⟨by decide, by show (1 : Int) < 12; decide⟩, by decide, by show (1 : Int) < 10; decide⟩
  · rw [h1, h2]
    exact .core _ ⟨⟨le_rfl, Int.one_pos⟩, ⟨by decide, by show (1 : Int) < 12; decide⟩, by decide,
      by show (5 : Int) < 10; decide⟩ rfl

/-- The test `test_npe_max_cycle_limit` of the bindings (py/pytest/test_bindings.py:49-66) passes: for any positive
number of such transfers (in the test 100), in any rounding and any order of the hash tables. -/
theorem C105_test (fp : FP) (ho : HashOrder) (hord : ∀ l, (ho.links l).Perm l) (n : Nat) (hn : 0 < n) :
    ∃ api, Api.make fp { cyclesPerTimestep := 10000 } = .ok api ∧
      api.runNPE fp ho (buildWith [{ transfers := List.replicate n (tooMuch 200000 50000 0 .noc0) }] [(0, (0, 32))]) =
        .ok (.inr .exceededSimCycleLimit) := by
  have hmake : Api.make fp { cyclesPerTimestep := 10000 } =
    .ok ⟨{ cyclesPerTimestep := 10000 }, wormhole fp false 1⟩ := rfl
  refine ⟨_, hmake, ?_⟩
  have hx : ∀ t ∈ List.replicate n (tooMuch 200000 50000 0 .noc0), Executable (wormhole fp false 1) t := by
    intro t ht
    rw [List.eq_of_mem_replicate ht]
    exact tooMuch_exec fp rfl ⟨by decide, by decide⟩ (by decide) rfl rfl rfl
  obtain ⟨wl, h1, h2, h3⟩ := phase_preprocess fp (dev := wormhole fp false 1) (cfg := { cyclesPerTimestep := 10000 })
    rfl rfl rfl (golden := [(0, (0, 32))]) hx
  have hne : wl.transfers ≠ [] := by
    intro h0
    rw [h0, List.length_replicate] at h2
    simp at h2
    omega
  obtain ⟨t, ht⟩ := List.exists_mem_of_ne_nil _ hne
  obtain ⟨u, hu, c, hc, e⟩ := h3 t ht
  have hu := List.eq_of_mem_replicate hu
  subst hu
  have hcw : c = .worker := by
    have e0 : (wormhole fp false 1).getCoreType ⟨0, 1, 1⟩ = (wormhole .exact false 1).getCoreType ⟨0, 1, 1⟩ := rfl
    have : (wormhole fp false 1).getCoreType ⟨0, 1, 1⟩ = .ok .worker := by rw [e0]; decide +kernel
    exact Out.ok.inj (hc.symm.trans this)
  subst hcw
  have e1 : t.totalBytes = (tooMuch 200000 50000 0 .noc0).totalBytes := congrArg (·.totalBytes) e
  have e2 : (tooMuch 200000 50000 0 .noc0).totalBytes = 1410065408 := by decide +kernel
  refine C105 fp _ _ hmake (by decide) ho hord _ _ ?_ ?_ (Or.inl rfl) (Or.inl rfl) wl h1 t ht
    (tooMuch_long fp (e1.trans e2) (congrArg (·.offset) e) (congrArg (·.injectionRate) e))
  · intro d h0 h1
    have h1 : d < 1 := h1
    obtain rfl : d = 0 := by omega
    exact ⟨_, rfl⟩
  · intro ph hph t ht
    simp only [List.mem_singleton] at hph
    subst hph
    exact hx t ht

/-- The test `CanTimeoutOnMaxCycles` (test/test_npe_engine.cpp:42-60) passes: any positive number of such transfers
(in the test 1000), without congestion model and pre-processing. -/
example (fp : FP) (ho : HashOrder) (hord : ∀ l, (ho.links l).Perm l) (n : Nat) (hn : 0 < n) :
    ∃ api, Api.make fp { cyclesPerTimestep := 10000, congestionModel := "none" } = .ok api ∧
      api.runPerf fp ho (buildWith [{ transfers := List.replicate n (tooMuch 100000 100000 (fp.f32.fl (281 / 10)) .noc1) }]
        [(0, (0, 32))]) = .ok (.inr .exceededSimCycleLimit) := by
  have hmake : Api.make fp { cyclesPerTimestep := 10000, congestionModel := "none" } =
    .ok ⟨{ cyclesPerTimestep := 10000, congestionModel := "none" }, wormhole fp false 1⟩ := rfl
  refine ⟨_, hmake, ?_⟩
  set ts := List.replicate n (tooMuch 100000 100000 (fp.f32.fl (281 / 10)) .noc1) with hts
  have hf := phase_transfers ts [(0, (0, 32))]
  have hback : ∀ t ∈ (buildWith [{ transfers := ts }] [(0, (0, 32))]).transfers, content t =
      content (tooMuch 100000 100000 (fp.f32.fl (281 / 10)) .noc1) := by
    intro t ht
    obtain ⟨u, hu, e⟩ := forall₂_exists_of_mem_right hf ht
    rw [e, List.eq_of_mem_replicate hu]
  have hw : (buildWith [{ transfers := ts }] [(0, (0, 32))]).Dense := by
    have h := Workload.Dense.foldl [{ transfers := ts }] {} Workload.Dense.empty
    exact ⟨h.phaseIds, h.ids, h.gbl, h.phase⟩
  have hne : (buildWith [{ transfers := ts }] [(0, (0, 32))]).transfers ≠ [] := by
    intro h0
    have := hf.length_eq
    rw [h0, hts, List.length_replicate] at this
    simp at this
    omega
  obtain ⟨t, ht⟩ := List.exists_mem_of_ne_nil _ hne
  have e := hback t ht
  refine C105_estimate fp _ _ hmake (by decide) ho hord _ hw ?_ ?_ ?_ t ht
    (tooMuch_long fp (congrArg (·.totalBytes) e) (congrArg (·.offset) e) (congrArg (·.injectionRate) e))
  · obtain ⟨wl', h1, _, _, _, hg⟩ := built_preprocess (fp := fp) (cfg := { inferInjectionRate := false })
      (api := ⟨{ inferInjectionRate := false }, wormhole fp false 1⟩) rfl (phs := [{ transfers := ts }])
      (golden := [(0, (0, 32))]) (by
        intro d h0 h1
        have h1 : d < 1 := h1
        obtain rfl : d = 0 := by omega
        exact ⟨_, rfl⟩) (by
        intro ph hph t ht
        simp only [List.mem_singleton] at hph
        subst hph
        rw [List.eq_of_mem_replicate ht]
        exact tooMuch_exec fp rfl (show 1 ≤ 100000 ∧ 100000 < 4294967296 by decide) (show 1 ≤ 100000 by decide) rfl rfl rfl) (Or.inr (by
        intro ph hph t ht
        simp only [List.mem_singleton] at hph
        subst hph
        rw [List.eq_of_mem_replicate ht]
        exact ⟨fp.f32.fl_nonneg (by norm_num), fp.f32.idem _⟩)) (Or.inl rfl)
    have h2 : (Api.mk { inferInjectionRate := false } (wormhole fp false 1)).preprocess fp
        (buildWith [{ transfers := ts }] [(0, (0, 32))]) = .ok (buildWith [{ transfers := ts }] [(0, (0, 32))]) := by
      unfold Api.preprocess
      simp
    rw [Out.ok.inj (h2.symm.trans h1)]
    exact hg
  · intro t ht
    have e := hback t ht
    have e2 : t.packetSize = 100000 := congrArg (·.packetSize) e
    have e3 : t.numPackets = 100000 := congrArg (·.numPackets) e
    exact tooMuch_exec fp (congrArg (·.totalBytes) e) (by rw [e2]; decide) (by rw [e3]; decide) (congrArg (·.src) e)
      (congrArg (·.dst) e) (congrArg (·.groupId) e)
  · intro t ht
    have e := hback t ht
    have e1 : t.injectionRate = fp.f32.fl (281 / 10) := congrArg (·.injectionRate) e
    unfold SaneRate
    rw [e1]
    exact ⟨fp.f32.fl_nonneg (by norm_num), fp.f32.idem _⟩

/-! ### C106: no estimate is too optimistic -/

/-- The claim, in exact arithmetic: the estimated cycles of a device leave every transfer that counts for it
enough time, from its offset on, to move its bytes with the bandwidth that it has alone. -/
def C106_claim : Prop :=
  ∀ (dev : Device), DeviceOk dev → TableOk .exact dev.tbt → ∀ (cpt : Nat), 0 < cpt → cpt ≤ 25000000 →
    ∀ (congestion : Bool) (ho : HashOrder) (wl : Workload), OnChips dev wl.transfers →
    ∀ (s : Sim) (st : Stats), runSingle .exact dev ho cpt congestion wl = .ok (.inl (s, st)) →
    ∀ (d : Int) (ds : DevStats) (g : Nat × Nat), (d, ds) ∈ st → wl.golden.at d = .ok g →
    ∀ t ∈ wl.transfers, Relevant d g t → SaneRate .exact t →
      (t.totalBytes : ℚ) ≤ aloneBw .exact dev t * ((ds.estimated : ℚ) + g.1 - t.offset)

/-- Device, estimate and golden window of the sample run below. -/
def optimistic : List Transfer := [Sample.tr 128 0, Sample.tr 1 0, Sample.tr 512 128]

/-- C106 does not hold: the third transfer has 512 bytes, one byte per cycle and offset 128, but the estimate ends
in cycle 512.  (The dependency ended exactly at the start of a timestep, see `C59_violated`.) -/
theorem C106_violated : ¬ C106_claim := by
  intro h
  have hT : TableOk .exact Sample.dev.tbt := wormhole_table .exact false 1
  have hd : DeviceOk Sample.dev := ⟨by decide, by decide, by decide, by decide, fun _ => rfl⟩
  have key : (match runSingle .exact Sample.dev ⟨id, id⟩ 128 false (windowed 0 optimistic) with
      | .ok (.inl (_, st)) => st.map fun e => (e.1, e.2.estimated)
      | _ => []) = [((0 : Int), 512), (-1, 512)] := by decide +kernel
  split at key
  · rename_i s st h1
    have hm : ((0 : Int), 512) ∈ st.map fun e => (e.1, e.2.estimated) := by rw [key]; simp
    obtain ⟨⟨d, ds⟩, hm, e⟩ := List.mem_map.mp hm
    have e1 : d = 0 := congrArg Prod.fst e
    have e2 : ds.estimated = 512 := congrArg Prod.snd e
    subst e1
    obtain ⟨t, ht, c1, c2, c3, c4, c5⟩ : ∃ t ∈ (windowed 0 optimistic).transfers, t.totalBytes = 512 ∧ t.offset = 128 ∧
        Relevant 0 (0, 1000) t ∧ t.injectionRate = 1 ∧ aloneBw .exact Sample.dev t = 1 := by decide +kernel
    have := h Sample.dev hd hT 128 (by decide) (by decide) false _ _ (by unfold OnChips; decide +kernel) s st h1 0 ds (0, 1000) hm rfl t ht c3
      ⟨by rw [c4]; norm_num, rfl⟩
    rw [c1, c2, c5, e2] at this
    norm_num at this
  · simp at key

/-- C106 (missing: one timestep for transfers that wait for another one, see `C106_violated`), with any rounding
(relative error of 2^-22 and 24 cycles). -/
theorem C106_partial (fp : FP) (dev : Device) (hd : DeviceOk dev) (hT : TableOk fp dev.tbt) (cpt : Nat) (hpos : 0 < cpt)
    (hcpt : cpt ≤ 25000000) (congestion : Bool) (ho : HashOrder) (wl : Workload) (hon : OnChips dev wl.transfers)
    (s : Sim) (st : Stats) (h : runSingle fp dev ho cpt congestion wl = .ok (.inl (s, st)))
    (d : Int) (ds : DevStats) (g : Nat × Nat) (hm : (d, ds) ∈ st) (hg : wl.golden.at d = .ok g)
    (t : Transfer) (ht : t ∈ wl.transfers) (hrel : Relevant d g t) (hrate : SaneRate fp t) :
    ∃ u ∈ s.ts, u.params = t ∧
      (t.totalBytes : ℚ) ≤ rounded (aloneBw fp dev t) *
        ((ds.estimated : ℚ) + g.1 - t.offset + 24 + extraCredit cpt u) ∧
      (t.totalBytes : ℚ) ≤ rounded (aloneBw fp dev t) * ((ds.estimated : ℚ) + g.1 - t.offset + 24 + cpt) := by
  obtain ⟨_, c, _, h6, _⟩ := runSingle_ok h
  have hperm := (C14_all_delivered _ (C14_device_models fp dev congestion _ wl.golden) ho wl s c h6).1
  obtain ⟨u, hu, rfl⟩ := List.mem_map.mp (hperm.symm.subset ht)
  obtain ⟨gs, ge, m, e1, e2, _, e4, e5, _⟩ := C35_estimated fp dev hd cpt hpos congestion ho wl hon s st h d ds hm
  rw [hg] at e1
  have e1 := Out.ok.inj e1
  subst e1
  obtain ⟨_, h7, _⟩ := finished_credit hT hcpt h hu hrate
  have hK := rounded_nonneg (aloneBw_nonneg hT u.params hrate)
  have hend : u.endc ≤ ds.estimated + gs := by
    have := e2.1 u hu hrel
    rcases le_total gs m with h3 | h3
    · have := e4 h3; omega
    · have := e5 h3; omega
  have hend' : (u.endc : ℚ) ≤ ds.estimated + gs := by exact_mod_cast hend
  have hext : extraCredit cpt u ≤ cpt := by
    unfold extraCredit
    split
    · positivity
    · exact le_rfl
  exact ⟨u, hu, rfl, h7.trans (mul_le_mul_of_nonneg_left (by linarith) hK),
    h7.trans (mul_le_mul_of_nonneg_left (by linarith) hK)⟩

/-- A case: in the run of `C106_violated` the third transfer waits for the first, starts in cycle 128 and ends in
cycle 512; its 512 bytes exceed the 384 cycles between by exactly one timestep of 128. -/
example : (match runSingle .exact Sample.dev ⟨id, id⟩ 128 false (windowed 0 optimistic) with
    | .ok (.inl (s, _)) => s.ts.map fun (t : TState) => (t.params.totalBytes, t.start, t.endc, t.dependsOn)
    | _ => []) = [(128, 0, 128, -1), (1, 0, 1, -1), (512, 128, 512, 0)] := by decide +kernel

end NPE.Props
