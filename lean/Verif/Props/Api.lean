import Verif.Proofs.Preprocess
import Verif.Proofs.CongFree
import Verif.Proofs.NoDiverge
import Verif.Props.Stats
import Verif.Props.Deps

/-
Properties C13, C25, C36, C37, C38, C55: the public interface.
-/

namespace NPE.Props
open Spec
open Workload

/-! ### C55: configurations -/

/-- C55, second half: a configuration is accepted exactly if the timestep length is positive and the
congestion model is known; otherwise the configuration error is raised. -/
theorem C55_config (cfg : Config) :
    (cfg.validate = .ok () ↔
      0 < cfg.cyclesPerTimestep ∧ (cfg.congestionModel = "none" ∨ cfg.congestionModel = "fast")) ∧
    (cfg.validate ≠ .ok () → cfg.validate = .exc .invalidConfig) := by
  unfold Config.validate
  by_cases h : cfg.cyclesPerTimestep ≤ 0
  · rw [if_pos h]
    refine ⟨⟨fun h' => by simp at h', fun h' => by omega⟩, fun _ => rfl⟩
  · rw [if_neg h]
    by_cases h2 : cfg.congestionModel ≠ "none" ∧ cfg.congestionModel ≠ "fast"
    · rw [if_pos h2]
      refine ⟨⟨fun h' => by simp at h', fun h' => ?_⟩, fun _ => rfl⟩
      rcases h'.2 with e | e
      · exact absurd e h2.1
      · exact absurd e h2.2
    · rw [if_neg h2]
      refine ⟨⟨fun _ => ⟨by omega, ?_⟩, fun _ => rfl⟩, fun h' => absurd rfl h'⟩
      by_contra hc
      exact h2 ⟨fun e => hc (Or.inl e), fun e => hc (Or.inr e)⟩

/-- C55.  An estimator is created exactly for the documented devices with an accepted
configuration. -/
theorem C55_make (fp : FP) (cfg : Config) :
    (∃ api, Api.make fp cfg = .ok api) ↔
      cfg.deviceName ∈ documentedDevices.map (·.1) ∧ 0 < cfg.cyclesPerTimestep ∧
        (cfg.congestionModel = "none" ∨ cfg.congestionModel = "fast") := by
  obtain ⟨h1, h2, h3⟩ := C55_device_names fp cfg.deviceName
  rw [← (C55_config cfg).1]
  constructor
  · rintro ⟨api, h⟩
    unfold Api.make at h
    obtain ⟨dev, hd, h⟩ := Out.bind_eq_ok.mp h
    obtain ⟨u, hv, _⟩ := Out.bind_eq_ok.mp h
    refine ⟨?_, hv⟩
    by_contra hn
    rw [h3 hn] at hd
    simp at hd
  · rintro ⟨hn, hv⟩
    obtain ⟨dev, hd⟩ := h2 hn
    refine ⟨⟨cfg, dev⟩, ?_⟩
    unfold Api.make
    rw [hd, Out.bind_ok, hv, Out.bind_ok]
    rfl

example : ∃ api, Api.make .exact { deviceName := "T3K" } = .ok api :=
  (C55_make .exact { deviceName := "T3K" }).mpr (by decide +kernel)

example : Config.validate { cyclesPerTimestep := 0 } = .exc .invalidConfig ∧
    Config.validate { congestionModel := "slow" } = .exc .invalidConfig ∧
    Config.validate { congestionModel := "none", cyclesPerTimestep := 1 } = .ok () := by
  decide +kernel

/-! ### Facts about created estimators -/

theorem make_ok {fp : FP} {cfg : Config} {api : Api} (h : Api.make fp cfg = .ok api) :
    api.cfg = cfg ∧ 0 < cfg.cyclesPerTimestep ∧ createDeviceModel fp cfg.deviceName = .ok api.dev := by
  unfold Api.make at h
  obtain ⟨dev, hd, h⟩ := Out.bind_eq_ok.mp h
  obtain ⟨u, hv, h⟩ := Out.bind_eq_ok.mp h
  have e := Out.ok.inj h
  exact ⟨by rw [← e], ((C55_config cfg).1.mp hv).1, by rw [← e]; exact hd⟩

theorem factory_rates {fp : FP} {name : String} {dev : Device} (h : createDeviceModel fp name = .ok dev) :
    (∀ c, 0 ≤ dev.injRate c ∧ fp.f32.Rep (dev.injRate c)) ∧ dev.rows ≤ 32767 ∧ dev.cols ≤ 32767 ∧
      dev.maxBw ≤ 524288 := by
  have hb : ∀ x : ℚ, x ≤ 100 → fp.f32.fl x ≤ 524288 := by
    intro x hx
    have h1 : fp.f32.fl x ≤ fp.f32.fl ((524288 : Nat) : ℚ) := fp.f32.mono (by push_cast; linarith)
    rw [fp.f32.fl_nat (by norm_num)] at h1
    push_cast at h1
    exact h1
  have c1 : ∀ m k, (∀ c, 0 ≤ (wormhole fp m k).injRate c ∧ fp.f32.Rep ((wormhole fp m k).injRate c)) ∧
      (wormhole fp m k).rows ≤ 32767 ∧ (wormhole fp m k).cols ≤ 32767 ∧ (wormhole fp m k).maxBw ≤ 524288 := by
    intro m k
    refine ⟨?_, by simp [wormhole], by simp [wormhole], ?_⟩
    · intro c
      cases c <;> exact ⟨fp.f32.fl_nonneg (by norm_num), fp.f32.rep_fl _⟩
    · simp only [Device.maxBw, wormhole, List.foldl_cons, List.foldl_nil, max_le_iff]
      refine ⟨⟨⟨⟨⟨⟨⟨?_, ?_⟩, ?_⟩, ?_⟩, ?_⟩, ?_⟩, ?_⟩, ?_⟩ <;> first | exact hb _ (by norm_num) | norm_num
  have c2 : ∀ p, (∀ c, 0 ≤ (blackhole fp p).injRate c ∧ fp.f32.Rep ((blackhole fp p).injRate c)) ∧
      (blackhole fp p).rows ≤ 32767 ∧ (blackhole fp p).cols ≤ 32767 ∧ (blackhole fp p).maxBw ≤ 524288 := by
    intro p
    have a3 : (0 : ℚ) ≤ fp.f32.fl (27 / 20) := fp.f32.fl_nonneg (by norm_num)
    refine ⟨?_, by simp [blackhole], by simp [blackhole], ?_⟩
    · intro c
      cases c
      case dram => exact ⟨fp.f32.fl_nonneg (fp.f64.fl_nonneg (by positivity)), fp.f32.rep_fl _⟩
      all_goals exact ⟨fp.f32.fl_nonneg (by norm_num), fp.f32.rep_fl _⟩
    · simp only [Device.maxBw, blackhole, List.foldl_cons, List.foldl_nil, max_le_iff]
      refine ⟨⟨⟨⟨⟨⟨⟨⟨⟨?_, ?_⟩, ?_⟩, ?_⟩, ?_⟩, ?_⟩, ?_⟩, ?_⟩, ?_⟩, ?_⟩ <;>
        first | exact hb _ (by norm_num) | norm_num
  unfold createDeviceModel at h
  split_ifs at h <;> cases h <;> first | exact c1 _ _ | exact c2 _

/-! ### C38: what escapes from `runNPE` -/

/-- A workload that the device can execute: built by `addPhase` from executable transfers, with
golden windows given for all devices. -/
def buildWith (phs : List Phase) (golden : GoldenMap) : Workload :=
  (build phs).setGoldenResultCycles golden

/-- The claim: every run returns statistics or an error value. -/
def C38_claim : Prop :=
  ∀ (fp : FP) (cfg : Config) (api : Api) (ho : HashOrder) (wl : Workload),
    Api.make fp cfg = .ok api → ∃ r, api.runNPE fp ho wl = .ok r

/-- Pre-processing of such a workload succeeds, and leaves a workload that can be simulated. -/
theorem built_preprocess {fp : FP} {cfg : Config} {api : Api} (hmake : Api.make fp cfg = .ok api)
    {phs : List Phase} {golden : GoldenMap}
    (hgold : ∀ d : Int, 0 ≤ d → d < api.dev.chips → ∃ w, golden.lookup d = some w)
    (hx : ∀ ph ∈ phs, ∀ t ∈ ph.transfers, Executable api.dev t)
    (hrate : cfg.inferInjectionRate = true ∨
      ∀ ph ∈ phs, ∀ t ∈ ph.transfers, 0 ≤ t.injectionRate ∧ fp.f32.Rep t.injectionRate)
    (hscale : cfg.scaleSchedule = 0 ∨ (0 ≤ cfg.scaleSchedule ∧
      ∀ ph ∈ phs, ∀ t ∈ ph.transfers, (t.offset : ℚ) * cfg.scaleSchedule ≤ 4294967295 / 2)) :
    ∃ wl', api.preprocess fp (buildWith phs golden) = .ok wl' ∧ wl'.Dense ∧
      (∀ t ∈ wl'.transfers, Executable api.dev t) ∧
      (∀ t ∈ wl'.transfers, 0 ≤ t.injectionRate ∧ fp.f32.Rep t.injectionRate) ∧
      GoldenAll api.dev wl'.golden := by
  obtain ⟨ecfg, _, hdev⟩ := make_ok hmake
  obtain ⟨hinj, _⟩ := factory_rates hdev
  have hw : (buildWith phs golden).Dense := by
    have h := Dense.foldl phs {} Dense.empty
    exact ⟨h.phaseIds, h.ids, h.gbl, h.phase⟩
  have hback : ∀ t ∈ (buildWith phs golden).transfers, ∃ ph ∈ phs, ∃ t0 ∈ ph.transfers,
      content t = content t0 := by
    intro t ht
    have h1 := foldl_addPhase_map content (fun _ _ _ => rfl) phs {}
    obtain ⟨ph, hph, htp⟩ := List.mem_flatMap.mp ht
    have h2 : ph.transfers.map content ∈ (build phs).phases.map (fun p => p.transfers.map content) :=
      List.mem_map.mpr ⟨ph, hph, rfl⟩
    unfold build at h2
    rw [h1] at h2
    simp only [List.map_nil, List.nil_append] at h2
    obtain ⟨ph0, hph0, e⟩ := List.mem_map.mp h2
    have h3 : content t ∈ ph.transfers.map content := List.mem_map_of_mem htp
    rw [← e] at h3
    obtain ⟨t0, ht0, e0⟩ := List.mem_map.mp h3
    exact ⟨ph0, hph0, t0, ht0, e0.symm⟩
  have hx' : ∀ t ∈ (buildWith phs golden).transfers, Executable api.dev t := by
    intro t ht
    obtain ⟨ph, hph, t0, ht0, e⟩ := hback t ht
    have e' : ∀ {β : Type} (f : Transfer → β), f (content t) = f (content t0) := fun f => congrArg f e
    exact Executable.congr (t := t0) (e' (·.numPackets)) (e' (·.packetSize)) (e' (·.totalBytes))
      (e' (·.src)) (e' (·.dst)) (e' (·.groupId)) (e' (·.groupParent)) (hx ph hph t0 ht0)
  obtain ⟨wl', h1, h2, h3, h4, h5⟩ := preprocess_total (fp := fp) (api := api) hinj hw hx' (by
      rw [ecfg]
      refine hrate.imp id fun h t ht => ?_
      obtain ⟨ph, hph, t0, ht0, e⟩ := hback t ht
      have : t.injectionRate = t0.injectionRate := by
        have h := congrArg Transfer.injectionRate e
        exact h
      rw [this]; exact h ph hph t0 ht0) (by
      rw [ecfg]
      refine hscale.imp id fun h => ⟨h.1, fun t ht => ?_⟩
      obtain ⟨ph, hph, t0, ht0, e⟩ := hback t ht
      have : t.offset = t0.offset := by
        have h := congrArg Transfer.offset e
        exact h
      rw [this]; exact h.2 ph hph t0 ht0)
  have hg : GoldenAll api.dev wl'.golden := by
    intro d hdm
    refine h5 d ?_
    show ∃ g, GoldenMap.at (golden.set MESH_DEVICE _) d = .ok g
    rcases List.mem_append.mp hdm with hdm | hdm
    · obtain ⟨k, hk, rfl⟩ := List.mem_map.mp hdm
      have hk := List.mem_range.mp hk
      obtain ⟨w, hw⟩ := hgold (k : Int) (by omega) (by omega)
      exact golden_set ⟨w, by unfold GoldenMap.at; rw [hw]⟩
    · simp only [List.mem_singleton] at hdm
      subst hdm
      unfold GoldenMap.at GoldenMap.set
      rw [List.lookup_cons_self]
      exact ⟨_, rfl⟩
  exact ⟨wl', h1, h2, h3, h4, hg⟩

/-- C38 (missing: workloads outside of the stated conditions, where it is violated, see below).
For every device, every accepted configuration, every timestep length below 2^32 and every
workload of executable transfers with golden windows for all devices, a run returns statistics or
the cycle limit error: no exception escapes, no assertion fails, no undefined behaviour occurs and
the run ends.  Rates are inferred or non-negative 32-bit floats; a schedule scale is non-negative
and keeps the offsets below 2^31. -/
theorem C38_partial (fp : FP) (cfg : Config) (api : Api) (hmake : Api.make fp cfg = .ok api)
    (h32 : cfg.cyclesPerTimestep < 4294967296) (ho : HashOrder) (hord : ∀ l, (ho.links l).Perm l)
    (phs : List Phase) (golden : GoldenMap)
    (hgold : ∀ d : Int, 0 ≤ d → d < api.dev.chips → ∃ w, golden.lookup d = some w)
    (hx : ∀ ph ∈ phs, ∀ t ∈ ph.transfers, Executable api.dev t)
    (hrate : cfg.inferInjectionRate = true ∨
      ∀ ph ∈ phs, ∀ t ∈ ph.transfers, 0 ≤ t.injectionRate ∧ fp.f32.Rep t.injectionRate)
    (hscale : cfg.scaleSchedule = 0 ∨ (0 ≤ cfg.scaleSchedule ∧
      ∀ ph ∈ phs, ∀ t ∈ ph.transfers, (t.offset : ℚ) * cfg.scaleSchedule ≤ 4294967295 / 2)) :
    (∃ r, api.runNPE fp ho (buildWith phs golden) = .ok (.inl r)) ∨
      api.runNPE fp ho (buildWith phs golden) = .ok (.inr .exceededSimCycleLimit) := by
  obtain ⟨ecfg, hpos, hdev⟩ := make_ok hmake
  obtain ⟨_, hrows, hcols, hmax⟩ := factory_rates hdev
  obtain ⟨hcap, hT⟩ := C26_devices fp _ _ hdev
  have hd := factory_devices_ok fp _ _ hdev
  obtain ⟨wl', h1, h2, h3, h4, hg⟩ := built_preprocess hmake hgold hx hrate hscale
  have hrun := runPerf_total hd hT hcap hmax ⟨hrows, hcols⟩ (by rw [ecfg]; exact hpos)
    (by rw [ecfg]; exact h32) hord h2 hg h3 h4
  unfold Api.runNPE
  rw [h1, Out.bind_ok, exec_validate_all h2 h3, Out.bind_ok, if_pos rfl]
  rcases hrun with ⟨r, hr⟩ | hr
  · left; rw [hr]; exact ⟨r, rfl⟩
  · right; rw [hr]; rfl

/-- One transfer on each of two chips. -/
def fewTransfers : List Phase :=
  [{ transfers := [Transfer.make 512 2 ⟨0, 1, 1⟩ (.unicast ⟨0, 3, 2⟩) 0 0 .noc0,
                   Transfer.make 512 2 ⟨1, 1, 1⟩ (.mcast [⟨⟨1, 1, 1⟩, ⟨1, 2, 3⟩⟩]) 0 7 .noc1] }]

/-- The conditions of `C38_partial` are satisfiable. -/
example : ∃ api, Api.make .exact { deviceName := "N300" } = .ok api ∧
    ((∃ r, api.runNPE .exact ⟨id, id⟩ (buildWith fewTransfers [(0, (0, 10)), (1, (0, 20))]) = .ok (.inl r)) ∨
      api.runNPE .exact ⟨id, id⟩ (buildWith fewTransfers [(0, (0, 10)), (1, (0, 20))]) =
        .ok (.inr .exceededSimCycleLimit)) := by
  refine ⟨⟨_, wormhole .exact true 2⟩, rfl, ?_⟩
  refine C38_partial .exact { deviceName := "N300" } _ rfl (by decide) _ (fun _ => List.Perm.refl _) _ _
    ?_ ?_ (Or.inl rfl) (Or.inl rfl)
  · intro d h0 h1
    have h1 : d < 2 := h1
    obtain rfl | rfl : d = 0 ∨ d = 1 := by omega
    · exact ⟨_, rfl⟩
    · exact ⟨_, rfl⟩
  · intro ph hph t ht
    simp only [fewTransfers, List.mem_singleton] at hph
    subst hph
    simp only [List.mem_cons, List.not_mem_nil, or_false] at ht
    rcases ht with rfl | rfl
    · refine ⟨by decide, by decide, by decide, by unfold IsCore; decide,
        .core _ (by unfold IsCore; decide) rfl, fun h => absurd rfl h⟩
    · refine ⟨by decide, by decide, by decide, by unfold IsCore; decide,
        .rect _ (by unfold OnGrid; decide) (by unfold OnGrid; decide) (by decide) (by decide) rfl,
        fun h => absurd rfl h⟩

/-- C38 is violated in general: if device 0 has no golden window, `std::out_of_range` escapes from every
run that gets through set-up. -/
theorem C38_violated_golden_all (fp : FP) (api : Api) (ho : HashOrder) (wl : Workload)
    (hc : 0 < api.dev.chips) (hg : wl.golden.lookup 0 = none) (s0 : Sim)
    (h0 : initSim fp api.dev ho wl = .ok s0) : api.runPerf fp ho wl = .std .outOfRange := by
  have hins : ∀ a b, (s0.stats.insertTimestep wl.golden a b) = .std .outOfRange := by
    intro a b
    rw [(initSim_ok h0).1.stats]
    unfold Stats.init Device.deviceIDs Stats.insertTimestep
    obtain ⟨n, hn⟩ : ∃ n, api.dev.chips = n + 1 := ⟨api.dev.chips - 1, by omega⟩
    rw [hn, List.range_succ_eq_map, List.map_cons, List.cons_append, List.map_cons, Out.mapM_cons]
    have : Stats.insertOne wl.golden a b (((0 : Nat) : Int), ({} : DevStats)) = .std .outOfRange := by
      unfold Stats.insertOne GoldenMap.at
      rw [Nat.cast_zero, hg]
      rfl
    rw [this]
    rfl
  have hrun : ∀ en, api.runSim fp ho en wl = .std .outOfRange := by
    intro en
    unfold Api.runSim runSingle runLoop
    have e : initSim (simConfig fp api.dev api.cfg.cyclesPerTimestep wl.golden en).fp
        (simConfig fp api.dev api.cfg.cyclesPerTimestep wl.golden en).dev ho wl = .ok s0 := h0
    rw [e, Out.bind_ok]
    unfold simFuel simLoop stepSim
    simp only
    have e2 : (simConfig fp api.dev api.cfg.cyclesPerTimestep wl.golden en).golden = wl.golden := rfl
    rw [e2, hins]
    rfl
  unfold Api.runPerf
  simp only
  rw [hrun]
  split <;> rfl

/-- The empty workload on the default device: no exception handler catches `std::out_of_range`. -/
theorem C38_violated_golden : ∃ api, Api.make .exact {} = .ok api ∧
    api.runNPE .exact ⟨id, id⟩ {} = .std .outOfRange := by
  refine ⟨⟨{}, wormhole .exact false 1⟩, rfl, ?_⟩
  have h : (Api.mk {} (wormhole .exact false 1)).runPerf .exact ⟨id, id⟩ {} = .std .outOfRange := by
    obtain ⟨s0, h0⟩ : ∃ s0, initSim .exact (wormhole .exact false 1) ⟨id, id⟩ {} = .ok s0 := ⟨_, rfl⟩
    exact C38_violated_golden_all .exact _ _ _ (by decide) rfl s0 h0
  unfold Api.runNPE
  have h1 : (Api.mk {} (wormhole .exact false 1)).preprocess .exact {} = .ok {} := by rfl
  have h2 : Workload.validate (wormhole .exact false 1) {} = .ok true := by rfl
  rw [h1, Out.bind_ok, h2, Out.bind_ok, if_pos rfl, h]
  rfl

/-- Hence the claim is false. -/
theorem C38_violated : ¬ C38_claim := by
  intro h
  obtain ⟨api, h1, h2⟩ := C38_violated_golden
  obtain ⟨r, hr⟩ := h _ _ _ ⟨id, id⟩ {} h1
  rw [h2] at hr
  simp at hr

/-- C38 is violated for sources off the grid, too: the injection rate is looked up before the workload
is validated.  (With the rate given, the workload is refused.) -/
theorem C38_violated_source :
    (Api.mk {} (wormhole .exact false 1)).runNPE .exact ⟨id, id⟩
      (buildWith [{ transfers := [Transfer.make 64 1 ⟨0, 12, 1⟩ (.unicast ⟨0, 1, 1⟩) 1 0 .noc0] }]
        [(0, (0, 10))]) = .ub ∧
    (Api.mk { inferInjectionRate := false } (wormhole .exact false 1)).runNPE .exact ⟨id, id⟩
      (buildWith [{ transfers := [Transfer.make 64 1 ⟨0, 12, 1⟩ (.unicast ⟨0, 1, 1⟩) 1 0 .noc0] }]
        [(0, (0, 10))]) = .ok (.inr .workloadValidationFailed) := by
  refine ⟨by decide +kernel, by decide +kernel⟩

/-! ### C13: runs end -/

/-- C13, totality.  Under the conditions of `C38_partial` on device, workload and rates, a single
simulation returns statistics or the cycle limit error, for every timestep length below 2^32. -/
theorem C13_returns (fp : FP) (cfg : Config) (api : Api) (hmake : Api.make fp cfg = .ok api)
    (h32 : cfg.cyclesPerTimestep < 4294967296) (ho : HashOrder) (hord : ∀ l, (ho.links l).Perm l)
    (wl : Workload) (hw : wl.Dense) (hg : GoldenAll api.dev wl.golden)
    (hx : ∀ t ∈ wl.transfers, Executable api.dev t)
    (hrate : ∀ t ∈ wl.transfers, 0 ≤ t.injectionRate ∧ fp.f32.Rep t.injectionRate) (en : Bool) :
    (∃ r, api.runSim fp ho en wl = .ok (.inl r)) ∨
      api.runSim fp ho en wl = .ok (.inr .exceededSimCycleLimit) := by
  obtain ⟨ecfg, hpos, hdev⟩ := make_ok hmake
  obtain ⟨hinj, hrows, hcols, hmax⟩ := factory_rates hdev
  obtain ⟨hcap, hT⟩ := C26_devices fp _ _ hdev
  exact runSim_total (factory_devices_ok fp _ _ hdev) hT hcap hmax ⟨hrows, hcols⟩
    (by rw [ecfg]; exact hpos) (by rw [ecfg]; exact h32) hord hw hg hx hrate en

/-- C13, termination.  For every accepted configuration and EVERY workload, well formed or not, the
estimator comes to an end: the outcome is a result, an error, an exception or undefined behaviour, but
never an endless loop.  (Routing loops over links, multicast iteration over coordinates and the
simulation over timesteps; each of them can diverge in the model.) -/
theorem C13_terminates (fp : FP) (cfg : Config) (api : Api) (hmake : Api.make fp cfg = .ok api)
    (ho : HashOrder) (wl : Workload) : api.runNPE fp ho wl ≠ .diverge := by
  obtain ⟨ecfg, hpos, hdev⟩ := make_ok hmake
  obtain ⟨_, hrows, hcols, _⟩ := factory_rates hdev
  exact (runNPE_ends (factory_devices_ok fp _ _ hdev) ⟨hrows, hcols⟩ (by rw [ecfg]; exact hpos) ho wl).ne

/-- The loops do diverge outside of the validated range: a route towards a column that the grid does
not have. -/
example : (wormhole .exact false 1).unicastRoute .noc0 ⟨0, 1, 1⟩ ⟨0, 1, 40⟩ = .diverge := by
  decide +kernel

/-- Validation accepts a multicast with a rectangle outside of the grid if another one is inside; the
run then ends with an exception. -/
example :
    let t := Transfer.make 64 1 ⟨0, 2, 1⟩ (.mcast [⟨⟨0, 2, 1⟩, ⟨0, 2, 2⟩⟩, ⟨⟨0, 40, 1⟩, ⟨0, 41, 2⟩⟩]) 1 0
      .noc0 "" "" 0 0 (-1)
    t.validate (wormhole .exact false 1) = .ok true ∧
      (wormhole .exact false 1).route id .noc0 t.src t.dst = .exc .undef := by
  decide +kernel

/-! ### C25: groups on Wormhole -/

/-- C25 (missing: Blackhole and multicast segments, where it is violated).  On every Wormhole device,
set-up with dependency generation succeeds for every workload of executable transfers; segments with a
parent have unicast destinations. -/
theorem C25_partial (fp : FP) (name : String) (dev : Device) (hdev : createDeviceModel fp name = .ok dev)
    (ho : HashOrder) (hord : ∀ l, (ho.links l).Perm l) (wl : Workload) (hw : wl.Dense)
    (hx : ∀ t ∈ wl.transfers, Executable dev t) : ∃ s, initSim fp dev ho wl = .ok s :=
  exec_init (factory_devices_ok fp _ _ hdev) hord hw hx

/-- `smallGroup` satisfies the conditions. -/
example : smallGroup.Dense ∧ ∀ t ∈ smallGroup.transfers, Executable (wormhole .exact false 1) t := by
  refine ⟨Dense.foldl [_] {} Dense.empty, ?_⟩
  intro t ht
  have : smallGroup.transfers = [
    { Transfer.make 64 1 ⟨0, 2, 1⟩ (.unicast ⟨0, 3, 2⟩) 1 0 .noc0 "" "" 3 0 (-1) with id := 0, phaseId := 0 },
    { Transfer.make 64 1 ⟨0, 3, 2⟩ (.unicast ⟨0, 4, 2⟩) 1 0 .noc0 "" "" 3 1 0 with id := 1, phaseId := 0 }] := by
    decide +kernel
  rw [this] at ht
  simp only [List.mem_cons, List.not_mem_nil, or_false] at ht
  rcases ht with rfl | rfl <;>
    exact ⟨by decide, by decide, by decide, by unfold IsCore; decide,
      .core _ (by unfold IsCore; decide) rfl, fun _ _ => ⟨rfl, _, rfl⟩⟩

/-! ### C36 and C37: the congestion-free run -/

/-- C36 as stated: if both runs succeed, the reported congestion-free cycles are those of the run with
congestion modelling off. -/
def C36_claim (fp : FP) (api : Api) (ho : HashOrder) (wl : Workload) : Prop :=
  ∀ r0 rf r, api.runSim fp ho true wl = .ok (.inl r0) → api.runSim fp ho false wl = .ok (.inl rf) →
    api.runPerf fp ho wl = .ok (.inl r) →
    List.Forall₂ (fun e f => e.1 = f.1 ∧ e.2.stats.estimatedCongFree = f.2.stats.estimated) r rf

/-- What the concrete cases show: device, estimated cycles, congestion-free cycles. -/
def cycles (x : Out Result) : Option (List (Int × Nat × Nat)) :=
  match x with
  | .ok (.inl r) => some (r.map fun e => (e.1, e.2.stats.estimated, e.2.stats.estimatedCongFree))
  | _ => none

theorem cycles_eq {x : Out Result} {l : List (Int × Nat × Nat)} (h : cycles x = some l) :
    ∃ r, x = .ok (.inl r) ∧
      r.map (fun e => (e.1, e.2.stats.estimated, e.2.stats.estimatedCongFree)) = l := by
  unfold cycles at h
  split at h
  · exact ⟨_, rfl, Option.some.inj h⟩
  · simp at h

def sampleApi : Api := ⟨{ inferInjectionRate := false }, Sample.dev⟩

/-- Two transfers of 20 bytes per cycle into one core. -/
def collide : Workload :=
  Sample.wl [Transfer.make 4096 1 ⟨0, 0, 1⟩ (.unicast ⟨0, 1, 1⟩) 20 0 .noc0,
             Transfer.make 4096 1 ⟨0, 0, 0⟩ (.unicast ⟨0, 1, 1⟩) 20 0 .noc0]

/-- C36 is violated: with congestion the run takes 292 cycles, without congestion 205, and the reported
congestion-free count is 292. -/
theorem C36_violated : ¬ C36_claim .exact sampleApi ⟨id, id⟩ collide ∧
    cycles (sampleApi.runSim .exact ⟨id, id⟩ false collide) = some [(0, 205, 0), (-1, 205, 0)] ∧
    cycles (sampleApi.runPerf .exact ⟨id, id⟩ collide) = some [(0, 292, 292), (-1, 292, 292)] := by
  have h0 : cycles (sampleApi.runSim .exact ⟨id, id⟩ true collide) = some [(0, 292, 0), (-1, 292, 0)] := by
    decide +kernel
  have h1 : cycles (sampleApi.runSim .exact ⟨id, id⟩ false collide) = some [(0, 205, 0), (-1, 205, 0)] := by
    decide +kernel
  have h2 : cycles (sampleApi.runPerf .exact ⟨id, id⟩ collide) = some [(0, 292, 292), (-1, 292, 292)] := by
    decide +kernel
  refine ⟨?_, h1, h2⟩
  obtain ⟨r0, e0, _⟩ := cycles_eq h0
  obtain ⟨rf, ef, mf⟩ := cycles_eq h1
  obtain ⟨r, er, m⟩ := cycles_eq h2
  intro hc
  have h := hc r0 rf r e0 ef er
  cases h with
  | nil => simp at m
  | cons a _ =>
    simp only [List.map_cons, List.cons.injEq, Prod.mk.injEq] at m mf
    have := a.2
    omega

theorem setCongFree_impact (r : Report) : ∀ e ∈ setCongFree r, e.2.stats.congestionImpact = 0 := by
  intro e he
  obtain ⟨e0, _, rfl⟩ := List.mem_map.mp he
  simp [DevStats.congestionImpact]

/-- C36 is violated in general: the congestion impact that is reported is always zero. -/
theorem C36_impact_zero (fp : FP) (api : Api) (ho : HashOrder) (wl : Workload) (r : Report)
    (h : api.runPerf fp ho wl = .ok (.inl r)) : ∀ e ∈ r, e.2.stats.congestionImpact = 0 := by
  have hz : ∀ en r, api.runSim fp ho en wl = .ok (.inl r) → ∀ e ∈ r, e.2.stats.congestionImpact = 0 := by
    intro en r h e he
    unfold DevStats.congestionImpact
    rw [if_pos (Or.inr (runSim_noCongFree h e he))]
  unfold Api.runPerf at h
  simp only at h
  split at h
  · obtain ⟨x, h1, h⟩ := Out.bind_eq_ok.mp h
    cases x with
    | inr e => simp at h
    | inl st =>
      simp only at h
      obtain ⟨y, h2, h⟩ := Out.bind_eq_ok.mp h
      cases y with
      | inr e =>
        have e := Sum.inl.inj (Out.ok.inj h)
        subst e
        exact hz _ _ h1
      | inl st' =>
        have e := Sum.inl.inj (Out.ok.inj h)
        rw [← e]
        exact setCongFree_impact st
  · exact hz _ _ h

/-- C36 (missing: runs with congestion, where it is violated).  With the congestion model "none", both
runs are the same, and the reported congestion-free cycles are those of the run. -/
theorem C36_partial (fp : FP) (api : Api) (ho : HashOrder) (wl : Workload)
    (hn : api.cfg.congestionModel = "none") (he : api.cfg.estimateCongImpact = true) (rf r : Report)
    (hf : api.runSim fp ho false wl = .ok (.inl rf)) (h : api.runPerf fp ho wl = .ok (.inl r)) :
    List.Forall₂ (fun e f => e.1 = f.1 ∧ e.2.stats.estimatedCongFree = f.2.stats.estimated) r rf := by
  unfold Api.runPerf at h
  simp only [he, if_true, hn, ne_eq, not_true_eq_false, decide_false] at h
  rw [hf, Out.bind_ok] at h
  simp only at h
  rw [Out.bind_ok] at h
  have e := Sum.inl.inj (Out.ok.inj h)
  rw [← e]
  unfold setCongFree
  rw [List.forall₂_map_left_iff]
  exact List.forall₂_same.mpr fun _ _ => ⟨rfl, rfl⟩

example : cycles (Api.runPerf .exact ⟨id, id⟩
      ⟨{ inferInjectionRate := false, congestionModel := "none" }, Sample.dev⟩ collide) =
    some [(0, 205, 205), (-1, 205, 205)] := by decide +kernel

/-- The same statistics up to the congestion-free cycles. -/
def SameButCongFree (r r' : Report) : Prop :=
  List.Forall₂ (fun e e' : Int × DevReport => e'.1 = e.1 ∧ e'.2.summary = e.2.summary ∧
    e'.2.stats = { e.2.stats with estimatedCongFree := e'.2.stats.estimatedCongFree }) r r'

theorem SameButCongFree.refl (r : Report) : SameButCongFree r r :=
  List.forall₂_same.mpr fun _ _ => ⟨rfl, rfl, rfl⟩

theorem sameButCongFree_set (r : Report) : SameButCongFree r (setCongFree r) := by
  unfold SameButCongFree setCongFree
  rw [List.forall₂_map_right_iff]
  exact List.forall₂_same.mpr fun _ _ => ⟨rfl, rfl, rfl⟩

/-- The claim of C37: the result of the first run is what the estimator returns. -/
def C37_claim (fp : FP) (api : Api) (ho : HashOrder) (wl : Workload) : Prop :=
  let first := api.runSim fp ho (decide (api.cfg.congestionModel ≠ "none")) wl
  (∀ e, first = .ok (.inr e) → api.runPerf fp ho wl = .ok (.inr e)) ∧
  (∀ r, first = .ok (.inl r) → ∃ r', api.runPerf fp ho wl = .ok (.inl r') ∧ SameButCongFree r r')

/-- C37, for all workloads: errors of the first run are returned, and its statistics are returned
whenever the second run returns anything. -/
theorem C37_returned (fp : FP) (api : Api) (ho : HashOrder) (wl : Workload)
    (h2 : api.cfg.estimateCongImpact = true → ∀ r, api.runSim fp ho (decide (api.cfg.congestionModel ≠ "none")) wl = .ok (.inl r) →
      ∃ x, api.runSim fp ho false wl = .ok x) : C37_claim fp api ho wl := by
  unfold C37_claim
  refine ⟨fun e he => ?_, fun r hr => ?_⟩
  · unfold Api.runPerf
    simp only
    rw [he]
    split <;> rfl
  · unfold Api.runPerf
    simp only
    rw [hr]
    split
    · rename_i hc
      obtain ⟨x, hx⟩ := h2 hc r hr
      rw [Out.bind_ok]
      simp only
      rw [hx, Out.bind_ok]
      cases x with
      | inr e => exact ⟨r, rfl, SameButCongFree.refl r⟩
      | inl r' => exact ⟨_, rfl, sameButCongFree_set r⟩
    · exact ⟨r, rfl, SameButCongFree.refl r⟩

/-- C37 (missing: negative rates and transfers of zero bytes without a positive rate, where it is
violated).  For every device, every accepted configuration with a timestep length below 2^32 and every
workload with sources on the chips of the device: if the first run returns statistics, the second run
ends regularly, too, and the estimator returns the statistics of the first run; if the first run fails,
its error is returned. -/
theorem C37_partial (fp : FP) (cfg : Config) (api : Api) (hmake : Api.make fp cfg = .ok api)
    (h32 : cfg.cyclesPerTimestep < 4294967296) (ho : HashOrder) (wl : Workload)
    (hon : OnChips api.dev wl.transfers)
    (hwf : ∀ t ∈ wl.transfers, 1 ≤ t.numPackets ∧ 1 ≤ t.packetSize ∧ 0 ≤ t.injectionRate ∧
      (t.totalBytes = 0 → 0 < t.injectionRate)) : C37_claim fp api ho wl := by
  obtain ⟨ecfg, hpos, hdev⟩ := make_ok hmake
  obtain ⟨hinj, hrows, hcols, hmax⟩ := factory_rates hdev
  obtain ⟨hcap, hT⟩ := C26_devices fp _ _ hdev
  refine C37_returned fp api ho wl fun _ r hr => ?_
  rcases second_run (factory_devices_ok fp _ _ hdev) hT hcap hmax (by rw [ecfg]; exact hpos)
    (by rw [ecfg]; exact h32) hon hwf hr with ⟨r', h⟩ | h
  · exact ⟨_, h⟩
  · exact ⟨_, h⟩

example : cycles (sampleApi.runPerf .exact ⟨id, id⟩ collide) = some [(0, 292, 292), (-1, 292, 292)] ∧
    cycles (sampleApi.runSim .exact ⟨id, id⟩ true collide) = some [(0, 292, 0), (-1, 292, 0)] := by
  refine ⟨by decide +kernel, by decide +kernel⟩

/-- 65536 packets of 65536 bytes wrap to zero bytes; the rate is negative. -/
def wrapped : Workload :=
  Sample.wl [Transfer.make 65536 65536 ⟨0, 0, 1⟩ (.unicast ⟨0, 1, 1⟩) (-1) 0 .noc0]

/-- C37 is violated: the workload is valid and the congested run returns statistics (the negative
derating factor makes the bandwidth positive), but the congestion-free run converts a negative number to
an unsigned one, which is undefined, and no result is returned. -/
theorem C37_violated : ¬ C37_claim .exact sampleApi ⟨id, id⟩ wrapped ∧
    wrapped.validate Sample.dev = .ok true := by
  have h0 : cycles (sampleApi.runSim .exact ⟨id, id⟩ true wrapped) = some [(0, 0, 0), (-1, 0, 0)] := by
    decide +kernel
  have h1 : sampleApi.runPerf .exact ⟨id, id⟩ wrapped = .ub := by decide +kernel
  refine ⟨fun h => ?_, by decide +kernel⟩
  obtain ⟨r, e, _⟩ := cycles_eq h0
  obtain ⟨r', h2, _⟩ := h.2 r e
  rw [h1] at h2
  simp at h2

end NPE.Props
