import Verif.Proofs.Convert
import Verif.Props.Crowd
import Verif.Props.File
import Verif.Props.SmallTrace

/-
Properties C69 and C110: which traces are converted, and that they can be simulated.
-/

namespace NPE.Props
open NPE NPE.Spec

/-! ### C69: traces that are converted -/

/-- C69 (missing: fabric paths on Blackhole, which are never converted, see `C69_violated`).  Every well-formed trace for
a Wormhole device is converted, and every one without fabric paths for any device. -/
theorem C69_partial (fp : FP) (device path : String) (dev : Device) (hdev : createDeviceModel fp device = .ok dev)
    (evs : List Json) (hw : Trace.WellFormed dev.chips evs)
    (ha : dev.arch = .wormholeB0 ∨ ∀ e ∈ evs, ¬ Trace.UsesFabric e) :
    ∃ wl, convertTrace fp device path (.doc (.arr evs)) = .ok (some wl) :=
  convertTrace_total hdev hw ha path

/-! ### C110: converted traces can be simulated -/

theorem mem_converted {q : List Json × Json} : ∀ {l pre : List Json}, q ∈ Trace.converted pre l → q.2 ∈ l := by
  intro l
  induction l with
  | nil => intro pre h; exact absurd h (by simp [Trace.converted])
  | cons e l ih =>
    intro pre h
    unfold Trace.converted at h
    rcases List.mem_append.mp h with h | h
    · split at h
      · rw [List.mem_singleton.mp h]; simp
      · simp at h
    · exact List.mem_cons_of_mem _ (ih h)

/-- A feasible data movement is an executable transfer of one packet. -/
theorem item_executable {dev : Device} {t0 : Int} {pre : List Json} {e : Json} {t : Transfer}
    (hi : Trace.item t ∈ Trace.items dev.arch t0 pre e) (hf : Trace.Feasible dev (Trace.item t))
    (ha : dev.arch = .wormholeB0 ∨ ¬ Trace.UsesFabric e) :
    Executable dev t ∧ t.injectionRate = 0 ∧ t.numPackets = 1 ∧ t.offset < 4294967296 ∧
      (¬ Trace.UsesFabric e → t.groupId = -1) := by
  have key : (Trace.item t).numPackets = 1 ∧ (Trace.item t).packetSize < 4294967296 ∧
      (Trace.item t).totalBytes = (Trace.item t).packetSize ∧ (Trace.item t).rate = 0 ∧
      (Trace.item t).offset < 4294967296 ∧
      ((Trace.item t).group = -1 ∨ Trace.UsesFabric e ∧ ∃ d, (Trace.item t).dst = .unicast d) := by
    unfold Trace.items at hi
    cases hfab : Trace.fabric e with
    | none =>
      rw [hfab] at hi
      rw [List.mem_singleton.mp hi]
      exact ⟨rfl, Int.emod_lt_of_pos _ (by norm_num), rfl, rfl, Int.emod_lt_of_pos _ (by norm_num), Or.inl rfl⟩
    | some f =>
      rw [hfab] at hi
      obtain ⟨m, hm, e1⟩ := List.mem_map.mp hi
      rw [← e1]
      refine ⟨rfl, Int.emod_lt_of_pos _ (by norm_num), rfl, rfl, Int.emod_lt_of_pos _ (by norm_num), Or.inr ⟨?_, _, rfl⟩⟩
      have hm' : m.1 ∈ Trace.movements (Trace.ends pre e).bytes ((Trace.routes f).getD []) := by
        obtain ⟨x, i⟩ := m
        exact (List.mem_zipIdx' hm).2 ▸ List.getElem_mem _
      obtain ⟨r, hr, _⟩ := List.mem_flatMap.mp hm'
      exact ⟨f, r, hfab, hr⟩
  obtain ⟨k1, k2, k3, k4, k5, k6⟩ := key
  have b := hf.bytes
  simp only [Trace.item] at k1 k2 k3 k4 k5 k6 b
  refine ⟨⟨by omega, ⟨by omega, by omega⟩, by omega, hf.src, hf.dst, ?_⟩, k4, k1, by omega, ?_⟩
  · intro hg _
    rcases k6 with h | ⟨h, hd⟩
    · exact absurd h hg
    · exact ⟨ha.resolve_right (fun hn => hn h), hd⟩
  · intro hn
    exact k6.resolve_right fun h => hn h.1

/-- The workload of a well-formed trace of feasible movements. -/
theorem converted_executable {fp : FP} {device path : String} {dev : Device} {evs : List Json}
    (hdev : createDeviceModel fp device = .ok dev) (hw : Trace.WellFormed dev.chips evs)
    (ha : dev.arch = .wormholeB0 ∨ ∀ e ∈ evs, ¬ Trace.UsesFabric e) (hpaths : Trace.PathsComplete evs)
    (hf : ∀ t0, Trace.IsOrigin evs t0 → ∀ q ∈ Trace.converted [] evs, ∀ i ∈ Trace.items dev.arch t0 q.1 q.2,
      Trace.Feasible dev i) :
    ∃ wl t0, convertTrace fp device path (.doc (.arr evs)) = .ok (some wl) ∧ Trace.IsOrigin evs t0 ∧ wl.Dense ∧
      GoldenAll dev wl.golden ∧
      wl.transfers.map Trace.item = (Trace.converted [] evs).flatMap (fun q => Trace.items dev.arch t0 q.1 q.2) ∧
      ∀ t ∈ wl.transfers, Executable dev t ∧ t.injectionRate = 0 ∧ t.numPackets = 1 ∧ t.offset < 4294967296 ∧
        ((∀ e ∈ evs, ¬ Trace.UsesFabric e) → t.groupId = -1) ∧
        ∃ q ∈ Trace.converted [] evs, Trace.item t ∈ Trace.items dev.arch t0 q.1 q.2 := by
  obtain ⟨wl, hwl⟩ := C69_partial fp device path dev hdev evs hw ha
  have hne : evs ≠ [] := by
    obtain ⟨e, rest, c, h, _⟩ := hw.first
    rw [h]; simp
  obtain ⟨dev', t0, hdev', ho, hitems⟩ := C49_conversion hpaths hne hwl
  rw [hdev] at hdev'
  rw [← Out.ok.inj hdev'] at hitems
  refine ⟨wl, t0, hwl, ho, ?_, ?_, hitems, ?_⟩
  · unfold convertTrace at hwl
    rw [hdev, Out.bind_ok] at hwl
    simp only at hwl
    obtain ⟨g, _, hwl⟩ := Out.bind_eq_ok.mp hwl
    obtain ⟨z, _, hwl⟩ := Out.bind_eq_ok.mp hwl
    obtain ⟨l, _, hwl⟩ := Out.bind_eq_ok.mp hwl
    obtain ⟨s, _, hwl⟩ := Out.bind_eq_ok.mp hwl
    have h0 : (({} : Workload).setGoldenResultCycles g.1).Dense := ⟨rfl, rfl, rfl, fun _ h => absurd h (by
      simp [Workload.setGoldenResultCycles])⟩
    have h1 : Workload.Dense { ({} : Workload).setGoldenResultCycles g.1 with
        zones := z, numTransferGroups := s.groups } := ⟨h0.phaseIds, h0.ids, h0.gbl, h0.phase⟩
    have h2 := h1.addPhase { transfers := s.transfers }
    rw [← Option.some.inj (Out.ok.inj hwl)]
    exact ⟨h2.phaseIds, h2.ids, h2.gbl, h2.phase⟩
  · intro d hd
    rcases List.mem_append.mp hd with hd | hd
    · obtain ⟨k, hk, rfl⟩ := List.mem_map.mp hd
      have hk := List.mem_range.mp hk
      obtain ⟨v, hv, _⟩ := golden_at hdev (d := (k : Int)) (by omega) (by omega) hwl
      exact ⟨v, by unfold GoldenMap.at; rw [hv]⟩
    · rw [List.mem_singleton.mp hd]
      obtain ⟨_, m, _, _, _, _, _, _, hg, _⟩ := convertTrace_ok hwl
      rw [hg]
      change ∃ g, (GoldenMap.set m MESH_DEVICE _).at MESH_DEVICE = .ok g
      unfold GoldenMap.at GoldenMap.set
      rw [List.lookup_cons_self]
      exact ⟨_, rfl⟩
  · intro t ht
    have h1 : Trace.item t ∈ wl.transfers.map Trace.item := List.mem_map_of_mem ht
    rw [hitems] at h1
    obtain ⟨q, hq, h1⟩ := List.mem_flatMap.mp h1
    have hqe := mem_converted hq
    obtain ⟨a1, a2, a3, a4, a5⟩ := item_executable h1 (hf t0 ho q hq _ h1) (ha.imp id fun h => h q.2 hqe)
    exact ⟨a1, a2, a3, a4, fun h => a5 (h q.2 hqe), q, hq, h1⟩

theorem createWorkload_list {fp : FP} {device path : String} {evs : List Json} {wl : Workload}
    (h : convertTrace fp device path (.doc (.arr evs)) = .ok (some wl)) (answer isTrace : Bool) :
    createWorkload fp answer path device isTrace (.doc (.arr evs)) = .ok (some wl) := by
  unfold createWorkload
  cases isTrace
  · have hl : loadJSONWorkload fp answer path (.doc (.arr evs)) = .ok none := by
      unfold loadJSONWorkload
      simp only
      split <;> rfl
    rw [hl]
    change catchNpeNone (convertTrace fp device path (.doc (.arr evs))) = _
    rw [h]; rfl
  · change catchNpeNone (convertTrace fp device path (.doc (.arr evs))) = _
    rw [h]; rfl

/-- C110.  Every well-formed trace of movements that the device can perform is read as a workload, whether or not it is
announced as a trace, and a run of that workload returns statistics or the cycle limit error.  (Blackhole devices: without
fabric paths.  A schedule scale is at most one half.) -/
theorem C110 (fp : FP) (cfg : Config) (api : Api) (hmake : Api.make fp cfg = .ok api)
    (h32 : cfg.cyclesPerTimestep < 4294967296) (hscale : 0 ≤ cfg.scaleSchedule ∧ cfg.scaleSchedule ≤ 1 / 2)
    (ho : HashOrder) (hord : ∀ l, (ho.links l).Perm l) (evs : List Json) (hw : Trace.WellFormed api.dev.chips evs)
    (ha : api.dev.arch = .wormholeB0 ∨ ∀ e ∈ evs, ¬ Trace.UsesFabric e) (hpaths : Trace.PathsComplete evs)
    (hf : ∀ t0, Trace.IsOrigin evs t0 → ∀ q ∈ Trace.converted [] evs, ∀ i ∈ Trace.items api.dev.arch t0 q.1 q.2,
      Trace.Feasible api.dev i) (answer isTrace : Bool) (path : String) :
    ∃ wl, createWorkload fp answer path cfg.deviceName isTrace (.doc (.arr evs)) = .ok (some wl) ∧
      ((∃ r, api.runNPE fp ho wl = .ok (.inl r)) ∨ api.runNPE fp ho wl = .ok (.inr .exceededSimCycleLimit)) := by
  obtain ⟨ecfg, hpos, hdev⟩ := make_ok hmake
  obtain ⟨hinj, hrows, hcols, hmax⟩ := factory_rates hdev
  obtain ⟨hcap, hT⟩ := C26_devices fp _ _ hdev
  have hd := factory_devices_ok fp _ _ hdev
  obtain ⟨wl, t0, hwl, _, hdense, hgold, _, hx⟩ := converted_executable (path := path) hdev hw ha hpaths hf
  refine ⟨wl, createWorkload_list hwl answer isTrace, ?_⟩
  obtain ⟨wl', h1, h2, h3, h4, h5⟩ := preprocess_total (fp := fp) (api := api) hinj hdense (fun t ht => (hx t ht).1)
    (Or.inr fun t ht => by rw [(hx t ht).2.1]; exact ⟨le_refl _, fp.f32.rep_zero⟩) (by
      rw [ecfg]
      refine Or.inr ⟨hscale.1, fun t ht => ?_⟩
      have h1 : (t.offset : ℚ) ≤ 4294967295 := by
        have := (hx t ht).2.2.2.1
        exact_mod_cast Nat.le_of_lt_succ this
      have h0 : (0 : ℚ) ≤ t.offset := by positivity
      calc (t.offset : ℚ) * cfg.scaleSchedule ≤ 4294967295 * (1 / 2) :=
            mul_le_mul h1 hscale.2 hscale.1 (by norm_num)
        _ = 4294967295 / 2 := by norm_num)
  have hrun := runPerf_total hd hT hcap hmax ⟨hrows, hcols⟩ (by rw [ecfg]; exact hpos)
    (by rw [ecfg]; exact h32) hord h2 (fun d hdm => h5 d (hgold d hdm)) h3 h4
  unfold Api.runNPE
  rw [h1, Out.bind_ok, exec_validate_all h2 h3, Out.bind_ok, if_pos rfl]
  rcases hrun with ⟨r, hr⟩ | hr
  · left; rw [hr]; exact ⟨r, rfl⟩
  · right; rw [hr]; rfl

/-! ### Traces for which statistics are certain -/

theorem wormhole_fast (fp : FP) (m : Bool) (k : Nat) : (∀ c, 23 ≤ (wormhole fp m k).injRate c) ∧
    (∀ c, 23 ≤ (wormhole fp m k).absRate c) ∧ 23 ≤ (wormhole fp m k).linkBw ∧
    ∃ size bw, Peak (wormhole fp m k).tbt size bw ∧ 23 ≤ bw := by
  refine ⟨?_, ?_, (by show (23 : ℚ) ≤ 30; norm_num), 8192, 30, rfl, by norm_num⟩
  · intro c
    cases c <;> exact nat_le_fl fp 23 (by decide) (by norm_num)
  · intro c
    cases c
    all_goals first
      | exact nat_le_fl fp 23 (by decide) (by norm_num)
      | (show (23 : ℚ) ≤ 24; norm_num)

theorem blackhole_fast (fp : FP) (p : Bool) : (∀ c, 23 ≤ (blackhole fp p).injRate c) ∧
    (∀ c, 23 ≤ (blackhole fp p).absRate c) ∧ 23 ≤ (blackhole fp p).linkBw ∧
    ∃ size bw, Peak (blackhole fp p).tbt size bw ∧ 23 ≤ bw := by
  have hdram : (23 : ℚ) ≤ fp.f32.fl (fp.f64.fl (54 / fp.f32.fl (27/20))) := by
    have h1 : fp.f32.fl (27/20) ≤ 2 := by
      have := fp.f32.mono (show (27/20 : ℚ) ≤ ((2 : Nat) : ℚ) by norm_num)
      rw [fp.f32.fl_nat (by norm_num)] at this
      exact_mod_cast this
    have h0 : (1 : ℚ) ≤ fp.f32.fl (27/20) := by
      have := nat_le_fl fp 1 (by decide) (x := 27/20) (by norm_num)
      exact_mod_cast this
    have h2 : (23 : ℚ) ≤ 54 / fp.f32.fl (27/20) := by
      rw [le_div_iff₀ (by linarith)]
      linarith
    have h3 : (23 : ℚ) ≤ fp.f64.fl (54 / fp.f32.fl (27/20)) := by
      have := fp.f64.mono h2
      have e : fp.f64.fl 23 = 23 := by exact_mod_cast fp.f64.fl_nat (n := 23) (by norm_num)
      rwa [e] at this
    exact nat_le_fl fp 23 (by decide) (by exact_mod_cast h3)
  refine ⟨?_, ?_, nat_le_fl fp 23 (by decide) (by norm_num), 16384, _, rfl, nat_le_fl fp 23 (by decide) (by norm_num)⟩ <;>
  · intro c
    cases c
    all_goals first
      | exact hdram
      | exact nat_le_fl fp 23 (by decide) (by norm_num)

/-- All rates and the peak bandwidth of the created devices are at least 23 bytes per cycle. -/
theorem factory_fast {fp : FP} {name : String} {dev : Device} (h : createDeviceModel fp name = .ok dev) :
    (∀ c, 23 ≤ dev.injRate c) ∧ (∀ c, 23 ≤ dev.absRate c) ∧ 23 ≤ dev.linkBw ∧
    ∃ size bw, Peak dev.tbt size bw ∧ 23 ≤ bw := by
  rcases factory_cases h with ⟨m, k, e⟩ | ⟨p, e⟩
  · rw [e]; exact wormhole_fast fp m k
  · rw [e]; exact blackhole_fast fp p

/-- Pre-processing that only infers rates. -/
theorem infer_preprocess (fp : FP) {api : Api} (hinf : api.cfg.inferInjectionRate = true)
    (hsc : api.cfg.scaleSchedule = 0) (hrem : api.cfg.removeLocal = false) {wl : Workload}
    (hx : ∀ t ∈ wl.transfers, Executable api.dev t) :
    ∃ wl', api.preprocess fp wl = .ok wl' ∧ wl'.transfers.length = wl.transfers.length ∧
      ∀ t' ∈ wl'.transfers, ∃ t ∈ wl.transfers, ∃ c, t' = { t with injectionRate := api.dev.injRate c } := by
  obtain ⟨w1, h1, h2, h3, h4⟩ := Workload.mapTransfersM_total (f := fun t => do
      let r ← api.dev.getSrcInjectionRate t.src
      return { t with injectionRate := r }) (wl := wl)
    (fun t t' => ∃ c, t' = { t with injectionRate := api.dev.injRate c }) (by
      intro t ht
      have hex := hx t ht
      obtain ⟨ty, hty⟩ := getCoreType_total (dev := api.dev) (c := t.src) ⟨hex.src.2.1, hex.src.2.2⟩
      refine ⟨{ t with injectionRate := api.dev.injRate ty }, ?_, ty, rfl⟩
      unfold Device.getSrcInjectionRate
      rw [hty]; rfl) (by
      intro t t' h
      obtain ⟨r, _, h⟩ := Out.bind_eq_ok.mp h
      rw [← Out.ok.inj h]; exact ⟨rfl, rfl⟩)
  refine ⟨w1, ?_, h3.length_eq.symm, ?_⟩
  · unfold Api.preprocess
    rw [if_pos hinf]
    unfold Workload.inferInjectionRates
    rw [h1, Out.bind_ok, hsc, hrem]
    simp
  · intro t' ht'
    exact forall₂_exists_of_mem_right h3 ht'

/-- C110, traces without fabric paths: if `n` movements share every resource and still `q` bytes of each are moved in a
timestep, each needs at most `most` timesteps and the deadline of the lanes is within the cycle limit, then the trace
is read and the run returns statistics.  (For timesteps of 128 cycles `n q` is at most 529.) -/
theorem C110_returns (fp : FP) (cfg : Config) (api : Api) (hmake : Api.make fp cfg = .ok api)
    (hcpt : cfg.cyclesPerTimestep ≤ 16777216) (hinf : cfg.inferInjectionRate = true) (hscale : cfg.scaleSchedule = 0)
    (hrem : cfg.removeLocal = false) (ho : HashOrder) (hord : ∀ l, (ho.links l).Perm l)
    (hb : ∀ l, (ho.buckets l).Perm l) (evs : List Json) (hw : Trace.WellFormed api.dev.chips evs)
    (hplain : ∀ e ∈ evs, Trace.fabric e = none)
    (hf : ∀ t0, Trace.IsOrigin evs t0 → ∀ x ∈ Trace.converted [] evs,
      Trace.Feasible api.dev (Trace.plain api.dev.arch t0 x.1 x.2))
    (n q most latest : Nat) (hn : (evs.filter Trace.Converts).length = n) (hn18 : n ≤ 262144) (hq : 0 < q)
    (hq24 : q ≤ 16777216)
    (hnq : 128 * n * q ≤ 529 * cfg.cyclesPerTimestep)
    (hbytes : ∀ x ∈ Trace.converted [] evs, steps q ((Trace.ends x.1 x.2).bytes % 4294967296).toNat ≤ most)
    (hlatest : ∀ t0, Trace.IsOrigin evs t0 → ∀ x ∈ Trace.converted [] evs,
      (Trace.plain api.dev.arch t0 x.1 x.2).offset ≤ latest)
    (hlim : laneDeadline n most latest cfg.cyclesPerTimestep ≤ 50000000) (answer isTrace : Bool) (path : String) :
    ∃ wl r, createWorkload fp answer path cfg.deviceName isTrace (.doc (.arr evs)) = .ok (some wl) ∧
      api.runNPE fp ho wl = .ok (.inl r) := by
  obtain ⟨ecfg, hpos, hdev⟩ := make_ok hmake
  obtain ⟨hinj, _⟩ := factory_rates hdev
  obtain ⟨_, hT⟩ := C26_devices fp _ _ hdev
  obtain ⟨f1, f2, f3, size, bw, hpeak, f4⟩ := factory_fast hdev
  have hnone : ∀ e ∈ evs, ¬ Trace.UsesFabric e := by
    rintro e he ⟨f, r, h, _⟩
    rw [hplain e he] at h
    exact absurd h nofun
  have hit : ∀ t0, ∀ x ∈ Trace.converted [] evs, Trace.items api.dev.arch t0 x.1 x.2 =
      [Trace.plain api.dev.arch t0 x.1 x.2] := by
    intro t0 x hx
    unfold Trace.items
    rw [hplain _ (mem_converted hx)]
  have hpaths : Trace.PathsComplete evs := fun e he f hf => by
    rw [hplain e he] at hf
    exact absurd hf nofun
  obtain ⟨wl, t0, hwl, horg, hdense, hgold, hitems, hx⟩ := converted_executable (path := path) hdev hw (Or.inr hnone)
    hpaths (fun t0 h x hx i hi => by
      rw [hit t0 x hx, List.mem_singleton] at hi
      rw [hi]; exact hf t0 h x hx)
  refine ⟨wl, ?_⟩
  obtain ⟨wl', h1, hlen, hback⟩ := infer_preprocess fp (api := api) (by rw [ecfg]; exact hinf) (by rw [ecfg]; exact hscale)
    (by rw [ecfg]; exact hrem) (fun t ht => (hx t ht).1)
  obtain ⟨wl'', h1', h2, h3, h4, h5⟩ := preprocess_total (fp := fp) (api := api) hinj hdense (fun t ht => (hx t ht).1)
    (Or.inl (by rw [ecfg]; exact hinf)) (Or.inl (by rw [ecfg]; exact hscale))
  rw [h1] at h1'
  have e := Out.ok.inj h1'
  subst e
  have hlen' : wl'.transfers.length = n := by
    have h := congrArg List.length (C49_plain hplain (by
      obtain ⟨e, rest, c, h, _⟩ := hw.first
      rw [h]; simp) hwl)
    rw [List.length_map, List.length_map] at h
    rw [hlen, h, hn]
  have hplainItem : ∀ t ∈ wl.transfers, ∃ x ∈ Trace.converted [] evs, Trace.item t = Trace.plain api.dev.arch t0 x.1 x.2 := by
    intro t ht
    obtain ⟨_, _, _, _, _, x, hx1, hx2⟩ := hx t ht
    rw [hit t0 x hx1, List.mem_singleton] at hx2
    exact ⟨x, hx1, hx2⟩
  obtain ⟨r, hr⟩ := runNPE_returns hq hq24 hmake hcpt hord hb h1 h2 h3 h4 (fun d hdm => h5 d (hgold d hdm))
    (by
      intro t' ht' hp
      obtain ⟨t, ht, c, rfl⟩ := hback t' ht'
      exact hp.1 ((hx t ht).2.2.2.2.1 hnone)) (by omega) (by
      intro t' ht'
      obtain ⟨t, ht, c, rfl⟩ := hback t' ht'
      obtain ⟨ex, _, one, _⟩ := hx t ht
      obtain ⟨b, hb1, _, _, hb2⟩ := C32_total fp api.dev hT size bw hpeak t.packetSize 1 (by have := ex.size; omega) one_pos
      rw [hb2 (Or.inl rfl)] at hb1
      have hm : (23 : ℚ) ≤ min (api.dev.injRate c) bw := le_min (f1 c) f4
      have hpos' : 0 < wl'.transfers.length := List.length_pos_of_mem ht'
      rw [hlen'] at hpos'
      have hn1 : (1 : ℚ) ≤ n := by exact_mod_cast hpos'
      have hnq' : (128 : ℚ) * n * q ≤ 529 * cfg.cyclesPerTimestep := by exact_mod_cast hnq
      have hq0 : (0 : ℚ) ≤ q := by positivity
      have hc0 : (0 : ℚ) ≤ cfg.cyclesPerTimestep := by positivity
      have hn18' : (n : ℚ) ≤ 262144 := by exact_mod_cast hn18
      rw [hlen']
      refine ⟨bw, 23, by show interpolateBW fp api.dev.tbt api.dev.maxBw t.packetSize t.numPackets = _; rw [one]; exact hb1,
        ?_, ?_, by linarith, f3, f1 c, ?_⟩
      · show (q : ℚ) ≤ cfg.cyclesPerTimestep * min (api.dev.injRate c) bw
        have h1 : (cfg.cyclesPerTimestep : ℚ) * 23 ≤ cfg.cyclesPerTimestep * min (api.dev.injRate c) bw :=
          mul_le_mul_of_nonneg_left hm hc0
        nlinarith
      · show (128 * n * q : ℚ) ≤ cfg.cyclesPerTimestep * min (api.dev.injRate c) bw * 23
        have h1 : (cfg.cyclesPerTimestep : ℚ) * 23 ≤ cfg.cyclesPerTimestep * min (api.dev.injRate c) bw :=
          mul_le_mul_of_nonneg_left hm hc0
        linarith
      · intro d a _ ha
        unfold Device.getSinkAbsorptionRate at ha
        obtain ⟨ty, _, ha⟩ := Out.bind_eq_ok.mp ha
        rw [← Out.ok.inj ha]
        exact f2 ty) (latest := latest) (by
      intro t' ht'
      obtain ⟨t, ht, c, rfl⟩ := hback t' ht'
      obtain ⟨x, hx1, hx2⟩ := hplainItem t ht
      have h := hlatest t0 horg x hx1
      rw [← hx2] at h
      simp only [Trace.item] at h
      exact_mod_cast h) (by
      right
      refine ⟨most, ?_, by omega, by rw [hlen']; exact hlim⟩
      intro t' ht'
      obtain ⟨t, ht, c, rfl⟩ := hback t' ht'
      obtain ⟨x, hx1, hx2⟩ := hplainItem t ht
      have h := hbytes x hx1
      have e : (Trace.item t).totalBytes = (Trace.ends x.1 x.2).bytes % 4294967296 := by rw [hx2]; rfl
      rw [← e] at h
      simpa [Trace.item] using h)
  exact ⟨r, createWorkload_list hwl answer isTrace, hr⟩

/-! ### Examples -/

/-- The trace of the test of the multicast utilisation, test/data/mcast-util-trace-small.json. -/
def smallEvents : List Json :=
  [Conformance.zone "ZONE_START" 0, Conformance.write 100, Conformance.write 200, Conformance.write 300,
    Conformance.write 400, Conformance.write 500, Conformance.zone "ZONE_END" 700]

theorem small_origin {t0 : Int} (h : Trace.IsOrigin smallEvents t0) : t0 = 0 := by
  obtain ⟨e, he, h1⟩ := h.1
  have h2 := h.2 (Conformance.zone "ZONE_START" 0) (by simp [smallEvents])
  have h3 : ∀ e ∈ smallEvents, 0 ≤ Trace.time e := by decide +kernel
  have h4 := h3 e he
  have h5 : Trace.time (Conformance.zone "ZONE_START" 0) = 0 := by decide +kernel
  omega

/-- The zones of the trace. -/
theorem small_zones (t0 : Int) (c : Coord × RiscType) : Trace.zonesOf smallEvents t0 c =
    if c = (⟨0, 1, 1⟩, .ncrisc) then [⟨0 - t0, "unit_test_region", .zoneStart⟩, ⟨700 - t0, "unit_test_region", .zoneEnd⟩]
    else [] := by
  have hcore : ∀ p t, Trace.core (Conformance.zone p t) = some (⟨0, 1, 1⟩, .ncrisc) := fun _ _ => rfl
  have hw : ∀ t, Trace.zoneOf t0 c (Conformance.write t) = none := fun _ => rfl
  have hz : ∀ p t q, zonePhase? p = some q → Trace.time (Conformance.zone p t) = t → Trace.zoneOf t0 c (Conformance.zone p t) =
      if c = (⟨0, 1, 1⟩, .ncrisc) then some ⟨t - t0, "unit_test_region", q⟩ else none := by
    intro p t q h ht
    unfold Trace.zoneOf
    rw [show (Conformance.zone p t).strD "zone_phase" = p from rfl, h]
    simp only
    rw [hcore]
    have h1 : (Conformance.zone p t).intD "sx" (-1) ≠ -1 := by show (1 : Int) ≠ -1; decide
    have h2 : (Conformance.zone p t).intD "sy" (-1) ≠ -1 := by show (1 : Int) ≠ -1; decide
    have h3 : (Conformance.zone p t).strD "zone" ≠ "" := by show "unit_test_region" ≠ ""; decide
    by_cases hc : c = (⟨0, 1, 1⟩, .ncrisc)
    · rw [if_pos hc, if_pos ⟨h1, h2, h3, by rw [hc]⟩, ht]; rfl
    · rw [if_neg hc, if_neg fun h => hc (Option.some.inj h.2.2.2).symm]
  unfold Trace.zonesOf smallEvents
  simp only [List.filterMap_cons, List.filterMap_nil, hw, hz "ZONE_START" 0 .zoneStart rfl (by decide +kernel),
    hz "ZONE_END" 700 .zoneEnd rfl (by decide +kernel)]
  by_cases hc : c = (⟨0, 1, 1⟩, .ncrisc)
  · simp only [if_pos hc]
  · simp only [if_neg hc]

theorem small_wellFormed : Trace.WellFormed 1 smallEvents where
  first := ⟨_, _, (⟨0, 1, 1⟩, .ncrisc), rfl, rfl, by decide, fun t0 => by rw [small_zones, if_pos rfl]; simp⟩
  procs := by
    intro e he
    have h : ∀ e ∈ smallEvents, (Trace.core e).isSome = true := by decide +kernel
    exact Option.isSome_iff_exists.mp (h e he)
  phases := by decide +kernel
  nested := by
    intro t0 _ c
    rw [small_zones]
    split
    · exact ⟨[], .closed (.cons "unit_test_region" (0 - t0) (700 - t0) .nil .nil)⟩
    · exact ⟨[], .closed .nil⟩
  corners := by
    intro e he g hg
    have h : ∀ e ∈ smallEvents, Trace.dest [] e = .mcast [⟨⟨0, 1, 2⟩, ⟨0, 1, 2⟩⟩] ∨ Trace.type e ≠ "WRITE_MULTICAST" := by
      decide +kernel
    rcases h e he with h | h
    · rw [h] at hg
      have := (List.cons.inj (Dest.mcast.inj hg)).1
      subst this
      decide
    · unfold Trace.dest at hg
      simp only at hg
      rw [if_neg h] at hg
      exact absurd hg nofun
  active := Or.inl ⟨Conformance.zone "ZONE_START" 0, by simp [smallEvents], by decide +kernel⟩
  times := by decide +kernel

/-- The trace of the test is converted and simulated, with statistics. -/
example : ∃ api wl r, Api.make .exact { deviceName := "wormhole_b0", cyclesPerTimestep := 32 } = .ok api ∧
    createWorkload .exact true "t.json" "wormhole_b0" true (.doc (.arr smallEvents)) = .ok (some wl) ∧
    api.runNPE .exact ⟨id, id⟩ wl = .ok (.inl r) := by
  have hmake : Api.make .exact { deviceName := "wormhole_b0", cyclesPerTimestep := 32 } =
      .ok ⟨{ deviceName := "wormhole_b0", cyclesPerTimestep := 32 }, wormhole .exact false 1⟩ := rfl
  obtain ⟨wl, r, h1, h2⟩ := C110_returns .exact _ _ hmake (by decide) rfl rfl rfl ⟨id, id⟩ (fun _ => List.Perm.refl _)
    (fun _ => List.Perm.refl _) smallEvents small_wellFormed (by decide +kernel) (by
      intro t0 h x hx
      have h1 : ∀ x ∈ Trace.converted [] smallEvents, 1 ≤ (Trace.plain .wormholeB0 0 x.1 x.2).packetSize ∧
          (Trace.plain .wormholeB0 0 x.1 x.2).src = ⟨0, 1, 1⟩ ∧
          (Trace.plain .wormholeB0 0 x.1 x.2).dst = .mcast [⟨⟨0, 1, 2⟩, ⟨0, 1, 2⟩⟩] := by decide +kernel
      rw [small_origin h]
      obtain ⟨a, b, c⟩ := h1 x hx
      refine ⟨a, ?_, ?_⟩
      · change IsCore _ (Trace.plain .wormholeB0 0 x.1 x.2).src
        rw [b]; unfold IsCore; decide
      · change Reachable _ (Trace.plain .wormholeB0 0 x.1 x.2).src.dev (Trace.plain .wormholeB0 0 x.1 x.2).dst
        rw [b, c]
        exact .rect _ (by unfold OnGrid; decide) (by unfold OnGrid; decide) (by decide) (by decide) rfl)
    5 26 3 600 (by decide +kernel) (by decide) (by decide) (by decide) (by decide) (by decide +kernel)
    (by
      intro t0 h
      rw [small_origin h]
      change ∀ x ∈ Trace.converted [] smallEvents, (Trace.plain .wormholeB0 0 x.1 x.2).offset ≤ _
      decide +kernel) (by decide +kernel) true true "t.json"
  exact ⟨_, wl, r, hmake, h1, h2⟩

end NPE.Props
