import Verif.Proofs.Crowd
import Verif.Props.Liveness

/-
Property C22, runs with the congestion model.
-/

namespace NPE.Props
open NPE NPE.Spec

/-- A transfer among `n` is fast enough for `q` bytes per timestep, even if all of them are active and
use the same link, source and sink: with the bandwidth of the table (capped by the injection rate) a
timestep would move `q` bytes, and `128 n q` bytes if the tightest limit (link, source, sink) were the
only factor. -/
def FastInCrowd (fp : FP) (dev : Device) (cpt q n : Nat) (t : Transfer) : Prop :=
  ∃ b lim, interpolateBW fp dev.tbt dev.maxBw t.packetSize t.numPackets = .ok b ∧
    (q : ℚ) ≤ cpt * min t.injectionRate b ∧ (128 * n * q : ℚ) ≤ cpt * min t.injectionRate b * lim ∧
    (n : ℚ) ≤ 65536 * lim ∧ lim ≤ dev.linkBw ∧ lim ≤ t.injectionRate ∧
    ∀ e a, t.dst = .unicast e → dev.getSinkAbsorptionRate e = .ok a → lim ≤ a

theorem factory_cases {fp : FP} {name : String} {dev : Device} (h : createDeviceModel fp name = .ok dev) :
    (∃ m k, dev = wormhole fp m k) ∨ ∃ p, dev = blackhole fp p := by
  unfold createDeviceModel at h
  split_ifs at h
  · exact Or.inl ⟨false, 1, (Out.ok.inj h).symm⟩
  · exact Or.inl ⟨true, 2, (Out.ok.inj h).symm⟩
  · exact Or.inl ⟨true, 8, (Out.ok.inj h).symm⟩
  · exact Or.inr ⟨false, (Out.ok.inj h).symm⟩
  · exact Or.inr ⟨true, (Out.ok.inj h).symm⟩
  · exact Or.inl ⟨true, 36, (Out.ok.inj h).symm⟩
  · exact Or.inl ⟨true, 32, (Out.ok.inj h).symm⟩

theorem fl_le_63 (fp : FP) (x : ℚ) (hx : x ≤ 63) : fp.f32.fl x ≤ 63 := by
  have h1 : fp.f32.fl x ≤ fp.f32.fl ((63 : Nat) : ℚ) := fp.f32.mono (by push_cast; linarith)
  rw [fp.f32.fl_nat (by norm_num)] at h1
  push_cast at h1
  exact h1

theorem wormhole_peak (fp : FP) (m : Bool) (k : Nat) : (wormhole fp m k).maxBw ≤ 63 := by
  simp only [Device.maxBw, wormhole, List.foldl_cons, List.foldl_nil, max_le_iff]
  refine ⟨⟨⟨⟨⟨⟨⟨?_, ?_⟩, ?_⟩, ?_⟩, ?_⟩, ?_⟩, ?_⟩, ?_⟩ <;>
    first | exact fl_le_63 fp _ (by norm_num) | norm_num

theorem blackhole_peak (fp : FP) (p : Bool) : (blackhole fp p).maxBw ≤ 63 := by
  simp only [Device.maxBw, blackhole, List.foldl_cons, List.foldl_nil, max_le_iff]
  refine ⟨⟨⟨⟨⟨⟨⟨⟨⟨?_, ?_⟩, ?_⟩, ?_⟩, ?_⟩, ?_⟩, ?_⟩, ?_⟩, ?_⟩, ?_⟩ <;>
    first | exact fl_le_63 fp _ (by norm_num) | norm_num

/-- The bandwidths of the device models are at most 64 bytes per cycle. -/
theorem factory_peak {fp : FP} {name : String} {dev : Device} (h : createDeviceModel fp name = .ok dev) :
    dev.maxBw * (1 + 1 / 2097152) ≤ 64 := by
  have h1 : dev.maxBw ≤ 63 := by
    rcases factory_cases h with ⟨m, k, e⟩ | ⟨p, e⟩
    · rw [e]; exact wormhole_peak fp m k
    · rw [e]; exact blackhole_peak fp p
  generalize dev.maxBw = x at h1 ⊢
  linarith

theorem reach_clock {cfg : SimCfg} {s0 : Sim} {c : Nat} {s : Sim} (h : Reach cfg s0 c s) :
    c ≤ 50000000 + cfg.cpt := by
  cases h with
  | start => exact Nat.zero_le _
  | step _ hc _ => rcases hc with hc | ⟨hc, _⟩ <;> omega

/-- With the congestion model transfers that are fast enough keep moving. -/
theorem crowd_moves {q : Nat} (hq24 : q ≤ 16777216) {fp : FP} {dev : Device} (hd : DeviceOk dev)
    (hT : TableOk fp dev.tbt) (hmax : dev.maxBw * (1 + 1 / 2097152) ≤ 64)
    (hsmall : dev.rows ≤ 32767 ∧ dev.cols ≤ 32767) {cpt : Nat} (hcpt : cpt ≤ 16777216) {ho : HashOrder}
    (hord : ∀ l, (ho.links l).Perm l) {wl : Workload} (hx : ∀ t ∈ wl.transfers, Executable dev t)
    (hrate : ∀ t ∈ wl.transfers, 0 ≤ t.injectionRate ∧ fp.f32.Rep t.injectionRate)
    (hn : wl.transfers.length ≤ 262144)
    (hfast : ∀ t ∈ wl.transfers, FastInCrowd fp dev cpt q wl.transfers.length t) {s0 : Sim}
    (h0 : initSim fp dev ho wl = .ok s0) : KeepsMoving (simConfig fp dev cpt wl.golden true) s0 q := by
  have hr := C14_device_models fp dev true cpt wl.golden
  have I := (initSim_ok h0).1
  intro c s s' hs h i hi t ht
  obtain ⟨F⟩ := step_facts hr (Nat.le_add_right _ _) (hs.inv hr (init_inv h0)) h
  have hnd : F.P.s1.live.Nodup := (List.nodup_append.mp F.inv1.nodup).2.1
  have hslen : s.ts.length = wl.transfers.length := by
    have := congrArg List.length (hs.stat hr (init_inv h0))
    rw [List.length_map, List.length_map, I.len] at this
    exact this
  have hlen1 : F.P.s1.ts.length = wl.transfers.length := by rw [F.ts1]; simpa using hslen
  have hlive : F.P.s1.live.length ≤ wl.transfers.length := by
    have hsub : F.P.s1.live ⊆ List.range wl.transfers.length := by
      intro j hj
      rw [List.mem_range, ← hlen1]
      exact F.inv1.lt j (List.mem_append_right _ hj)
    have := (hnd.subperm hsub).length_le
    simpa using this
  have hck := reach_clock hs
  have hcfg : (simConfig fp dev cpt wl.golden true).cpt = cpt := rfl
  rw [hcfg] at hck
  have hmem : ∀ j ∈ F.P.s1.live, ∀ t1, F.P.s1.ts[j]? = some t1 → ∃ u, s0.ts[j]? = some u ∧
      u.params = t1.params ∧ u.route = t1.route ∧ t1.start ≤ c + cpt := by
    intro j hj t1 ht1
    obtain ⟨t0, t2, t', h2, M⟩ := F.member_rates hj
    have e2 := F.only2 j t1 t2 ht1 h2
    have es := M.started.start_le.2
    have e3 := M.same
    obtain ⟨u, hu, eu, er, _⟩ := hs.static_get hr (init_inv h0) M.before
    have p1 : t2.params = t1.params := by rw [e2]
    have p2 : t2.route = t1.route := by rw [e2]
    have p3 : t2.start = t1.start := by rw [e2]
    have p4 : t2.params = t0.params := by rw [e3]
    have p5 : t2.route = t0.route := by rw [e3]
    refine ⟨u, hu, by rw [eu, ← p4, p1], by rw [er, ← p5, p2], by rw [← p3]; exact es⟩
  have hi1 : i ∈ F.P.s1.live := (F.mem_live1 i).mpr (Or.inl hi)
  obtain ⟨t1, b, d, a1, a2, a3, a4⟩ := crowd_rates (fp := fp) hd hT hmax hsmall hord (n := wl.transfers.length)
    (sot := c + cpt - cpt) (curr := c + cpt) (by omega) (by omega) (by omega) hnd hlive (by
      intro j hj t1 ht1
      obtain ⟨u, hu, eu, er, es⟩ := hmem j hj t1 ht1
      obtain ⟨m1, m2, _⟩ := I.slots j u hu
      rw [eu] at m1 m2
      rw [er] at m2
      exact ⟨es, (hrate _ m1).1, (hrate _ m1).2, hx _ m1, m2⟩) F.P.rates i hi1
  obtain ⟨u, hu, eu, _⟩ := hmem i hi1 t1 a1
  have hm1 := (I.slots i u hu).1
  rw [eu] at hm1
  obtain ⟨b', lim, f1, f2, f3, f4, f5, f6, f7⟩ := hfast _ hm1
  have hb : b = min t1.params.injectionRate b' := by
    unfold tableBw at a2
    rw [f1, Out.bind_ok] at a2
    exact (Out.ok.inj a2).symm
  rw [← hb] at f2 f3
  have hb0 : 0 ≤ b := (tableBw_ok hT a2).1 (hrate _ hm1).1
  obtain ⟨t0, t2, t', h2, M⟩ := F.member_rates hi1
  have e3 := M.after
  rw [ht] at e3
  have e3 := Option.some.inj e3
  have e4 : t.bw = applyDerate fp dev b d := by
    have h5 : t'.bw = t2.bw := by
      obtain ⟨_, _, _, _, ⟨_, _, e'⟩ | ⟨_, _, _, _, e'⟩⟩ := M.ended <;> rw [e']
    rw [a3] at h2
    rw [e3, h5, ← Option.some.inj h2]
  have hn0 : 0 < wl.transfers.length := List.length_pos_of_mem hm1
  have hnq : (0 : ℚ) < wl.transfers.length := by exact_mod_cast hn0
  have hlim : 0 ≤ lim := by linarith
  have hy : (1 : ℚ) / 4194304 ≤ lim / (64 * wl.transfers.length) := by
    rw [div_le_div_iff₀ (by norm_num) (by positivity)]
    linarith
  show (q : ℚ) ≤ fp.f32.fl (fp.f32.fl cpt * t.bw)
  rw [fp.f32.fl_nat hcpt, e4]
  have hfin : ∀ x : ℚ, (q : ℚ) ≤ x → (q : ℚ) ≤ fp.f32.fl x := fun x hx => by
    have := fp.f32.mono hx
    rwa [fp.f32.fl_nat hq24] at this
  apply hfin
  rcases applyDerate_ge (dev := dev) hb0 hy (a4 lim hlim f5 f6 f7) with e | e
  · rw [e]; exact f2
  · have hc0 : (0 : ℚ) ≤ cpt := by positivity
    refine le_trans ?_ (mul_le_mul_of_nonneg_left e hc0)
    have : (cpt : ℚ) * (b * (lim / (64 * wl.transfers.length) / 2)) = cpt * b * lim / (128 * wl.transfers.length) := by
      field_simp
      ring
    rw [this, le_div_iff₀ (by positivity)]
    linarith

/-- C22 for the device models with congestion: the simulation of every executable workload without
groups, whose transfers are fast enough to move `q` bytes per timestep even if all of them compete for
the same resources, and one of whose deadlines is within the cycle limit, returns statistics. -/
theorem C22_congested (q : Nat) (hq : 0 < q) (hq24 : q ≤ 16777216) (fp : FP) (name : String) (dev : Device)
    (hdev : createDeviceModel fp name = .ok dev) (cpt : Nat) (hpos : 0 < cpt) (hcpt : cpt ≤ 16777216)
    (ho : HashOrder) (hord : ∀ l, (ho.links l).Perm l) (hb : ∀ l, (ho.buckets l).Perm l) (wl : Workload)
    (hw : wl.Dense) (hg : GoldenAll dev wl.golden) (hx : ∀ t ∈ wl.transfers, Executable dev t)
    (hp : ∀ t ∈ wl.transfers, ¬ NamesParent t)
    (hrate : ∀ t ∈ wl.transfers, 0 ≤ t.injectionRate ∧ fp.f32.Rep t.injectionRate)
    (hn : wl.transfers.length ≤ 262144)
    (hfast : ∀ t ∈ wl.transfers, FastInCrowd fp dev cpt q wl.transfers.length t) (latest : Nat)
    (hlatest : ∀ t ∈ wl.transfers, t.offset ≤ latest)
    (hlim : EndsInTime wl q latest cpt) :
    ∃ s st, runSingle fp dev ho cpt true wl = .ok (.inl (s, st)) := by
  obtain ⟨_, hrows, hcols, hmax⟩ := factory_rates hdev
  obtain ⟨hcap, hT⟩ := C26_devices fp _ _ hdev
  have hd := factory_devices_ok fp _ _ hdev
  obtain ⟨s0, h0⟩ := exec_init (fp := fp) hd hord hw hx
  have hon := exec_onChips hx
  have hR := exec_runnable hd ⟨hrows, hcols⟩ hord hg hx hrate h0 true
  obtain ⟨e, he⟩ := runLoop_total hd hT hcap hmax hpos (by omega) hg (en := true) hon h0 hR
  have hr := C14_device_models fp dev true cpt wl.golden
  have hmove := crowd_moves hq24 hd hT (factory_peak hdev) ⟨hrows, hcols⟩ hcpt hord hx hrate hn hfast h0
  obtain ⟨s, c, he', _⟩ := C22_ends q hq _ hr hpos ho hb wl hp s0 h0 hmove latest hlatest hlim e he
  subst he'
  rcases runSingle_total hd hT hcap hmax hpos (by omega) hg hon h0 hR with ⟨s, st, h1, _⟩ | h1
  · exact ⟨s, st, h1⟩
  · unfold runSingle at h1
    rw [he, Out.bind_ok] at h1
    obtain ⟨st, _, h1⟩ := Out.bind_eq_ok.mp h1
    simp at h1

/-- Transfers that are fast enough in a crowd are fast enough alone. -/
theorem FastInCrowd.alone {fp : FP} {dev : Device} {cpt q n : Nat} {t : Transfer} (hq24 : q ≤ 16777216)
    (hcpt : cpt ≤ 16777216) (h : FastInCrowd fp dev cpt q n t) : FastEnough fp dev cpt q t := by
  obtain ⟨b, _, h1, h2, _⟩ := h
  refine ⟨b, h1, ?_⟩
  rw [fp.f32.fl_nat hcpt, ← fp.f32.fl_nat hq24]
  exact fp.f32.mono h2

/-- `runNPE` returns statistics if the workload after pre-processing can be simulated, has no groups, is fast enough
and has one of its deadlines within the cycle limit. -/
theorem runNPE_returns {q : Nat} (hq : 0 < q) (hq24 : q ≤ 16777216) {fp : FP} {cfg : Config} {api : Api}
    (hmake : Api.make fp cfg = .ok api) (hcpt : cfg.cyclesPerTimestep ≤ 16777216) {ho : HashOrder}
    (hord : ∀ l, (ho.links l).Perm l) (hb : ∀ l, (ho.buckets l).Perm l) {wl0 wl : Workload}
    (hpre : api.preprocess fp wl0 = .ok wl) (h2 : wl.Dense) (h3 : ∀ t ∈ wl.transfers, Executable api.dev t)
    (h4 : ∀ t ∈ wl.transfers, 0 ≤ t.injectionRate ∧ fp.f32.Rep t.injectionRate) (hg : GoldenAll api.dev wl.golden)
    (hp : ∀ t ∈ wl.transfers, ¬ NamesParent t) (hn : wl.transfers.length ≤ 262144)
    (hfast : ∀ t ∈ wl.transfers, FastInCrowd fp api.dev cfg.cyclesPerTimestep q wl.transfers.length t)
    {latest : Nat} (hlatest : ∀ t ∈ wl.transfers, t.offset ≤ latest)
    (hlim : EndsInTime wl q latest cfg.cyclesPerTimestep) :
    ∃ r, api.runNPE fp ho wl0 = .ok (.inl r) := by
  obtain ⟨ecfg, hpos, hdev⟩ := make_ok hmake
  obtain ⟨_, hrows, hcols, hmax⟩ := factory_rates hdev
  obtain ⟨hcap, hT⟩ := C26_devices fp _ _ hdev
  have hd := factory_devices_ok fp _ _ hdev
  have key := runSim_total hd hT hcap hmax ⟨hrows, hcols⟩ (by rw [ecfg]; exact hpos)
    (by rw [ecfg]; omega) hord h2 hg h3 h4
  have hsingle : ∀ en, ∃ s st, runSingle fp api.dev ho cfg.cyclesPerTimestep en wl = .ok (.inl (s, st)) := by
    intro en
    cases en with
    | true =>
      exact C22_congested q hq hq24 fp _ _ hdev _ hpos hcpt ho hord hb wl h2 hg h3 hp h4 hn hfast latest
        hlatest hlim
    | false =>
      exact C22_congestion_free q hq fp _ _ hdev _ hpos ho hord hb wl h2 hg h3 hp
        (fun t ht => ⟨(h4 t ht).1, (hfast t ht).alone hq24 hcpt⟩) latest hlatest hlim
  have hsim : ∀ en, ∃ r, api.runSim fp ho en wl = .ok (.inl r) := by
    intro en
    rcases key en with h | h
    · exact h
    · obtain ⟨s, st, hs⟩ := hsingle en
      unfold Api.runSim at h
      rw [ecfg, hs, Out.bind_ok] at h
      obtain ⟨_, _, h⟩ := Out.bind_eq_ok.mp h
      simp at h
  unfold Api.runNPE
  rw [hpre, Out.bind_ok, exec_validate_all h2 h3, Out.bind_ok, if_pos rfl]
  have hperf : ∃ r, api.runPerf fp ho wl = .ok (.inl r) := by
    unfold Api.runPerf
    simp only
    obtain ⟨r, hr⟩ := hsim (decide (api.cfg.congestionModel ≠ "none"))
    obtain ⟨r', hr'⟩ := hsim false
    split
    · rw [hr, Out.bind_ok]
      simp only
      rw [hr', Out.bind_ok]
      exact ⟨_, rfl⟩
    · exact ⟨r, hr⟩
  obtain ⟨r, hr⟩ := hperf
  rw [hr]
  exact ⟨r, rfl⟩

/-- C22 for the public interface: for every device, every configuration with timesteps of at most 2^24
cycles and every workload of executable transfers with golden windows, if the workload after
pre-processing has no groups, is fast enough and has one of its deadlines within the cycle limit, then `runNPE`
returns statistics (`C38_partial` leaves the cycle limit error open). -/
theorem C22_returns (q : Nat) (hq : 0 < q) (hq24 : q ≤ 16777216) (fp : FP) (cfg : Config) (api : Api)
    (hmake : Api.make fp cfg = .ok api) (hcpt : cfg.cyclesPerTimestep ≤ 16777216) (ho : HashOrder)
    (hord : ∀ l, (ho.links l).Perm l) (hb : ∀ l, (ho.buckets l).Perm l)
    (phs : List Phase) (golden : GoldenMap)
    (hgold : ∀ d : Int, 0 ≤ d → d < api.dev.chips → ∃ w, golden.lookup d = some w)
    (hx : ∀ ph ∈ phs, ∀ t ∈ ph.transfers, Executable api.dev t)
    (hrate : cfg.inferInjectionRate = true ∨
      ∀ ph ∈ phs, ∀ t ∈ ph.transfers, 0 ≤ t.injectionRate ∧ fp.f32.Rep t.injectionRate)
    (hscale : cfg.scaleSchedule = 0 ∨ (0 ≤ cfg.scaleSchedule ∧
      ∀ ph ∈ phs, ∀ t ∈ ph.transfers, (t.offset : ℚ) * cfg.scaleSchedule ≤ 4294967295 / 2))
    (wl : Workload) (hpre : api.preprocess fp (buildWith phs golden) = .ok wl)
    (hp : ∀ t ∈ wl.transfers, ¬ NamesParent t) (hn : wl.transfers.length ≤ 262144)
    (hfast : ∀ t ∈ wl.transfers, FastInCrowd fp api.dev cfg.cyclesPerTimestep q wl.transfers.length t)
    (latest : Nat) (hlatest : ∀ t ∈ wl.transfers, t.offset ≤ latest)
    (hlim : EndsInTime wl q latest cfg.cyclesPerTimestep) :
    ∃ r, api.runNPE fp ho (buildWith phs golden) = .ok (.inl r) := by
  obtain ⟨wl', h1, h2, h3, h4, hg⟩ := built_preprocess hmake hgold hx hrate hscale
  rw [hpre] at h1
  have e := Out.ok.inj h1
  subst e
  exact runNPE_returns hq hq24 hmake hcpt hord hb hpre h2 h3 h4 hg hp hn hfast hlatest hlim

/-- Three 64-byte packets and a multicast on a Wormhole card, with congestion: the conditions hold for 5 bytes
per timestep, so the simulation returns statistics. -/
example : ∃ s st, runSingle .exact (wormhole .exact false 1) ⟨id, id⟩ 128 true smallRun = .ok (.inl (s, st)) := by
  refine C22_congested 5 (by decide) (by decide) .exact "wormhole_b0" _ rfl 128 (by decide) (by decide) _
    (fun _ => List.Perm.refl _) (fun _ => List.Perm.refl _) smallRun ?_ ?_ ?_ ?_ ?_ (by decide) ?_ 7 ?_ ?_
  · have h := Workload.Dense.foldl [{ transfers := smallTransfers }] {} Workload.Dense.empty
    exact ⟨h.phaseIds, h.ids, h.gbl, h.phase⟩
  · exact oneGolden _
  · intro t ht
    rcases small_cases t ht with rfl | rfl
    · exact ⟨by decide, by decide, by decide, by unfold IsCore; decide,
        .core _ (by unfold IsCore; decide) rfl, fun h => absurd rfl h⟩
    · exact ⟨by decide, by decide, by decide, by unfold IsCore; decide,
        .rect _ (by unfold OnGrid; decide) (by unfold OnGrid; decide) (by decide) (by decide) rfl,
        fun h => absurd rfl h⟩
  · intro t ht
    rcases small_cases t ht with rfl | rfl <;> exact fun h => absurd h.1 (by decide)
  · intro t ht
    rcases small_cases t ht with rfl | rfl <;> exact ⟨by decide +kernel, rfl⟩
  · have hl : smallRun.transfers.length = 2 := by decide +kernel
    intro t ht
    rw [hl]
    rcases small_cases t ht with rfl | rfl
    · refine ⟨71 / 6, 10, by decide +kernel, by decide +kernel, by decide +kernel, by decide +kernel,
        by decide +kernel, by decide +kernel, ?_⟩
      intro e a he ha
      have he' := Dest.unicast.inj he
      subst he'
      have h1 : (wormhole .exact false 1).getSinkAbsorptionRate ⟨0, 3, 2⟩ = .ok (281 / 10) := by decide +kernel
      rw [show a = 281 / 10 from Out.ok.inj (ha.symm.trans h1)]
      norm_num
    · refine ⟨24, 10, by decide +kernel, by decide +kernel, by decide +kernel, by decide +kernel,
        by decide +kernel, by decide +kernel, ?_⟩
      intro e a he
      exact absurd he (by simp [smallTransfers, Transfer.make])
  · intro t ht
    rcases small_cases t ht with rfl | rfl <;> decide
  · exact Or.inl (by decide +kernel)

end NPE.Props
