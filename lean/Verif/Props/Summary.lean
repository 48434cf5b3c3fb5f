import Verif.Proofs.Summary
import Verif.Props.Stats

/-
Properties C72 and C73: utilisation of DRAM and ethernet, overall figures and prediction error in the summary.
-/

namespace NPE.Props
open Spec Out

/-- The factory devices have DRAM and ethernet bandwidth. -/
theorem C72_devices (fp : FP) (name : String) (dev : Device) (h : createDeviceModel fp name = .ok dev) :
    0 < chipDramBandwidth dev ∧ 0 < dev.ethBw := by
  have c1 : ∀ m k, 0 < chipDramBandwidth (wormhole fp m k) ∧ 0 < (wormhole fp m k).ethBw := by
    intro m k
    have h1 : (1 : ℚ) ≤ fp.f32.fl (116 / 5) := fp.f32.one_le_fl (by norm_num)
    have h2 : (1 : ℚ) ≤ fp.f32.fl (25 / 2) := fp.f32.one_le_fl (by norm_num)
    constructor
    · show (0 : ℚ) < ((12 : ℕ) : ℚ) * ((fp.f32.fl (116 / 5) + 24) / 2)
      push_cast
      linarith
    · show 0 < fp.f32.fl (25 / 2)
      linarith
  have c2 : ∀ p, 0 < chipDramBandwidth (blackhole fp p) ∧ 0 < (blackhole fp p).ethBw := by
    intro p
    have h0 : fp.f32.fl (27 / 20) ≤ 2 := by
      have := fp.f32.mono (show (27 / 20 : ℚ) ≤ 2 by norm_num)
      have h2 := fp.f32.int_exact 2 (by norm_num)
      push_cast at h2
      rwa [h2] at this
    have h0' : (1 : ℚ) ≤ fp.f32.fl (27 / 20) := fp.f32.one_le_fl (by norm_num)
    have h1 : (1 : ℚ) ≤ 54 / fp.f32.fl (27 / 20) := by
      rw [le_div_iff₀ (by linarith)]; linarith
    have h2 : (1 : ℚ) ≤ fp.f32.fl (fp.f64.fl (54 / fp.f32.fl (27 / 20))) :=
      fp.f32.one_le_fl (fp.f64.one_le_fl h1)
    constructor
    · show (0 : ℚ) < (((if p then 8 else 7 : ℕ)) : ℚ) * ((fp.f32.fl (fp.f64.fl (54 / fp.f32.fl (27 / 20))) +
        fp.f32.fl (fp.f64.fl (54 / fp.f32.fl (27 / 20)))) / 2)
      split <;> push_cast <;> linarith
    · show (0 : ℚ) < 50
      norm_num
  unfold createDeviceModel at h
  repeat' split at h
  all_goals first | (rw [← Out.ok.inj h]; exact c1 _ _) | (rw [← Out.ok.inj h]; exact c2 _) | simp at h

/-- What the summary says about DRAM, with the bandwidth that the code uses. -/
theorem dram_reported {dev : Device} {wl : Workload} {d : Int} {s : DevStats} {m : Summary}
    (hg : EndsOnGrid dev wl.transfers) (hbw : dev.dramBw ≠ 0) (h : computeSummary dev wl d s = .ok m) :
    (s.golden ≠ 0 → m.dramUtil = .num (100 * (dramTraffic dev d wl.transfers / (s.golden * dev.dramBw)))) ∧
    (s.estimated ≠ 0 → m.dramUtilSim = .num (100 * (dramTraffic dev d wl.transfers / (s.estimated * dev.dramBw)))) := by
  unfold computeSummary at h
  simp only at h
  obtain ⟨bs, hb, h⟩ := bind_eq_ok.mp h
  obtain ⟨eth, he, h⟩ := bind_eq_ok.mp h
  have h := Out.ok.inj h
  rw [← h, dram_sum hg hb]
  constructor
  · intro h0
    simp only
    rw [fdiv_num (mul_ne_zero (by exact_mod_cast h0) hbw)]
    rfl
  · intro h0
    simp only
    rw [fdiv_num (mul_ne_zero (by exact_mod_cast h0) hbw)]
    rfl

theorem dramBw_eq {dev : Device} (hd : DeviceOk dev) : dev.dramBw = dev.chips * chipDramBandwidth dev := by
  unfold Device.dramBw chipDramBandwidth
  cases hm : dev.multichip with
  | true => simp
  | false => rw [hd.single hm]; simp

/-- C72, DRAM, whole mesh.  The reported DRAM utilisation of the mesh is the traffic from and to DRAM in percent
of what the banks of all chips can move in the golden window; the simulated utilisation is relative to the
estimated cycles. -/
theorem C72_mesh {dev : Device} (hd : DeviceOk dev) (hbw : 0 < chipDramBandwidth dev) {wl : Workload} {st : Stats}
    {rep : Report} (hg : EndsOnGrid dev wl.transfers) (h : st.report dev wl = .ok rep) {r : DevReport}
    (hr : (-1, r) ∈ rep) :
    (r.stats.golden ≠ 0 → r.summary.dramUtil = .num (100 * (dramTraffic dev (-1) wl.transfers /
      (r.stats.golden * (dev.chips * chipDramBandwidth dev))))) ∧
    (r.stats.estimated ≠ 0 → r.summary.dramUtilSim = .num (100 * (dramTraffic dev (-1) wl.transfers /
      (r.stats.estimated * (dev.chips * chipDramBandwidth dev))))) := by
  have hpos : 0 < dev.dramBw := by
    rw [dramBw_eq hd]
    exact mul_pos (by exact_mod_cast hd.chips_pos) hbw
  rw [← dramBw_eq hd]
  exact dram_reported hg hpos.ne' (report_mem h hr)

/-- C72, DRAM, one chip (missing: boards with several chips).  The reported DRAM utilisation of a chip is the
traffic that starts on the chip in percent of what its banks can move. -/
theorem C72_chip_partial {dev : Device} (hd : DeviceOk dev) (hbw : 0 < chipDramBandwidth dev) (hone : dev.chips = 1)
    {wl : Workload} {st : Stats} {rep : Report} (hg : EndsOnGrid dev wl.transfers) (h : st.report dev wl = .ok rep)
    {d : Int} {r : DevReport} (hr : (d, r) ∈ rep) :
    (r.stats.golden ≠ 0 → r.summary.dramUtil = .num (100 * (dramTraffic dev d wl.transfers /
      (r.stats.golden * chipDramBandwidth dev)))) ∧
    (r.stats.estimated ≠ 0 → r.summary.dramUtilSim = .num (100 * (dramTraffic dev d wl.transfers /
      (r.stats.estimated * chipDramBandwidth dev)))) := by
  have he : dev.dramBw = chipDramBandwidth dev := by rw [dramBw_eq hd, hone]; simp
  rw [← he]
  exact dram_reported hg (by rw [he]; exact hbw.ne') (report_mem h hr)

/-- C72, DRAM, is violated for every chip with DRAM traffic on every board with several chips: the traffic of the
chip is related to the bandwidth of all chips, so the reported utilisation is too small by the number of chips. -/
theorem C72_violated {dev : Device} (hd : DeviceOk dev) (hbw : 0 < chipDramBandwidth dev) (hchips : 1 < dev.chips)
    {wl : Workload} {st : Stats} {rep : Report} (hg : EndsOnGrid dev wl.transfers) (h : st.report dev wl = .ok rep)
    {d : Int} {r : DevReport} (hr : (d, r) ∈ rep) (hgold : r.stats.golden ≠ 0)
    (htraffic : dramTraffic dev d wl.transfers ≠ 0) :
    r.summary.dramUtil ≠ .num (100 * (dramTraffic dev d wl.transfers / (r.stats.golden * chipDramBandwidth dev))) ∧
    r.summary.dramUtil = .num (100 * (dramTraffic dev d wl.transfers /
      (r.stats.golden * chipDramBandwidth dev)) / dev.chips) := by
  have hc : (0 : ℚ) < dev.chips := by exact_mod_cast hd.chips_pos
  have hc1 : (1 : ℚ) < dev.chips := by exact_mod_cast hchips
  have hG : (0 : ℚ) < r.stats.golden := by exact_mod_cast Nat.pos_of_ne_zero hgold
  have hT : (0 : ℚ) < dramTraffic dev d wl.transfers := by exact_mod_cast Nat.pos_of_ne_zero htraffic
  have hpos : 0 < dev.dramBw := by rw [dramBw_eq hd]; exact mul_pos hc hbw
  have h1 := (dram_reported hg hpos.ne' (report_mem h hr)).1 hgold
  have h2 : 100 * ((dramTraffic dev d wl.transfers : ℚ) / (r.stats.golden * dev.dramBw)) =
      100 * (dramTraffic dev d wl.transfers / (r.stats.golden * chipDramBandwidth dev)) / dev.chips := by
    rw [dramBw_eq hd]
    field_simp
  rw [h2] at h1
  refine ⟨?_, h1⟩
  rw [h1]
  intro x
  have x := Dbl.num.inj x
  have hp : 0 < 100 * ((dramTraffic dev d wl.transfers : ℚ) / (r.stats.golden * chipDramBandwidth dev)) := by
    positivity
  have := div_lt_self hp hc1
  linarith

/-- C72, ethernet.  The table lists exactly the ethernet cores that transfers of the device are sent to, each
once, with the bytes sent to it in percent of what an ethernet link can move in the golden window. -/
theorem C72_eth {dev : Device} (hbw : 0 < dev.ethBw) {wl : Workload} {st : Stats} {rep : Report}
    (hg : EndsOnGrid dev wl.transfers) (h : st.report dev wl = .ok rep) {d : Int} {r : DevReport} (hr : (d, r) ∈ rep)
    (hgold : r.stats.golden ≠ 0) :
    (r.summary.ethUtil.map (·.1)).Nodup ∧
    (∀ c, c ∈ r.summary.ethUtil.map (·.1) ↔
      CoreIs dev .eth c ∧ ∃ t ∈ wl.transfers, OfDevice d t ∧ t.dst = .unicast c) ∧
    (∀ e ∈ r.summary.ethUtil,
      e.2 = .num (100 * (writtenTo d e.1 wl.transfers / (r.stats.golden * dev.ethBw)))) := by
  have h' := report_mem h hr
  unfold computeSummary at h'
  simp only at h'
  obtain ⟨bs, hb, h'⟩ := bind_eq_ok.mp h'
  obtain ⟨eth, he, h'⟩ := bind_eq_ok.mp h'
  have h' := Out.ok.inj h'
  have hi := eth_table hg he
  rw [← h']
  simp only
  rw [List.map_map]
  refine ⟨hi.nodup, hi.cores, ?_⟩
  intro e hmem
  obtain ⟨x, hx, hxe⟩ := List.mem_map.mp hmem
  rw [← hxe]
  simp only
  rw [fdiv_num (mul_ne_zero (by exact_mod_cast hgold) hbw.ne'), hi.bytes x hx]
  rfl

/-- C72, ethernet.  The aggregate is the mean of the listed cores. -/
theorem C72_eth_mean {s : Summary} (l : List (Coord × ℚ)) (hne : l ≠ []) (hl : s.ethUtil = l.map fun e => (e.1, .num e.2)) :
    s.aggregateEthUtil = .num ((l.map (·.2)).sum / l.length) := by
  have hf : ∀ (l : List (Coord × ℚ)) (a : ℚ),
      (l.map fun e => (e.1, Dbl.num e.2)).foldl (fun (a : Dbl) e => a.add e.2) (Dbl.num a) =
        .num (a + (l.map (·.2)).sum) := by
    intro l
    induction l with
    | nil => intro a; simp
    | cons e l ih =>
      intro a
      rw [List.map_cons, List.foldl_cons]
      change List.foldl _ (Dbl.num (a + e.2)) _ = _
      rw [ih, List.map_cons, List.sum_cons, add_assoc]
  have hz : (l.length : ℚ) ≠ 0 := by
    have := List.length_pos_iff.mpr hne
    exact_mod_cast this.ne'
  unfold Summary.aggregateEthUtil
  rw [hl, if_neg (by simpa using hne), hf]
  simp only [List.length_map, zero_add]
  exact fdiv_num hz

/-- C72.  The traffic of the mesh is the traffic of its chips. -/
theorem C72_sum {dev : Device} {ts : List Transfer} (hon : OnChips dev ts) :
    dramTraffic dev (-1) ts = ((List.range dev.chips).map fun (d : Nat) => dramTraffic dev d ts).sum := by
  induction ts with
  | nil => simp [dramTraffic]
  | cons t ts ih =>
    have hstep : ∀ d, dramTraffic dev d (t :: ts) = (if OfDevice d t ∧ (CoreIs dev .dram t.src ∨ WritesTo dev .dram t)
        then t.totalBytes else 0) + dramTraffic dev d ts := by
      intro d
      unfold dramTraffic
      by_cases h : OfDevice d t ∧ (CoreIs dev .dram t.src ∨ WritesTo dev .dram t)
      · rw [List.filter_cons_of_pos (by simpa using h), if_pos h]; rfl
      · rw [List.filter_cons_of_neg (by simpa using h), if_neg h, Nat.zero_add]
    rw [hstep, ih fun x hx => hon x (List.mem_cons_of_mem _ hx)]
    simp only [hstep]
    rw [List.sum_map_add]
    congr 1
    obtain ⟨h0, h1⟩ := hon t List.mem_cons_self
    by_cases hx : CoreIs dev .dram t.src ∨ WritesTo dev .dram t
    swap
    · rw [if_neg (fun y => hx y.2)]
      symm
      rw [List.sum_eq_zero]
      intro n hn
      obtain ⟨d, _, rfl⟩ := List.mem_map.mp hn
      rw [if_neg (fun y => hx y.2)]
    rw [if_pos ⟨Or.inl rfl, hx⟩]
    have : ∀ n : Nat, ((List.range n).map fun (d : Nat) => if OfDevice d t ∧ (CoreIs dev .dram t.src ∨ WritesTo dev .dram t)
        then t.totalBytes else 0).sum = if t.src.dev < n then t.totalBytes else 0 := by
      intro n
      induction n with
      | zero => rw [if_neg (by push_cast; omega)]; rfl
      | succ n ihn =>
        rw [List.range_succ, List.map_append, List.sum_append, ihn]
        simp only [List.map_cons, List.map_nil, List.sum_cons, List.sum_nil]
        unfold OfDevice
        by_cases a : t.src.dev < n
        · rw [if_pos a, if_neg (by rintro ⟨y | y, _⟩ <;> omega), if_pos (by push_cast; omega)]; omega
        · by_cases b : t.src.dev = n
          · rw [if_neg a, if_pos ⟨Or.inr b, hx⟩, if_pos (by push_cast; omega)]; omega
          · rw [if_neg a, if_neg (by rintro ⟨y | y, _⟩ <;> omega), if_neg (by push_cast; omega)]; omega
    rw [this, if_pos h1]

/-! ### C73: means, maxima and the prediction error -/

/-- `a` is the mean of `xs`. -/
def IsMean (xs : List ℚ) (a : Dbl) : Prop := ∃ m : ℚ, a = .num m ∧ m * xs.length = xs.sum

/-- `m` is the largest of `xs` and zero. -/
def IsPeak (xs : List ℚ) (m : ℚ) : Prop := 0 ≤ m ∧ (∀ x ∈ xs, x ≤ m) ∧ (m = 0 ∨ m ∈ xs)

theorem avgOver_mean {steps : List TimestepStats} (hne : steps ≠ []) (f : TimestepStats → ℚ) :
    IsMean (steps.map f) (avgOver steps f) := by
  have hz : (steps.length : ℚ) ≠ 0 := by
    have := List.length_pos_iff.mpr hne
    exact_mod_cast this.ne'
  exact ⟨_, fdiv_num hz, by rw [List.length_map]; field_simp⟩

theorem maxOver_peak (steps : List TimestepStats) (f : TimestepStats → ℚ) : IsPeak (steps.map f) (maxOver steps f) := by
  suffices ∀ (l : List TimestepStats) (a : ℚ), a ≤ l.foldl (fun m r => max m (f r)) a ∧
      (∀ x ∈ l, f x ≤ l.foldl (fun m r => max m (f r)) a) ∧
      (l.foldl (fun m r => max m (f r)) a = a ∨ ∃ x ∈ l, l.foldl (fun m r => max m (f r)) a = f x) by
    obtain ⟨h1, h2, h3⟩ := this steps 0
    refine ⟨h1, ?_, ?_⟩
    · intro x hx
      obtain ⟨r, hr, rfl⟩ := List.mem_map.mp hx
      exact h2 r hr
    · rcases h3 with h3 | ⟨x, hx, h3⟩
      · exact Or.inl h3
      · exact Or.inr (by unfold maxOver; rw [h3]; exact List.mem_map_of_mem hx)
  intro l
  induction l with
  | nil => intro a; simp
  | cons r l ih =>
    intro a
    rw [List.foldl_cons]
    obtain ⟨h1, h2, h3⟩ := ih (max a (f r))
    refine ⟨le_trans (le_max_left _ _) h1, ?_, ?_⟩
    · intro x hx
      rcases List.mem_cons.mp hx with rfl | hx
      · exact le_trans (le_max_right _ _) h1
      · exact h2 x hx
    · rcases h3 with h3 | ⟨x, hx, h3⟩
      · rcases max_choice a (f r) with h | h
        · left; rw [h3, h]
        · right; exact ⟨r, List.mem_cons_self, by rw [h3, h]⟩
      · exact Or.inr ⟨x, List.mem_cons_of_mem _ hx, h3⟩

/-- C73.  The overall figures of a device with timestep records are the means and the peaks of the figures of its
records. -/
theorem C73_overall {dev : Device} {wl : Workload} {st : Stats} {rep : Report} (h : st.report dev wl = .ok rep)
    {d : Int} {r : DevReport} (hr : (d, r) ∈ rep) (hne : r.stats.steps ≠ []) :
    IsMean (r.stats.steps.map (·.avgLinkDemand)) r.summary.avgLinkDemand ∧
    IsMean (r.stats.steps.map (·.avgLinkUtil)) r.summary.avgLinkUtil ∧
    IsMean (r.stats.steps.map (·.avgNiuDemand)) r.summary.avgNiuDemand ∧
    IsMean (r.stats.steps.map (·.avgNoc0Demand)) r.summary.avgNoc0Demand ∧
    IsMean (r.stats.steps.map (·.avgNoc0Util)) r.summary.avgNoc0Util ∧
    IsMean (r.stats.steps.map (·.avgNoc1Demand)) r.summary.avgNoc1Demand ∧
    IsMean (r.stats.steps.map (·.avgNoc1Util)) r.summary.avgNoc1Util ∧
    IsMean (r.stats.steps.map (·.avgMcastUtil)) r.summary.avgMcastUtil ∧
    IsPeak (r.stats.steps.map (·.avgLinkDemand)) r.summary.maxLinkDemand ∧
    IsPeak (r.stats.steps.map (·.avgLinkUtil)) r.summary.maxLinkUtil ∧
    IsPeak (r.stats.steps.map (·.avgNiuDemand)) r.summary.maxNiuDemand ∧
    IsPeak (r.stats.steps.map (·.avgNoc0Demand)) r.summary.maxNoc0Demand ∧
    IsPeak (r.stats.steps.map (·.avgNoc1Demand)) r.summary.maxNoc1Demand := by
  have h' := report_mem h hr
  unfold computeSummary at h'
  simp only at h'
  obtain ⟨bs, hb, h'⟩ := bind_eq_ok.mp h'
  obtain ⟨eth, he, h'⟩ := bind_eq_ok.mp h'
  rw [← Out.ok.inj h']
  exact ⟨avgOver_mean hne _, avgOver_mean hne _, avgOver_mean hne _, avgOver_mean hne _, avgOver_mean hne _,
    avgOver_mean hne _, avgOver_mean hne _, avgOver_mean hne _, maxOver_peak _ _, maxOver_peak _ _, maxOver_peak _ _,
    maxOver_peak _ _, maxOver_peak _ _⟩

/-- C73.  The prediction error is the percentage by which the golden cycles have to be increased to get the
estimate. -/
theorem C73_error {dev : Device} {wl : Workload} {st : Stats} {rep : Report} (h : st.report dev wl = .ok rep)
    {d : Int} {r : DevReport} (hr : (d, r) ∈ rep) (hgold : r.stats.golden ≠ 0) :
    ∃ e : ℚ, r.summary.cyclePredictionError = .num e ∧
      (r.stats.golden : ℚ) * (1 + e / 100) = r.stats.estimated := by
  have h' := report_mem h hr
  unfold computeSummary at h'
  simp only at h'
  obtain ⟨bs, hb, h'⟩ := bind_eq_ok.mp h'
  obtain ⟨eth, he, h'⟩ := bind_eq_ok.mp h'
  have hz : (r.stats.golden : ℚ) ≠ 0 := by exact_mod_cast hgold
  rw [← Out.ok.inj h']
  refine ⟨_, fdiv_num hz, ?_⟩
  field_simp
  ring

/-- C73.  A golden window of no cycles gives no number. -/
theorem C73_no_golden {dev : Device} {wl : Workload} {st : Stats} {rep : Report} (h : st.report dev wl = .ok rep)
    {d : Int} {r : DevReport} (hr : (d, r) ∈ rep) (hgold : r.stats.golden = 0) :
    r.summary.cyclePredictionError = if r.stats.estimated = 0 then .nan else .inf := by
  have h' := report_mem h hr
  unfold computeSummary at h'
  simp only at h'
  obtain ⟨bs, hb, h'⟩ := bind_eq_ok.mp h'
  obtain ⟨eth, he, h'⟩ := bind_eq_ok.mp h'
  rw [← Out.ok.inj h']
  simp only [fdiv, hgold, Nat.cast_zero, sub_zero, if_true]
  by_cases hz : r.stats.estimated = 0
  · rw [hz]; simp
  · have : (0 : ℚ) < 100 * r.stats.estimated := by
      have : (0 : ℚ) < r.stats.estimated := by exact_mod_cast Nat.pos_of_ne_zero hz
      linarith
    rw [if_neg this.ne', if_pos this, if_neg hz]

/-- Congestion impact.  The impact is the percentage of the estimated cycles that congestion costs: it is between 0
and 100 if the run without congestion is not slower, and zero exactly if it is as fast. -/
theorem C36_percentage (s : DevStats) (h0 : s.estimatedCongFree ≠ 0) (h1 : s.estimatedCongFree ≤ s.estimated) :
    0 ≤ s.congestionImpact ∧ s.congestionImpact < 100 ∧
    (s.congestionImpact = 0 ↔ s.estimated = s.estimatedCongFree) ∧
    (s.estimated : ℚ) * (1 - s.congestionImpact / 100) = s.estimatedCongFree := by
  have hc : (0 : ℚ) < s.estimatedCongFree := by exact_mod_cast Nat.pos_of_ne_zero h0
  have hle : (s.estimatedCongFree : ℚ) ≤ s.estimated := by exact_mod_cast h1
  have he : (0 : ℚ) < s.estimated := by linarith
  have hne : ¬ (s.estimated = 0 ∨ s.estimatedCongFree = 0) := by omega
  unfold DevStats.congestionImpact
  rw [if_neg hne]
  refine ⟨by apply div_nonneg <;> linarith, by rw [div_lt_iff₀ he]; linarith, ?_, by field_simp; ring⟩
  rw [div_eq_zero_iff]
  constructor
  · rintro (h | h)
    · have : (s.estimated : ℚ) = s.estimatedCongFree := by linarith
      exact_mod_cast this
    · exact absurd h he.ne'
  · intro h; left; rw [h]; ring

example : ({ estimated := 292, estimatedCongFree := 205 } : DevStats).congestionImpact = 8700 / 292 := by
  decide +kernel

/-- On a board of two chips: chip 0 reads 1000 bytes from DRAM, chip 1 sends 250 bytes to its ethernet core. -/
def sampleBoard : Workload :=
  (Workload.addPhase {} { transfers := [
    Transfer.make 1000 1 ⟨0, 0, 0⟩ (.unicast ⟨0, 1, 1⟩) 1 0 .noc0,
    Transfer.make 250 1 ⟨1, 1, 1⟩ (.unicast ⟨1, 0, 1⟩) 1 0 .noc0] })

/-- DRAM and ethernet utilisation with golden windows of 10 cycles. -/
def utilisation (x : Out Report) : Option (List (Int × Dbl × List (Coord × Dbl))) :=
  match x with
  | .ok r => some (r.map fun e => (e.1, e.2.summary.dramUtil, e.2.summary.ethUtil))
  | _ => none

example : CoreIs (wormhole .exact true 2) .dram ⟨0, 0, 0⟩ ∧ CoreIs (wormhole .exact true 2) .eth ⟨1, 0, 1⟩ ∧
    dramTraffic (wormhole .exact true 2) 0 sampleBoard.transfers = 1000 ∧
    dramTraffic (wormhole .exact true 2) 1 sampleBoard.transfers = 0 ∧
    chipDramBandwidth (wormhole .exact true 2) = 1416 / 5 := by decide +kernel

/-- Chip 0 moves 1000 of the 2832 bytes that its banks can move, about 35 percent, and 17 percent are reported. -/
example : utilisation (Stats.report (wormhole .exact true 2) sampleBoard
      [(0, { golden := 10 }), (1, { golden := 10 }), (-1, { golden := 10 })]) =
    some [(0, .num (3125 / 177), []), (1, .num 0, [(⟨1, 0, 1⟩, .num 200)]),
      (-1, .num (3125 / 177), [(⟨1, 0, 1⟩, .num 200)])] := by decide +kernel

/-- Records with an average link demand of 20 and 40: the mean is 30, the peak 40; 10 percent too many cycles. -/
example : (match Stats.report Sample.dev (Sample.wl [Sample.tr 300 0])
      [(0, { golden := 100, estimated := 110, steps := [{ avgLinkDemand := 20 }, { avgLinkDemand := 40 }] })] with
    | .ok r => r.map fun e => (e.2.summary.avgLinkDemand, e.2.summary.maxLinkDemand, e.2.summary.cyclePredictionError)
    | _ => []) = [(.num 30, 40, .num 10)] := by decide +kernel

end NPE.Props
