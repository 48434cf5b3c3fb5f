import Verif.Proofs.Finish
import Verif.Model.Api
import Verif.Props.Congestion
import Verif.Props.Route

/-
Properties of the reported statistics: C33, C34, C35, C42, C43.
-/

namespace NPE.Props
open NPE NPE.Spec

/-- All created devices satisfy the hypotheses of the theorems of this file. -/
theorem C33_devices (fp : FP) (name : String) (dev : Device) (h : createDeviceModel fp name = .ok dev) :
    DeviceOk dev ∧ TableOk fp dev.tbt ∧ 0 < dev.linkBw := by
  refine ⟨factory_devices_ok fp name dev h, (C26_devices fp name dev h).2, ?_⟩
  have c1 : ∀ m k, 0 < (wormhole fp m k).linkBw := by intro m k; norm_num [wormhole]
  have c2 : ∀ p, 0 < (blackhole fp p).linkBw := by 
    intro p
    have : (1 : ℚ) ≤ fp.f32.fl (609 / 10) := fp.f32.one_le_fl (by norm_num)
    show 0 < fp.f32.fl (609 / 10)
    linarith
  unfold createDeviceModel at h
  repeat' split at h
  all_goals first | (rw [← Out.ok.inj h]; exact c1 _ _) | (rw [← Out.ok.inj h]; exact c2 _) | simp at h

/-! ### C42: timestep records -/

/-- C42.  At every point of a run there are records for exactly the chips of the device and the
whole mesh. -/
theorem C42_devices (fp : FP) (dev : Device) (hd : DeviceOk dev) (cpt : Nat) (hpos : 0 < cpt)
    (golden : GoldenMap) (congestion : Bool) (ho : HashOrder) (wl : Workload)
    (hon : OnChips dev wl.transfers) (s0 : Sim) (h0 : initSim fp dev ho wl = .ok s0) (c : Nat) (s : Sim)
    (hs : Reach (simConfig fp dev cpt golden congestion) s0 c s) :
    s.stats.map (·.1) = (List.range dev.chips).map (fun (d : Nat) => (d : Int)) ++ [-1] := by
  obtain ⟨h, hi, _⟩ := run_statsInv hd hpos hon h0 hs
  exact hi.keys

/-- C42.  At every point of a run, the records of a device are exactly the simulated timesteps
that end at or after the start of its golden window. -/
theorem C42_records (fp : FP) (dev : Device) (hd : DeviceOk dev) (cpt : Nat) (hpos : 0 < cpt)
    (golden : GoldenMap) (congestion : Bool) (ho : HashOrder) (wl : Workload)
    (hon : OnChips dev wl.transfers) (s0 : Sim) (h0 : initSim fp dev ho wl = .ok s0) (c : Nat) (s : Sim)
    (hs : Reach (simConfig fp dev cpt golden congestion) s0 c s) (d : Int) (ds : DevStats)
    (hm : (d, ds) ∈ s.stats) (g : Nat × Nat) (hg : golden.at d = .ok g) :
    ds.steps.map (fun r => (r.startc, r.endc)) = intervals cpt c g.1 := by
  obtain ⟨h, hi, _⟩ := run_statsInv hd hpos hon h0 hs
  have h1 := hi.steps (d, ds) hm g hg
  simp only at h1
  rw [h1, List.map_map]
  exact List.map_id _

/-- C42.  The records of a device are gap-free: each covers one timestep, each begins where the
previous one ends, the last one ends at the current cycle, and the first one is the first timestep
that reaches the start of the golden window. -/
theorem C42_gap_free (fp : FP) (dev : Device) (hd : DeviceOk dev) (cpt : Nat) (hpos : 0 < cpt)
    (golden : GoldenMap) (congestion : Bool) (ho : HashOrder) (wl : Workload)
    (hon : OnChips dev wl.transfers) (s0 : Sim) (h0 : initSim fp dev ho wl = .ok s0) (c : Nat) (s : Sim)
    (hs : Reach (simConfig fp dev cpt golden congestion) s0 c s) (d : Int) (ds : DevStats)
    (hm : (d, ds) ∈ s.stats) (g : Nat × Nat) (hg : golden.at d = .ok g) :
    (∀ r ∈ ds.steps, r.endc = r.startc + cpt ∧ g.1 ≤ r.endc) ∧
    (∀ (k : Nat) r r', ds.steps[k]? = some r → ds.steps[k + 1]? = some r' → r'.startc = r.endc) ∧
    (∀ r, ds.steps.head? = some r → r.startc = 0 ∨ r.startc < g.1) ∧
    (∀ r, ds.steps.getLast? = some r → r.endc = c) ∧ (0 < c → g.1 ≤ c → ds.steps ≠ []) := by
  have h1 := C42_records fp dev hd cpt hpos golden congestion ho wl hon s0 h0 c s hs d ds hm g hg
  have hdvd : cpt ∣ c := hs.dvd
  rw [intervals_eq hpos] at h1
  have hget : ∀ (k : Nat) r, ds.steps[k]? = some r →
      r.startc = (firstIdx cpt g.1 + k) * cpt ∧ r.endc = (firstIdx cpt g.1 + k + 1) * cpt ∧
        k < c / cpt - firstIdx cpt g.1 := by
    intro k r hr
    have h2 := congrArg (·[k]?) h1
    simp only [List.getElem?_map, hr, Option.map_some] at h2
    cases hk : (List.range' (firstIdx cpt g.1) (c / cpt - firstIdx cpt g.1))[k]? with
    | none => rw [hk] at h2; simp at h2
    | some j =>
      rw [hk] at h2
      obtain ⟨hlt, hj⟩ := List.getElem?_eq_some_iff.mp hk
      rw [List.getElem_range', Nat.one_mul] at hj
      rw [List.length_range'] at hlt
      simp only [Option.map_some, Option.some.injEq, Prod.mk.injEq] at h2
      rw [hj]
      exact ⟨h2.1, h2.2, hlt⟩
  have hlen : ds.steps.length = c / cpt - firstIdx cpt g.1 := by
    have := congrArg List.length h1
    simpa using this
  have hf : ∀ k, g.1 ≤ (firstIdx cpt g.1 + k + 1) * cpt := fun k =>
    (firstIdx_iff hpos).mpr (Nat.le_add_right _ _)
  refine ⟨?_, ?_, ?_, ?_, ?_⟩
  · intro r hr
    obtain ⟨k, hk⟩ := List.mem_iff_getElem?.mp hr
    obtain ⟨a, b, _⟩ := hget k r hk
    rw [a, b]
    exact ⟨by ring, hf k⟩
  · intro k r r' hr hr'
    rw [(hget k r hr).2.1, (hget (k + 1) r' hr').1, Nat.add_assoc]
  · intro r hr
    rw [List.head?_eq_getElem?] at hr
    rw [(hget 0 r hr).1]
    rcases Nat.eq_zero_or_pos (firstIdx cpt g.1) with h | h
    · left; rw [h]; simp
    · right
      have : ¬ firstIdx cpt g.1 ≤ firstIdx cpt g.1 - 1 := by omega
      rw [← firstIdx_iff hpos] at this
      rw [Nat.sub_add_cancel h] at this
      simpa using this
  · intro r hr
    rw [List.getLast?_eq_getElem?] at hr
    obtain ⟨a, b, hlt⟩ := hget _ r hr
    rw [b, hlen]
    have : firstIdx cpt g.1 + (c / cpt - firstIdx cpt g.1 - 1) + 1 = c / cpt := by
      rw [hlen] at hlt; omega
    rw [this, Nat.div_mul_cancel hdvd]
  · intro hc hle hnil
    rw [hnil] at hlen
    simp only [List.length_nil] at hlen
    obtain ⟨n, rfl⟩ := hdvd
    rw [Nat.mul_div_cancel_left _ hpos] at hlen
    have hn : 0 < n := Nat.pos_of_mul_pos_left hc |> fun _ => by
      rcases Nat.eq_zero_or_pos n with rfl | h
      · simp at hc
      · exact h
    have : firstIdx cpt g.1 ≤ n - 1 := by
      rw [← firstIdx_iff hpos, Nat.sub_add_cancel hn, Nat.mul_comm]; exact hle
    omega

/-- Start and end of the records of every device in a state. -/
def recordsOf (st : Stats) : List (Int × List (Nat × Nat)) :=
  st.map fun e => (e.1, e.2.steps.map fun r => (r.startc, r.endc))

/-- The sample device with another golden window for the chip. -/
def windowed (gs : Nat) (ts : List Transfer) : Workload :=
  (Workload.addPhase {} { transfers := ts }).setGoldenResultCycles [(0, (gs, 1000)), (-1, (0, 1000))]

/-- The result of a run of the sample device. -/
def sampleRun (gs : Nat) (ts : List Transfer) (congestion : Bool) : Option Stats :=
  match runSingle .exact Sample.dev ⟨id, id⟩ 128 congestion (windowed gs ts) with
  | .ok (.inl (_, st)) => some st
  | _ => none

example : (match Sample.after [Sample.tr 300 0] false 3 with
    | .ok s => recordsOf s.stats | _ => []) =
    [(0, [(0, 128), (128, 256), (256, 384)]), (-1, [(0, 128), (128, 256), (256, 384)])] := by
  decide +kernel

/-! ### C33: percentages -/

/-- C33, timesteps.  At every point of a run all records satisfy `Percentages`. -/
theorem C33_timesteps (fp : FP) (dev : Device) (hd : DeviceOk dev) (hT : TableOk fp dev.tbt)
    (hbw : 0 < dev.linkBw) (cpt : Nat) (hpos : 0 < cpt) (golden : GoldenMap) (congestion : Bool)
    (ho : HashOrder) (wl : Workload) (hon : OnChips dev wl.transfers)
    (hinj : ∀ t ∈ wl.transfers, 0 ≤ t.injectionRate) (s0 : Sim)
    (h0 : initSim fp dev ho wl = .ok s0) (c : Nat) (s : Sim)
    (hs : Reach (simConfig fp dev cpt golden congestion) s0 c s) (d : Int) (ds : DevStats)
    (hm : (d, ds) ∈ s.stats) (r : TimestepStats) (hr : r ∈ ds.steps) : Percentages r := by
  obtain ⟨h, hi, hgood⟩ := run_statsInv_good hd hT hpos hon hinj h0 hs
  have hdev : d = MESH_DEVICE ∨ (0 ≤ d ∧ d < dev.chips) := by
    have := List.mem_map_of_mem (f := (·.1)) hm
    rw [hi.keys, List.mem_append] at this
    rcases this with h | h
    · exact Or.inr (mem_deviceIDs.mp h)
    · exact Or.inl (List.mem_singleton.mp h)
  have hc : 0 < c := by
    have hor : 0 < c ∨ s = s0 := by
      cases hs with
      | start => exact Or.inr rfl
      | step => exact Or.inl (Nat.add_pos_right _ hpos)
    refine hor.resolve_right fun he => ?_
    rw [he, (initSim_ok h0).1.stats] at hm
    unfold Stats.init at hm
    obtain ⟨_, _, he⟩ := List.mem_map.mp hm
    rw [← (Prod.mk.inj he).2] at hr
    simp at hr
  obtain ⟨g, hg⟩ := hi.golden hc (d, ds) hm
  have h1 := hi.steps (d, ds) hm g hg
  simp only at h1
  rw [h1] at hr
  obtain ⟨i, _, rfl⟩ := List.mem_map.mp hr
  exact summarize_percentages hd hbw (hgood _) _ hdev _ _

/-- The percentages of the records of the sample device. -/
def percentages (ts : List Transfer) : List (List (ℚ × ℚ × ℚ × ℚ)) :=
  match sampleRun 0 ts true with
  | some st => st.map fun e => e.2.steps.map fun r =>
      (r.avgLinkUtil, r.avgLinkDemand, r.maxLinkDemand, r.avgMcastUtil)
  | none => []

example : (percentages [Sample.tr 300 0, Sample.tr 300 64]).map (·.take 3) =
    [[(5 / 16, 5 / 16, 5, 0), (5 / 12, 5 / 12, 20 / 3, 0), (5 / 12, 5 / 12, 20 / 3, 0)],
     [(5 / 16, 5 / 16, 5, 0), (5 / 12, 5 / 12, 20 / 3, 0), (5 / 12, 5 / 12, 20 / 3, 0)]] := by
  decide +kernel

theorem percentages_zero : Percentages {} := by constructor <;> norm_num

/-- C33, results.  The records of the returned statistics satisfy `Percentages`. -/
theorem C33_results (fp : FP) (dev : Device) (hd : DeviceOk dev) (hT : TableOk fp dev.tbt)
    (hbw : 0 < dev.linkBw) (cpt : Nat) (hpos : 0 < cpt) (congestion : Bool)
    (ho : HashOrder) (wl : Workload) (hon : OnChips dev wl.transfers)
    (hinj : ∀ t ∈ wl.transfers, 0 ≤ t.injectionRate) (s : Sim) (st : Stats)
    (h : runSingle fp dev ho cpt congestion wl = .ok (.inl (s, st))) (d : Int) (ds : DevStats)
    (hm : (d, ds) ∈ st) (r : TimestepStats) (hr : r ∈ ds.steps) : Percentages r := by
  obtain ⟨s0, c, h0, _, _, hs, _, _, hf⟩ := runSingle_ok h
  obtain ⟨e, he, hk, g, _, _, _, _, _, h5⟩ := forall2_mem (finish_ok hf) hm
  simp only at h5
  rw [h5] at hr
  split at hr
  · simp at hr
  · unfold Stats.resize at hr
    rcases List.mem_append.mp hr with hr | hr
    · exact C33_timesteps fp dev hd hT hbw cpt hpos wl.golden congestion ho wl hon hinj s0 h0 c s hs
        e.1 e.2 he r (List.mem_of_mem_take hr)
    · rw [(List.mem_replicate.mp hr).2]; exact percentages_zero

theorem avgOver_num {steps : List TimestepStats} (h : steps ≠ []) (f : TimestepStats → ℚ) :
    avgOver steps f = .num ((steps.map f).sum / steps.length) := by
  unfold avgOver fdiv
  rw [if_neg]
  have : steps.length ≠ 0 := fun hc => h (List.length_eq_zero_iff.mp hc)
  exact_mod_cast this

theorem maxOver_le {steps : List TimestepStats} {f : TimestepStats → ℚ} {b : ℚ} (hb : 0 ≤ b)
    (h : ∀ r ∈ steps, f r ≤ b) : 0 ≤ maxOver steps f ∧ maxOver steps f ≤ b ∧
      ∀ r ∈ steps, f r ≤ maxOver steps f := by
  have key : ∀ (l : List TimestepStats) (m : ℚ), m ≤ b → (∀ r ∈ l, f r ≤ b) →
      m ≤ l.foldl (fun m r => max m (f r)) m ∧ l.foldl (fun m r => max m (f r)) m ≤ b ∧
        ∀ r ∈ l, f r ≤ l.foldl (fun m r => max m (f r)) m := by
    intro l
    induction l with
    | nil => intro m hm _; simp [hm]
    | cons a l ih =>
      intro m hm hl
      obtain ⟨h1, h2, h3⟩ := ih (max m (f a)) (max_le hm (hl a (by simp))) fun r hr => hl r (by simp [hr])
      refine ⟨le_trans (le_max_left _ _) h1, h2, ?_⟩
      intro r hr
      rcases List.mem_cons.mp hr with rfl | hr
      · exact le_trans (le_max_right _ _) h1
      · exact h3 r hr
  exact key steps 0 hb h

/-- Full statement of C33, summaries: for every device of every report the average multicast write
utilisation, link utilisation and link demand are numbers in this order, and the average and the
largest utilisation lie between 0 and 100.

It fails for devices without a timestep record (`C33_violated`); this theorem needs a record. -/
theorem C33_overall_partial (fp : FP) (dev : Device) (hd : DeviceOk dev) (hT : TableOk fp dev.tbt)
    (hbw : 0 < dev.linkBw) (cpt : Nat) (hpos : 0 < cpt) (congestion : Bool)
    (ho : HashOrder) (wl : Workload) (hon : OnChips dev wl.transfers)
    (hinj : ∀ t ∈ wl.transfers, 0 ≤ t.injectionRate) (s : Sim) (st : Stats)
    (h : runSingle fp dev ho cpt congestion wl = .ok (.inl (s, st))) (rep : Report)
    (hrep : st.report dev wl = .ok rep) (d : Int) (r : DevReport) (hm : (d, r) ∈ rep)
    (hsteps : r.stats.steps ≠ []) :
    ∃ m u dm : ℚ, r.summary.avgMcastUtil = .num m ∧ r.summary.avgLinkUtil = .num u ∧
      r.summary.avgLinkDemand = .num dm ∧ 0 ≤ m ∧ m ≤ u ∧ u ≤ dm ∧ u ≤ r.summary.maxLinkUtil ∧
      r.summary.maxLinkUtil ≤ 100 := by
  unfold Stats.report at hrep
  rw [Out.mapM_eq_ok] at hrep
  obtain ⟨e, he, h1⟩ := forall2_mem hrep hm
  obtain ⟨sm, h2, h1⟩ := Out.bind_eq_ok.mp h1
  simp only [Out.pure_eq, Out.ok.injEq, Prod.mk.injEq] at h1
  obtain ⟨h1, h3⟩ := h1
  unfold computeSummary at h2
  obtain ⟨bytes, _, h2⟩ := Out.bind_eq_ok.mp h2
  obtain ⟨eth, _, h2⟩ := Out.bind_eq_ok.mp h2
  simp only [Out.pure_eq, Out.ok.injEq] at h2
  have es : e.2.steps = r.stats.steps := by rw [← h3]
  have hsum : r.summary = sm := by rw [← h3]
  rw [hsum, ← h2]
  simp only
  rw [es, avgOver_num hsteps, avgOver_num hsteps, avgOver_num hsteps]
  have P : ∀ x ∈ r.stats.steps, Percentages x := fun x hx => by
    rw [← es] at hx
    exact C33_results fp dev hd hT hbw cpt hpos congestion ho wl hon hinj s st h e.1 e.2 he x hx
  have hlen : (0 : ℚ) < r.stats.steps.length := by
    have : 0 < r.stats.steps.length := List.length_pos_iff.mpr hsteps
    exact_mod_cast this
  have hmx := maxOver_le (b := 100) (by norm_num) (f := (·.avgLinkUtil)) fun x hx => (P x hx).util_100
  refine ⟨_, _, _, rfl, rfl, rfl, ?_, ?_, ?_, ?_, hmx.2.1⟩
  · refine div_nonneg (List.sum_nonneg ?_) hlen.le
    intro x hx
    obtain ⟨y, hy, rfl⟩ := List.mem_map.mp hx
    exact (P y hy).mcast_nonneg
  · exact div_le_div_of_nonneg_right (sum_le_sum' fun x hx => (P x hx).mcast_le) hlen.le
  · exact div_le_div_of_nonneg_right (sum_le_sum' fun x hx => (P x hx).util_le) hlen.le
  · rw [div_le_iff₀ hlen]
    exact sum_le_card fun x hx => hmx.2.2 x hx

/-- Devices without a record: the averages of the summary are not numbers. -/
theorem C33_no_records (dev : Device) (wl : Workload) (st : Stats) (rep : Report)
    (hrep : st.report dev wl = .ok rep) (d : Int) (r : DevReport) (hm : (d, r) ∈ rep)
    (hsteps : r.stats.steps = []) :
    r.summary.avgMcastUtil = .nan ∧ r.summary.avgLinkUtil = .nan ∧ r.summary.avgLinkDemand = .nan := by
  unfold Stats.report at hrep
  rw [Out.mapM_eq_ok] at hrep
  obtain ⟨e, he, h1⟩ := forall2_mem hrep hm
  obtain ⟨sm, h2, h1⟩ := Out.bind_eq_ok.mp h1
  simp only [Out.pure_eq, Out.ok.injEq, Prod.mk.injEq] at h1
  obtain ⟨h1, h3⟩ := h1
  unfold computeSummary at h2
  obtain ⟨bytes, _, h2⟩ := Out.bind_eq_ok.mp h2
  obtain ⟨eth, _, h2⟩ := Out.bind_eq_ok.mp h2
  simp only [Out.pure_eq, Out.ok.injEq] at h2
  have es : e.2.steps = r.stats.steps := by rw [← h3]
  have hsum : r.summary = sm := by rw [← h3]
  rw [hsum, ← h2]
  simp only
  rw [es, hsteps]
  exact ⟨rfl, rfl, rfl⟩

/-- Two chips of two by two cores. -/
def twoChips : Device := { wormhole .exact true 2 with rows := 2, cols := 2 }

/-- A workload for two chips. -/
def twoWl (ts : List Transfer) : Workload :=
  (Workload.addPhase {} { transfers := ts }).setGoldenResultCycles
    [(0, (0, 1000)), (1, (0, 1000)), (-1, (0, 1000))]

/-- The report of a run with congestion. -/
def twoReport (ts : List Transfer) : Option Report :=
  match runSingle .exact twoChips ⟨id, id⟩ 128 true (twoWl ts) with
  | .ok (.inl (_, st)) => match st.report twoChips (twoWl ts) with
    | .ok r => some r
    | _ => none
  | _ => none

/-- C33 is violated for summaries: a chip without transfers gets NaN. -/
theorem C33_violated : (twoReport [Sample.tr 300 0]).map (fun r => r.map fun e =>
    (e.1, e.2.summary.avgLinkUtil)) =
    some [(0, .num (5 / 32)), (1, .nan), (-1, .num (5 / 64))] := by decide +kernel

/-! ### C34: mesh and devices -/

/-- Sum of a value over the chips. -/
def overChips (dev : Device) (f : Nat → ℚ) : ℚ := ((List.range dev.chips).map f).sum

/-- The records `r` of the mesh and `rs d` of chip `d` describe the same timestep of a state. -/
def SameTimestep (dev : Device) (s : Sim) (r : TimestepStats) (rs : Nat → TimestepStats) : Prop :=
  (∃ ds, (-1, ds) ∈ s.stats ∧ r ∈ ds.steps) ∧
  ∀ d : Nat, d < dev.chips → (rs d).startc = r.startc ∧ ∃ ds, ((d : Int), ds) ∈ s.stats ∧ rs d ∈ ds.steps

theorem sameTimestep_summarize {fp : FP} {dev : Device} (hd : DeviceOk dev) {cpt : Nat} (hpos : 0 < cpt)
    {golden : GoldenMap} {congestion : Bool} {ho : HashOrder} {wl : Workload}
    (hon : OnChips dev wl.transfers) {s0 : Sim} (h0 : initSim fp dev ho wl = .ok s0) {c : Nat} {s : Sim}
    (hs : Reach (simConfig fp dev cpt golden congestion) s0 c s) {r : TimestepStats}
    {rs : Nat → TimestepStats} (h : SameTimestep dev s r rs) :
    ∃ g live a b, Sized dev g ∧
      r = Stats.summarize dev (linksOf dev g) (niusOf dev g) g live MESH_DEVICE { startc := a, endc := b } ∧
      ∀ d : Nat, d < dev.chips → rs d =
        Stats.summarize dev (linksOf dev g) (niusOf dev g) g live d { startc := a, endc := b } := by
  obtain ⟨hist, hi, hsz, _⟩ := run_statsInv hd hpos hon h0 hs
  obtain ⟨⟨ds, hm, hr⟩, hrs⟩ := h
  have hor : 0 < c ∨ s = s0 := by
    cases hs with
    | start => exact Or.inr rfl
    | step => exact Or.inl (Nat.add_pos_right _ hpos)
  have hc : 0 < c := by
    refine hor.resolve_right fun he => ?_
    rw [he, (initSim_ok h0).1.stats] at hm
    unfold Stats.init at hm
    obtain ⟨_, _, he⟩ := List.mem_map.mp hm
    rw [← (Prod.mk.inj he).2] at hr
    simp at hr
  have key : ∀ (d : Int) ds x, (d, ds) ∈ s.stats → x ∈ ds.steps → ∃ a,
      x = record dev hist d (a, a + cpt) := by
    intro d ds x hm hx
    obtain ⟨g, hg⟩ := hi.golden hc (d, ds) hm
    have h1 := hi.steps (d, ds) hm g hg
    simp only at h1
    rw [h1] at hx
    obtain ⟨i, hi', rfl⟩ := List.mem_map.mp hx
    have := (intervals_mem hi').1
    refine ⟨i.1, ?_⟩
    rw [show (i.1, i.1 + cpt) = i from Prod.ext rfl this.symm]
    rfl
  obtain ⟨a, ha⟩ := key _ ds r hm hr
  refine ⟨(hist (a + cpt)).1, (hist (a + cpt)).2, a, a + cpt, hsz _, ha, ?_⟩
  intro d hlt
  obtain ⟨h1, ds', hm', hr'⟩ := hrs d hlt
  obtain ⟨a', ha'⟩ := key _ ds' _ hm' hr'
  have : a' = a := by
    rw [ha, ha'] at h1
    exact h1
  rw [ha', this]
  rfl

/-- Full statement of C34: in every timestep the mesh-wide averages of link demand, link
utilisation and NIU demand are the means of the averages of the chips.

This theorem covers link demand, link utilisation and multicast write utilisation.  The statement
is false for NIU demand (`C34_violated`, `C34_niu`). -/
theorem C34_partial (fp : FP) (dev : Device) (hd : DeviceOk dev) (cpt : Nat) (hpos : 0 < cpt)
    (golden : GoldenMap) (congestion : Bool) (ho : HashOrder) (wl : Workload)
    (hon : OnChips dev wl.transfers) (s0 : Sim) (h0 : initSim fp dev ho wl = .ok s0) (c : Nat) (s : Sim)
    (hs : Reach (simConfig fp dev cpt golden congestion) s0 c s) (r : TimestepStats)
    (rs : Nat → TimestepStats) (h : SameTimestep dev s r rs) :
    r.avgLinkDemand = overChips dev (fun d => (rs d).avgLinkDemand) / dev.chips ∧
    r.avgLinkUtil = overChips dev (fun d => (rs d).avgLinkUtil) / dev.chips ∧
    r.avgMcastUtil = overChips dev (fun d => (rs d).avgMcastUtil) / dev.chips := by
  obtain ⟨g, live, a, b, hg, h1, h2⟩ := sameTimestep_summarize hd hpos hon h0 hs h
  have hch : (dev.chips : ℚ) ≠ 0 := by
    have := hd.chips_pos
    exact_mod_cast (by omega : dev.chips ≠ 0)
  have congr : ∀ f : TimestepStats → ℚ, overChips dev (fun d => f (rs d)) =
      overChips dev fun d => f (Stats.summarize dev (linksOf dev g) (niusOf dev g) g live d
        { startc := a, endc := b }) := by
    intro f
    unfold overChips
    congr 1
    apply List.map_congr_left
    intro d hd
    rw [h2 d (List.mem_range.mp hd)]
  obtain ⟨s1, s2, s3, _⟩ := summarize_chips hd hg live a b
  rw [congr (·.avgLinkDemand), congr (·.avgLinkUtil), congr (·.avgMcastUtil), h1]
  unfold overChips
  rw [s1, s2, s3]
  refine ⟨?_, ?_, ?_⟩ <;> rw [mul_div_cancel_left₀ _ hch]

/-- NIU demand: the mesh-wide average is the sum, not the mean, of the averages of the chips. -/
theorem C34_niu (fp : FP) (dev : Device) (hd : DeviceOk dev) (cpt : Nat) (hpos : 0 < cpt)
    (golden : GoldenMap) (congestion : Bool) (ho : HashOrder) (wl : Workload)
    (hon : OnChips dev wl.transfers) (s0 : Sim) (h0 : initSim fp dev ho wl = .ok s0) (c : Nat) (s : Sim)
    (hs : Reach (simConfig fp dev cpt golden congestion) s0 c s) (r : TimestepStats)
    (rs : Nat → TimestepStats) (h : SameTimestep dev s r rs) :
    r.avgNiuDemand = overChips dev fun d => (rs d).avgNiuDemand := by
  obtain ⟨g, live, a, b, hg, h1, h2⟩ := sameTimestep_summarize hd hpos hon h0 hs h
  obtain ⟨_, _, _, s4⟩ := summarize_chips hd hg live a b
  rw [h1, ← s4]
  unfold overChips
  congr 1
  apply List.map_congr_left
  intro d hd
  rw [h2 d (List.mem_range.mp hd)]

/-- Values of the first record of every device: link demand and NIU demand. -/
def firstRecord (ts : List Transfer) : List (Int × ℚ × ℚ) :=
  match runSingle .exact twoChips ⟨id, id⟩ 128 true (twoWl ts) with
  | .ok (.inl (_, st)) => st.map fun e =>
    (e.1, match e.2.steps with | r :: _ => (r.avgLinkDemand, r.avgNiuDemand) | [] => (0, 0))
  | _ => []

/-- A transfer on the second chip. -/
def onSecond (size : Nat) : Transfer :=
  Transfer.make size 1 ⟨1, 0, 1⟩ (.unicast ⟨1, 1, 1⟩) 1 0 .noc0

/-- C34 is violated for NIU demand on a mesh of two chips: both chips have the
average 5/24 and the mesh has 5/12, the double of their mean. -/
theorem C34_violated : firstRecord [Sample.tr 300 0, onSecond 300] =
    [(0, 5 / 24, 5 / 24), (1, 5 / 24, 5 / 24), (-1, 5 / 24, 5 / 12)] := by decide +kernel

/-! ### C35: estimated cycles -/

/-- C35.  The estimated cycles of a device are the cycles from the start of its golden window to
the last end of a transfer that counts for the device and is scheduled within the window; they are
zero if this end is not after the start of the window.  All transfers have completed by then. -/
theorem C35_estimated (fp : FP) (dev : Device) (hd : DeviceOk dev) (cpt : Nat) (hpos : 0 < cpt)
    (congestion : Bool) (ho : HashOrder) (wl : Workload) (hon : OnChips dev wl.transfers)
    (s : Sim) (st : Stats) (h : runSingle fp dev ho cpt congestion wl = .ok (.inl (s, st)))
    (d : Int) (ds : DevStats) (hm : (d, ds) ∈ st) :
    ∃ gs ge m, wl.golden.at d = .ok (gs, ge) ∧ LastEnd s.ts d (gs, ge) m ∧ ds.completed = true ∧
      (gs ≤ m → ds.estimated + gs = m) ∧ (m ≤ gs → ds.estimated = 0) ∧
      ∀ t ∈ s.ts, t.moved = t.params.totalBytes := by
  obtain ⟨s0, c, h0, _, _, hs, hl, hq, hf⟩ := runSingle_ok h
  obtain ⟨hist, hi, _⟩ := run_statsInv hd hpos hon h0 hs
  obtain ⟨e, he, hk, g, hg, h1, h2, _⟩ := forall2_mem (finish_ok hf) hm
  have hk' : d = e.1 := hk
  have hinv := hs.inv (computeRates_ok fp dev congestion) (init_inv h0)
  refine ⟨g.1, g.2, e.2.worst, by rw [hk']; exact hg, ?_, h1, ?_, ?_, ?_⟩
  · rw [hi.worst e he g hg, ← hk']
    exact lastEnd_spec _ _ _
  · intro hle; simp only at h2; omega
  · intro hle; simp only at h2; omega
  · intro t ht
    obtain ⟨i, ht⟩ := List.mem_iff_getElem?.mp ht
    exact hinv.finished i t ht (by rw [hq]; simp) (by rw [hl]; simp)

/-- C35, mesh: the estimate of the whole mesh covers the estimate of every device whose golden
window lies in that of the mesh. -/
theorem C35_mesh_covers (fp : FP) (dev : Device) (hd : DeviceOk dev) (cpt : Nat) (hpos : 0 < cpt)
    (congestion : Bool) (ho : HashOrder) (wl : Workload) (hon : OnChips dev wl.transfers)
    (s : Sim) (st : Stats) (h : runSingle fp dev ho cpt congestion wl = .ok (.inl (s, st)))
    (d : Int) (ds dm : DevStats) (hm : (d, ds) ∈ st) (hmm : (-1, dm) ∈ st) (g gm : Nat × Nat)
    (hg : wl.golden.at d = .ok g) (hgm : wl.golden.at (-1) = .ok gm) (h1 : gm.1 ≤ g.1)
    (h2 : g.2 ≤ gm.2) : ds.estimated ≤ dm.estimated := by
  obtain ⟨a, b, m, e1, e2, _, e4, e5, _⟩ :=
    C35_estimated fp dev hd cpt hpos congestion ho wl hon s st h d ds hm
  obtain ⟨a', b', m', f1, f2, _, f4, f5, _⟩ :=
    C35_estimated fp dev hd cpt hpos congestion ho wl hon s st h (-1) dm hmm
  rw [hg] at e1
  rw [hgm] at f1
  have eg := Out.ok.inj e1
  have egm := Out.ok.inj f1
  subst eg egm
  simp only at h1 h2
  have hle : m ≤ m' := by
    rcases e2.2 with h0 | ⟨t, ht, hr, he⟩
    · omega
    · rw [← he]
      refine f2.1 t ht ⟨Or.inl rfl, ?_, ?_⟩
      · have := hr.2.1; simp only at this ⊢; omega
      · have := hr.2.2; simp only at this ⊢; omega
  rcases le_total a m with h3 | h3
  · have := e4 h3
    have := f4 (by omega)
    omega
  · have := e5 h3
    omega

/-- The estimated cycles of the sample device. -/
def estimates (gs : Nat) (ts : List Transfer) : Option (List (Int × Nat)) :=
  (sampleRun gs ts false).map fun st => st.map fun e => (e.1, e.2.estimated)

example : estimates 100 [Sample.tr 300 0, Sample.tr 200 150] = some [(0, 250), (-1, 350)] ∧
    estimates 100 [Sample.tr 300 0] = some [(0, 0), (-1, 300)] := by decide +kernel

/-! ### C43: records that are kept -/

/-- Full statement of C43: the records of a device in the returned statistics are exactly the
recorded timesteps that begin before the last relevant completion.

This holds if the golden window starts at a positive multiple of the timestep length
(`C43_aligned_partial`).  Otherwise one record more is kept: the following one, or an invented
empty record if there is none (`C43_violated`).  Missing: runs in which a transfer ends after the
last simulated timestep (see `C18_violated_end_after_clock`). -/
theorem C43_partial (fp : FP) (dev : Device) (hd : DeviceOk dev) (cpt : Nat) (hpos : 0 < cpt)
    (congestion : Bool) (ho : HashOrder) (wl : Workload) (hon : OnChips dev wl.transfers)
    (s : Sim) (st : Stats) (h : runSingle fp dev ho cpt congestion wl = .ok (.inl (s, st)))
    (c : Nat) (hc : runLoop (simConfig fp dev cpt wl.golden congestion) ho wl = .ok (.finished s c))
    (hend : ∀ t ∈ s.ts, t.endc ≤ c) (d : Int) (ds : DevStats) (hm : (d, ds) ∈ st) (g : Nat × Nat)
    (hg : wl.golden.at d = .ok g) (m : Nat) (hlast : LastEnd s.ts d g m) (hgm : g.1 < m) :
    ∃ ds0 extra, (d, ds0) ∈ s.stats ∧
      ds.steps = (ds0.steps.filter fun r => decide (r.startc < m)) ++ extra ∧
      extra.length = (if cpt ∣ g.1 ∧ 0 < g.1 then 0 else 1) ∧ ∀ r ∈ extra, r ∈ ds0.steps ∨ r = {} := by
  obtain ⟨s0, c', h0, hc', _, hs, hl, hq, hf⟩ := runSingle_ok h
  rw [hc'] at hc
  have ec : c' = c := by
    have := Out.ok.inj hc
    injection this
  subst ec
  obtain ⟨hist, hi, _⟩ := run_statsInv hd hpos hon h0 hs
  obtain ⟨⟨d', ds0⟩, he, hk, g', hg', _, _, _, _, h5⟩ := forall2_mem (finish_ok hf) hm
  have hk' : d = d' := hk
  subst hk'
  simp only at hg' h5
  rw [hg] at hg'
  have e := Out.ok.inj hg'
  subst e
  have hw : ds0.worst = m := by
    have := hi.worst (d, ds0) he g hg
    simp only at this
    rw [this]
    exact lastEnd_unique (lastEnd_spec _ _ _) hlast
  have hmc : m ≤ c' := by
    rcases hlast.2 with h | ⟨t, ht, _, he⟩
    · omega
    · rw [← he]; exact hend t ht
  have hsteps := hi.steps (d, ds0) he g hg
  simp only at hsteps
  have hfil : (ds0.steps.filter fun r => decide (r.startc < m)) =
      ds0.steps.take ((m + cpt - 1) / cpt - firstIdx cpt g.1) := by
    rw [hsteps, List.filter_map, ← List.map_take, show (simConfig fp dev cpt wl.golden congestion).cpt = cpt from rfl,
      ← intervals_before hpos]
    rfl
  have hlen : (m + cpt - 1) / cpt - firstIdx cpt g.1 ≤ ds0.steps.length := by
    rw [hsteps, List.length_map, show (simConfig fp dev cpt wl.golden congestion).cpt = cpt from rfl,
      intervals_length hpos]
    apply Nat.sub_le_sub_right
    obtain ⟨n, hn⟩ : cpt ∣ c' := hs.dvd
    have : (m + cpt - 1) / cpt < n + 1 := by
      rw [Nat.div_lt_iff_lt_mul hpos, Nat.add_mul]
      have : n * cpt = c' := by rw [hn, Nat.mul_comm]
      omega
    rw [hn, Nat.mul_div_cancel_left _ hpos]
    omega
  rw [hw, if_neg (by omega), kept_count hpos hgm] at h5
  refine ⟨ds0, (ds0.steps.drop ((m + cpt - 1) / cpt - firstIdx cpt g.1)).take
      (if cpt ∣ g.1 ∧ 0 < g.1 then 0 else 1) ++ List.replicate
      ((m + cpt - 1) / cpt - firstIdx cpt g.1 + (if cpt ∣ g.1 ∧ 0 < g.1 then 0 else 1) -
        ds0.steps.length) ({} : TimestepStats), he, ?_, ?_, ?_⟩
  · rw [hfil, h5]
    unfold Stats.resize
    rw [List.take_add, List.append_assoc]
  · rw [List.length_append, List.length_take, List.length_drop, List.length_replicate]
    split <;> omega
  · intro r hr
    rcases List.mem_append.mp hr with hr | hr
    · exact Or.inl (List.mem_of_mem_drop (List.mem_of_mem_take hr))
    · exact Or.inr (List.mem_replicate.mp hr).2

/-- C43 where the golden window starts at a positive multiple of the timestep length: exactly the
relevant records are kept. -/
theorem C43_aligned_partial (fp : FP) (dev : Device) (hd : DeviceOk dev) (cpt : Nat) (hpos : 0 < cpt)
    (congestion : Bool) (ho : HashOrder) (wl : Workload) (hon : OnChips dev wl.transfers)
    (s : Sim) (st : Stats) (h : runSingle fp dev ho cpt congestion wl = .ok (.inl (s, st)))
    (c : Nat) (hc : runLoop (simConfig fp dev cpt wl.golden congestion) ho wl = .ok (.finished s c))
    (hend : ∀ t ∈ s.ts, t.endc ≤ c) (d : Int) (ds : DevStats) (hm : (d, ds) ∈ st) (g : Nat × Nat)
    (hg : wl.golden.at d = .ok g) (m : Nat) (hlast : LastEnd s.ts d g m) (hgm : g.1 < m)
    (hal : cpt ∣ g.1) (hg0 : 0 < g.1) :
    ∃ ds0, (d, ds0) ∈ s.stats ∧ ds.steps = ds0.steps.filter fun r => decide (r.startc < m) := by
  obtain ⟨ds0, extra, h1, h2, h3, _⟩ := C43_partial fp dev hd cpt hpos congestion ho wl hon s st h c hc hend
    d ds hm g hg m hlast hgm
  rw [if_pos ⟨hal, hg0⟩, List.length_eq_zero_iff] at h3
  rw [h3, List.append_nil] at h2
  exact ⟨ds0, h1, h2⟩

/-- No relevant completion: no record is kept. -/
theorem C43_none (fp : FP) (dev : Device) (hd : DeviceOk dev) (cpt : Nat) (hpos : 0 < cpt)
    (congestion : Bool) (ho : HashOrder) (wl : Workload) (hon : OnChips dev wl.transfers)
    (s : Sim) (st : Stats) (h : runSingle fp dev ho cpt congestion wl = .ok (.inl (s, st)))
    (d : Int) (ds : DevStats) (hm : (d, ds) ∈ st) (g : Nat × Nat)
    (hg : wl.golden.at d = .ok g) (m : Nat) (hlast : LastEnd s.ts d g m) (hgm : m ≤ g.1) :
    ds.steps = [] := by
  obtain ⟨s0, c, h0, _, _, hs, hl, hq, hf⟩ := runSingle_ok h
  obtain ⟨hist, hi, _⟩ := run_statsInv hd hpos hon h0 hs
  obtain ⟨⟨d', ds0⟩, he, hk, g', hg', _, _, _, _, h5⟩ := forall2_mem (finish_ok hf) hm
  have hk' : d = d' := hk
  subst hk'
  simp only at hg' h5
  rw [hg] at hg'
  have e := Out.ok.inj hg'
  subst e
  have hw := hi.worst (d, ds0) he g hg
  simp only at hw
  rw [lastEnd_unique (lastEnd_spec _ _ _) hlast] at hw
  rw [h5, if_pos (by omega)]

/-- C43 is violated: three transfers end by cycle 384, three timesteps are recorded, and a fourth
record from cycle 0 to cycle 0 is invented for the chip, whose window starts at cycle 0. -/
theorem C43_violated : (sampleRun 0 [Sample.tr 300 0] false).map recordsOf =
    some [(0, [(0, 128), (128, 256), (256, 384), (0, 0)]),
      (-1, [(0, 128), (128, 256), (256, 384), (0, 0)])] := by decide +kernel

example : (sampleRun 128 [Sample.tr 300 0, Sample.tr 300 130] false).map recordsOf =
    some [(0, [(0, 128), (128, 256), (256, 384), (384, 512)]),
      (-1, [(0, 128), (128, 256), (256, 384), (384, 512), (0, 0)])] := by decide +kernel

end NPE.Props
