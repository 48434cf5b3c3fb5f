import Verif.Props.Mono

/-
Property C135: more to move never makes anything faster.
-/

namespace NPE.Props
open NPE NPE.Spec NPE.Spec.Fluid

/-! ### C135: more packets never make a transfer end earlier -/

/-- Packets of one core over one link. -/
def packets (size n : Nat) (rate : ℚ) : Transfer := Transfer.make size n ⟨0, 0, 0⟩ (.unicast ⟨0, 0, 1⟩) rate 0 .noc0

/-- C135 is violated.  With two packets of 64 bytes instead of one, a transfer has a lower bandwidth than with one packet,
which counts as fast as the peak of the table, and so another transfer of the core ends at cycle 65 instead of cycle 84.
And a transfer that waits for another one ends earlier if that one has more bytes (cause as for C115). -/
theorem C135_violated :
    times Sample.dev ⟨id, id⟩ [packets 64 1 30, packets 1000 1 30] true = some (128, [(0, 6), (0, 84)]) ∧
    times Sample.dev ⟨id, id⟩ [packets 64 2 30, packets 1000 1 30] true = some (128, [(0, 16), (0, 65)]) ∧
    times Sample.dev ⟨id, id⟩ [feed 740, feed 20, feed 3600] true = some (256, [(0, 74), (0, 2), (74, 308)]) ∧
    times Sample.dev ⟨id, id⟩ [feed 900, feed 20, feed 3600] true = some (384, [(0, 90), (0, 2), (90, 270)]) := by
  decide +kernel

/-- The cause of the first violation: in exact arithmetic, more packets of the same size never have more bandwidth. -/
theorem C135_bandwidth (dev : Device) (hT : TableOk .exact dev.tbt) (ps n n' : Nat) (hps : 0 < ps) (hn : 0 < n)
    (hle : n ≤ n') : ∃ b b', interpolateBW .exact dev.tbt dev.maxBw ps n = .ok b ∧
      interpolateBW .exact dev.tbt dev.maxBw ps n' = .ok b' ∧ b' ≤ b := by
  obtain ⟨size, bw, hp⟩ := getLast?_peak hT
  obtain ⟨_, _, _, _, _, h6⟩ := interpolateBW_eq hT hp hps hn
  obtain ⟨_, _, _, _, _, k6⟩ := interpolateBW_eq hT hp hps (lt_of_lt_of_le hn hle)
  have hb : steadyAt .exact ps dev.tbt ≤ bw := by
    have hr := hT.rising
    obtain ⟨b, l, e⟩ := hT.first
    have hlast : ((0, 0) :: b :: l : List (Nat × ℚ)).getLast (by simp) = (size, bw) := by
      have hp' : dev.tbt.getLast? = some (size, bw) := hp
      rw [e, List.getLast?_eq_getLast_of_ne_nil (by simp)] at hp'
      exact Option.some.inj hp'
    rw [e] at hr ⊢
    have := steadyAt_le_tight (ps := ps) _ _ hr (tight_exact _)
    rw [hlast] at this
    exact this
  refine ⟨_, _, h6, k6, ?_⟩
  split
  · have e : ∀ m : Nat, blended .exact bw (steadyAt .exact ps dev.tbt) m =
        (1 - (m - 1 : ℚ) / m) * bw + (m - 1 : ℚ) / m * steadyAt .exact ps dev.tbt := fun _ => rfl
    have q : (0 : ℚ) < n := by exact_mod_cast hn
    have q' : (0 : ℚ) < n' := by exact_mod_cast (lt_of_lt_of_le hn hle)
    have hq : (1 : ℚ) / n' ≤ 1 / n := one_div_le_one_div_of_le q (by exact_mod_cast hle)
    have f : (n - 1 : ℚ) / n = 1 - 1 / n := by field_simp
    have f' : (n' - 1 : ℚ) / n' = 1 - 1 / n' := by field_simp
    rw [e, e, f, f']
    nlinarith
  · exact le_rfl

/-- If the injection rate limits the transfer with more packets, both have the same bandwidth. -/
theorem C135_limited (dev : Device) (hT : TableOk .exact dev.tbt) (t u : Transfer) (hps : 0 < t.packetSize)
    (hs : u.packetSize = t.packetSize) (hi : u.injectionRate = t.injectionRate) (hn : 0 < t.numPackets)
    (hle : t.numPackets ≤ u.numPackets)
    (hr : ∀ b, interpolateBW .exact dev.tbt dev.maxBw u.packetSize u.numPackets = .ok b → u.injectionRate ≤ b) :
    own .exact dev u = own .exact dev t := by
  obtain ⟨b, b', h1, h2, h3⟩ := C135_bandwidth dev hT _ _ _ hps hn hle
  rw [← hs] at h2
  unfold own
  rw [h1, h2]
  have := hr b' h2
  simp only
  rw [← hi, min_eq_left this, min_eq_left (le_trans this h3)]

theorem own_packets {dev : Device} (hT : TableOk .exact dev.tbt) {t u : Transfer} (hps : 0 < t.packetSize)
    (hs : u.packetSize = t.packetSize) (hi : u.injectionRate = t.injectionRate) (hn : 0 < t.numPackets)
    (hle : t.numPackets ≤ u.numPackets) : own .exact dev u ≤ own .exact dev t := by
  obtain ⟨b, b', h1, h2, h3⟩ := C135_bandwidth dev hT _ _ _ hps hn hle
  unfold own
  rw [h1, hs, h2, hi]
  exact min_le_min_left _ h3

/-- The counterparts of the transfers, if they wait for nothing. -/
theorem freely_more {fp : FP} {dev : Device} {ho ho' : HashOrder} {wl wl' : Workload} {s0 s0' : Sim}
    (h0 : initSim fp dev ho wl = .ok s0) (h0' : initSim fp dev ho' wl' = .ok s0') (hl : ho'.links = ho.links)
    {f : Nat → Nat} (hE : ∀ (i : Nat) (t : TState), s0.ts[i]? = some t →
      ∃ t', s0'.ts[f i]? = some t' ∧ MoreData t.params t'.params) (hI : Independent s0) (hI' : Independent s0')
    {job job' : Nat → Job} (hd : Describes job s0) (hd' : Describes job' s0') :
    (∀ i, i < s0.ts.length → f i < s0'.ts.length) ∧ Freely s0.ts.length f job job' := by
  have hlt : ∀ i, i < s0.ts.length → f i < s0'.ts.length := fun i hi => by
    obtain ⟨t', a1, _⟩ := hE i _ (List.getElem?_eq_getElem hi)
    exact (List.getElem?_eq_some_iff.mp a1).1
  refine ⟨hlt, fun i hi => ?_, fun i hi => ?_, fun i hi => independent_after hd hI hi,
    fun i hi => independent_after hd' hI' (hlt i hi)⟩
  all_goals
    obtain ⟨t', a1, a2⟩ := hE i _ (List.getElem?_eq_getElem hi)
    have d1 := hd i _ (List.getElem?_eq_getElem hi)
    have d2 := hd' _ _ a1
  · rw [d1.1, d2.1]; exact a2
  · rw [d1.2.1, d2.2.1]
    have r1 := ((initSim_ok h0).1.slots i _ (List.getElem?_eq_getElem hi)).2.1
    have r2 := ((initSim_ok h0').1.slots _ t' a1).2.1
    rw [a2.noc, a2.src, a2.dst, hl, r1] at r2
    exact (Out.ok.inj r2).symm

/-- C135 without congestion, in exact arithmetic: if no transfer waits for another one, more packets of the same size and
further transfers never make a transfer end earlier, whatever happens to the bandwidths.  (Missing: congestion, rounding,
and transfers that wait, where it is violated.) -/
theorem C135_alone_partial (dev : Device) (hT : TableOk .exact dev.tbt) (cpt : Nat)
    (hpos : 0 < cpt) (hcpt : cpt < 4244967296) (golden golden' : GoldenMap) (ho ho' : HashOrder)
    (hl : ho'.links = ho.links) (wl wl' : Workload) (s0 s0' : Sim)
    (h0 : initSim .exact dev ho wl = .ok s0) (h0' : initSim .exact dev ho' wl' = .ok s0')
    (f : Nat → Nat) (hE : ∀ (i : Nat) (t : TState), s0.ts[i]? = some t →
      ∃ t', s0'.ts[f i]? = some t' ∧ MoreData t.params t'.params ∧ t'.params.packetSize = t.params.packetSize ∧
        0 < t.params.packetSize ∧ 0 < t.params.numPackets ∧ t.params.numPackets ≤ t'.params.numPackets)
    (hI : Independent s0) (hI' : Independent s0') (e : Ending) (s' : Sim) (c' : Nat)
    (h : runLoop (simConfig .exact dev cpt golden false) ho wl = .ok e)
    (h' : runLoop (simConfig .exact dev cpt golden' false) ho' wl' = .ok (.finished s' c')) :
    ∃ s c, e = .finished s c ∧ c ≤ c' ∧ ∀ (i : Nat) (t : TState), s.ts[i]? = some t →
      ∃ t', s'.ts[f i]? = some t' ∧ t'.start = t.start ∧ t.endc ≤ t'.endc := by
  obtain ⟨job, hd⟩ := describes_exists h0
  obtain ⟨job', hd'⟩ := describes_exists h0'
  obtain ⟨hlt, F⟩ := freely_more h0 h0' hl (fun i t ht => by
    obtain ⟨t', a1, a2, _⟩ := hE i t ht
    exact ⟨t', a1, a2⟩) hI hI' hd hd'
  refine behind_times (f := f) (n := s0.ts.length) (n' := s0'.ts.length) (job := job) (job' := job')
    (total := fun i => (job i).t.totalBytes) (b := fun k => k * cpt) hlt ?_ hcpt
    ((C111_alone .exact dev cpt hpos hcpt golden ho wl s0 h0 job hd).2 e h)
    ((C111_alone .exact dev cpt hpos hcpt golden' ho' wl' s0' h0' job' hd').2 _ h') (finished_le h')
  intro k hk i hi
  refine F.run_behind (fun curr σ σ' _ _ _ _ i hi => ?_) k hk i hi
  obtain ⟨t', a1, a2, a3, a4, a5, a6⟩ := hE i _ (List.getElem?_eq_getElem hi)
  unfold Fluid.alone
  rw [(hd i _ (List.getElem?_eq_getElem hi)).1, (hd' _ _ a1).1]
  exact own_packets hT a4 a3 a2.injectionRate a5 a6

/-- C135 without congestion, for any rounding: if no transfer waits for another one, no transfer has more bandwidth in the
second workload, and its run ends before cycle 2^24.  (Missing: congestion, later clocks, and transfers that wait, where it
is violated; and that more packets have no more bandwidth, which is proved in exact arithmetic only.) -/
theorem C135_alone_rounded_partial (fp : FP) (dev : Device) (cpt : Nat)
    (hpos : 0 < cpt) (hcpt : cpt < 4244967296) (golden golden' : GoldenMap) (ho ho' : HashOrder)
    (hl : ho'.links = ho.links) (wl wl' : Workload) (s0 s0' : Sim)
    (h0 : initSim fp dev ho wl = .ok s0) (h0' : initSim fp dev ho' wl' = .ok s0')
    (f : Nat → Nat) (hE : ∀ (i : Nat) (t : TState), s0.ts[i]? = some t →
      ∃ t', s0'.ts[f i]? = some t' ∧ MoreData t.params t'.params ∧ own fp dev t'.params ≤ own fp dev t.params)
    (hI : Independent s0) (hI' : Independent s0') (e : Ending) (s' : Sim) (c' : Nat) (hc' : c' < 16777216)
    (h : runLoop (simConfig fp dev cpt golden false) ho wl = .ok e)
    (h' : runLoop (simConfig fp dev cpt golden' false) ho' wl' = .ok (.finished s' c')) :
    ∃ s c, e = .finished s c ∧ c ≤ c' ∧ ∀ (i : Nat) (t : TState), s.ts[i]? = some t →
      ∃ t', s'.ts[f i]? = some t' ∧ t'.start = t.start ∧ t.endc ≤ t'.endc := by
  obtain ⟨job, hd⟩ := describes_exists h0
  obtain ⟨job', hd'⟩ := describes_exists h0'
  obtain ⟨hlt, F⟩ := freely_more h0 h0' hl (fun i t ht => by
    obtain ⟨t', a1, a2, _⟩ := hE i t ht
    exact ⟨t', a1, a2⟩) hI hI' hd hd'
  refine trails_times (f := f) (n := s0.ts.length) (n' := s0'.ts.length) (job := job) (job' := job')
    (total := fun i => (job i).t.totalBytes) (total' := fun i => (job' (f i)).t.totalBytes) (b := fun k => k * cpt) hlt ?_
    ((C111_alone fp dev cpt hpos hcpt golden ho wl s0 h0 job hd).2 e h)
    ((C111_alone fp dev cpt hpos hcpt golden' ho' wl' s0' h0' job' hd').2 _ h') hc'
  intro k hk i hi
  refine F.run_trails (R := fp.f32) hlt (fun _ hi => independent_after hd' hI' hi) (fun _ _ i hi => ?_) k hk i hi
  obtain ⟨t', a1, _, a3⟩ := hE i _ (List.getElem?_eq_getElem hi)
  unfold Fluid.alone
  rw [(hd i _ (List.getElem?_eq_getElem hi)).1, (hd' _ _ a1).1]
  exact a3

/-- C135 in exact arithmetic, if no transfer waits for another one and no bandwidth changes: further transfers and more
bytes for some of them never make a transfer end earlier; if the run of the larger workload finishes, that of the smaller
one does, at no later clock.  (Missing: rounding; changed bandwidths and transfers that wait, where it is violated.) -/
theorem C135_partial (dev : Device) (hdev : DeviceOk dev) (hT : TableOk .exact dev.tbt) (hC : Capacities dev) (cpt : Nat)
    (hpos : 0 < cpt) (hcpt : cpt < 4244967296) (golden golden' : GoldenMap) (ho ho' : HashOrder)
    (hl : ho'.links = ho.links) (wl wl' : Workload)
    (hw : ∀ t ∈ wl.transfers, 0 ≤ t.injectionRate ∧ RectsOk t)
    (hw' : ∀ t ∈ wl'.transfers, 0 ≤ t.injectionRate ∧ RectsOk t) (s0 s0' : Sim)
    (h0 : initSim .exact dev ho wl = .ok s0) (h0' : initSim .exact dev ho' wl' = .ok s0')
    (f : Nat → Nat) (hE : Grows .exact dev s0 s0' f) (hI : Independent s0) (hI' : Independent s0')
    (e : Ending) (s' : Sim) (c' : Nat) (h : runLoop (simConfig .exact dev cpt golden true) ho wl = .ok e)
    (h' : runLoop (simConfig .exact dev cpt golden' true) ho' wl' = .ok (.finished s' c')) :
    ∃ s c, e = .finished s c ∧ c ≤ c' ∧ ∀ (i : Nat) (t : TState), s.ts[i]? = some t →
      ∃ t', s'.ts[f i]? = some t' ∧ t'.start = t.start ∧ t.endc ≤ t'.endc := by
  obtain ⟨job, hd⟩ := describes_exists h0
  obtain ⟨job', hd'⟩ := describes_exists h0'
  obtain ⟨hlt, F⟩ := freely_more h0 h0' hl (fun i t ht => by
    obtain ⟨t', a1, a2, _⟩ := hE.more i t ht
    exact ⟨t', a1, a2⟩) hI hI' hd hd'
  have hown : ∀ i, i < s0.ts.length → own .exact dev (job' (f i)).t = own .exact dev (job i).t := by
    intro i hi
    obtain ⟨t', a1, _, a3⟩ := hE.more i _ (List.getElem?_eq_getElem hi)
    rw [(hd i _ (List.getElem?_eq_getElem hi)).1, (hd' _ _ a1).1]
    exact a3
  refine behind_times (f := f) (n := s0.ts.length) (n' := s0'.ts.length) (job := job) (job' := job')
    (total := fun i => (job i).t.totalBytes) (b := fun k => k * cpt) hlt ?_ hcpt
    ((C111_exact dev hdev hT cpt hpos hcpt golden ho wl hw s0 h0 job hd).2 e h)
    ((C111_exact dev hdev hT cpt hpos hcpt golden' ho' wl' hw' s0' h0' job' hd').2 _ h') (finished_le h')
  intro k hk i hi
  exact F.run_behind (fun curr σ σ' _ hA hs hs' i hi => F.shared_le hE.inj hlt hT hC
    le_rfl (fun _ => le_rfl) (fun i hi => (hw _ (describes_mem h0 hd hi)).1)
    (fun i hi => (hw' _ (describes_mem h0' hd' hi)).1) hown hA hs hs' hi) k hk i hi

/-- C135 for any rounding, if no transfer waits for another one, no bandwidth changes, transfers that are scheduled for
the same cycle are in the same order in both workloads, and the run of the larger one ends before cycle 2^24.  (Missing:
later clocks, other orders; changed bandwidths and transfers that wait, where it is violated.) -/
theorem C135_rounded_partial (fp : FP) (dev : Device) (hdev : DeviceOk dev) (hT : TableOk fp dev.tbt) (hC : Capacities dev)
    (cpt : Nat) (hpos : 0 < cpt) (hcpt : cpt < 4244967296) (golden golden' : GoldenMap) (ho ho' : HashOrder)
    (hl : ho'.links = ho.links) (wl wl' : Workload)
    (hw : ∀ t ∈ wl.transfers, 0 ≤ t.injectionRate ∧ RectsOk t)
    (hw' : ∀ t ∈ wl'.transfers, 0 ≤ t.injectionRate ∧ RectsOk t)
    (hr : ∀ t ∈ wl.transfers, fp.f32.Rep t.injectionRate) (hr' : ∀ t ∈ wl'.transfers, fp.f32.Rep t.injectionRate)
    (s0 s0' : Sim) (h0 : initSim fp dev ho wl = .ok s0) (h0' : initSim fp dev ho' wl' = .ok s0')
    (f : Nat → Nat) (hE : Grows fp dev s0 s0' f)
    (hf : ∀ (i j : Nat) (t u : TState), s0.ts[i]? = some t → s0.ts[j]? = some u → t.params.offset = u.params.offset →
      i < j → f i < f j) (hI : Independent s0) (hI' : Independent s0')
    (e : Ending) (s' : Sim) (c' : Nat) (hc' : c' < 16777216)
    (h : runLoop (simConfig fp dev cpt golden true) ho wl = .ok e)
    (h' : runLoop (simConfig fp dev cpt golden' true) ho' wl' = .ok (.finished s' c')) :
    ∃ s c, e = .finished s c ∧ c ≤ c' ∧ ∀ (i : Nat) (t : TState), s.ts[i]? = some t →
      ∃ t', s'.ts[f i]? = some t' ∧ t'.start = t.start ∧ t.endc ≤ t'.endc := by
  obtain ⟨job, hd⟩ := describes_exists h0
  obtain ⟨job', hd'⟩ := describes_exists h0'
  obtain ⟨hlt, F⟩ := freely_more h0 h0' hl (fun i t ht => by
    obtain ⟨t', a1, a2, _⟩ := hE.more i t ht
    exact ⟨t', a1, a2⟩) hI hI' hd hd'
  have hown : ∀ i, i < s0.ts.length → own fp dev (job' (f i)).t = own fp dev (job i).t := by
    intro i hi
    obtain ⟨t', a1, _, a3⟩ := hE.more i _ (List.getElem?_eq_getElem hi)
    rw [(hd i _ (List.getElem?_eq_getElem hi)).1, (hd' _ _ a1).1]
    exact a3
  have hm : ∀ i j, i < s0.ts.length → j < s0.ts.length → (job i).t.offset = (job j).t.offset → i < j → f i < f j := by
    intro i j hi hj he
    have g1 := List.getElem?_eq_getElem hi
    have g2 := List.getElem?_eq_getElem hj
    refine hf i j _ _ g1 g2 ?_
    rw [← (hd i _ g1).1, ← (hd j _ g2).1]; exact he
  refine trails_times (f := f) (n := s0.ts.length) (n' := s0'.ts.length) (job := job) (job' := job')
    (total := fun i => (job i).t.totalBytes) (total' := fun i => (job' (f i)).t.totalBytes) (b := fun k => k * cpt) hlt ?_
    (plan_ends hdev hT hpos hcpt hw h0 hd h) (plan_ends hdev hT hpos hcpt hw' h0' hd' h') hc'
  intro k hk i hi
  exact F.crowd_trails hlt hT hC (link := dev.linkBw) (sink := dev.absRate) le_rfl (fun _ => le_rfl)
    (fun i hi => (hw _ (describes_mem h0 hd hi)).1) (fun i hi => (hw' _ (describes_mem h0' hd' hi)).1)
    (fun i hi => hr _ (describes_mem h0 hd hi)) (fun i hi => hr' _ (describes_mem h0' hd' hi)) hown
    (line_of_init h0 hd fun _ hi => independent_after hd hI hi)
    (line_of_init h0' hd' fun _ hi => independent_after hd' hI' hi) hm hpos k hk i hi

/-- A way to check the hypotheses for given workloads. -/
theorem grows_of_check {fp : FP} {dev : Device} {x y : Out Sim} (h : (match x, y with
    | .ok s, .ok s' => decide (s.ts.length = s'.ts.length) && (s.ts.zip s'.ts).all fun (t, u) =>
        decide (t.dependsOn < 0) && decide (u.dependsOn < 0) && decide (u.params.noc = t.params.noc) &&
        decide (u.params.src = t.params.src) && decide (u.params.dst = t.params.dst) &&
        decide (u.params.injectionRate = t.params.injectionRate) && decide (u.params.offset = t.params.offset) &&
        decide (t.params.totalBytes ≤ u.params.totalBytes) && decide (own fp dev u.params = own fp dev t.params)
    | _, _ => false) = true) :
    ∃ s0 s0', x = .ok s0 ∧ y = .ok s0' ∧ Grows fp dev s0 s0' id := by
  cases x with
  | ok s0 =>
    cases y with
    | ok s0' =>
      simp only [Bool.and_eq_true, decide_eq_true_eq] at h
      refine ⟨s0, s0', rfl, rfl, Function.injective_id, fun i t ht => ?_⟩
      obtain ⟨hi, rfl⟩ := List.getElem?_eq_some_iff.mp ht
      have hi' : i < s0'.ts.length := h.1 ▸ hi
      have hz : (s0.ts[i], s0'.ts[i]) ∈ s0.ts.zip s0'.ts := by
        refine List.mem_iff_getElem.mpr ⟨i, by rw [List.length_zip]; omega, ?_⟩
        rw [List.getElem_zip]
      have := List.all_eq_true.mp h.2 _ hz
      simp only [Bool.and_eq_true, decide_eq_true_eq] at this
      obtain ⟨⟨⟨⟨⟨⟨⟨⟨_, _⟩, a1⟩, a2⟩, a3⟩, a4⟩, a5⟩, a6⟩, a7⟩ := this
      exact ⟨_, List.getElem?_eq_getElem hi', ⟨a1, a2, a3, a4, a5, a6⟩, a7⟩
    | _ => cases h
  | _ => cases h

/-- Three packets of 1000 bytes instead of one, at 20 bytes per cycle: the hypotheses hold, in both arithmetics. -/
example : ∃ s0 s0', initSim .exact Sample.dev ⟨id, id⟩ (Workload.addPhase {} { transfers := [packets 1000 1 20, south, east] }) = .ok s0 ∧
    initSim .exact Sample.dev ⟨id, id⟩ (Workload.addPhase {} { transfers := [packets 1000 3 20, south, east] }) = .ok s0' ∧
    Grows .exact Sample.dev s0 s0' id := grows_of_check (by decide +kernel)

example : ∃ s0 s0', initSim .ieee Sample.dev ⟨id, id⟩ (Workload.addPhase {} { transfers := [packets 1000 1 20, south, east] }) = .ok s0 ∧
    initSim .ieee Sample.dev ⟨id, id⟩ (Workload.addPhase {} { transfers := [packets 1000 3 20, south, east] }) = .ok s0' ∧
    Grows .ieee Sample.dev s0 s0' id := grows_of_check (by decide +kernel)

example : times Sample.dev ⟨id, id⟩ [packets 1000 1 20, south, east] true = some (128, [(0, 120), (0, 77), (0, 56)]) ∧
    times Sample.dev ⟨id, id⟩ [packets 1000 3 20, south, east] true = some (256, [(0, 225), (0, 77), (0, 56)]) ∧
    floatTimes Sample.dev [packets 1000 1 20, south, east] = some (128, [(0, 121), (0, 77), (0, 56)]) ∧
    floatTimes Sample.dev [packets 1000 3 20, south, east] = some (256, [(0, 225), (0, 77), (0, 56)]) := by decide +kernel

/-- Without congestion: nine packets of 64 bytes instead of one. -/
example : times Sample.dev ⟨id, id⟩ [packets 64 1 30, south, east] false = some (128, [(0, 3), (0, 45), (0, 33)]) ∧
    times Sample.dev ⟨id, id⟩ [packets 64 9 30, south, east] false = some (128, [(0, 100), (0, 45), (0, 33)]) := by
  decide +kernel

/-- The bandwidths of one and of two packets of 64 bytes, and of one and of three packets of 1000 bytes at most at 20
bytes per cycle. -/
example : [own .exact Sample.dev (packets 64 1 30), own .exact Sample.dev (packets 64 2 30),
    own .exact Sample.dev (packets 1000 1 20), own .exact Sample.dev (packets 1000 3 20)] = [30, 131 / 8, 20, 20] := by
  decide +kernel

end NPE.Props
