import Verif.Proofs.FluidCrowd
import Verif.Props.Fluid
import Verif.Props.Stats

/-
Properties C115 to C117: congestion, further traffic and slower links and sinks never make anything faster.
-/

namespace NPE.Props
open NPE NPE.Spec NPE.Spec.Fluid

/-- Without parents and with at most two transfers of the same queue, no transfer waits for another one. -/
theorem C115_independent (fp : FP) (dev : Device) (ho : HashOrder) (hb : ∀ l, (ho.buckets l).Perm l) (wl : Workload)
    (s0 : Sim) (h0 : initSim fp dev ho wl = .ok s0)
    (hp : ∀ (i : Nat) (t : TState), s0.ts[i]? = some t → ¬ NamesParent t.params)
    (hl : ∀ i j, ¬ TwoBefore (SameLane dev) s0 j i) : Independent s0 := by
  intro i j d h
  obtain ⟨ts, I⟩ := init0 h0
  by_cases hi : i < s0.ts.length
  · exact hl i j ((I.waits_niu hb (List.getElem?_eq_getElem hi) (hp i _ (List.getElem?_eq_getElem hi)) j d).mp h).2
  · obtain ⟨t, _, _, ht, _⟩ := h
    exact hi (List.getElem?_eq_some_iff.mp ht).1

theorem describes_mem {fp : FP} {dev : Device} {ho : HashOrder} {wl : Workload} {s0 : Sim}
    (h0 : initSim fp dev ho wl = .ok s0) {job : Nat → Job} (hd : Describes job s0) {i : Nat} (hi : i < s0.ts.length) :
    (job i).t ∈ wl.transfers := by
  have hg : s0.ts[i]? = some s0.ts[i] := List.getElem?_eq_getElem hi
  rw [(hd i _ hg).1]
  exact ((initSim_ok h0).1.slots i _ hg).1

theorem independent_of_marks {x : Out Sim} (h : (match x with
    | .ok s => s.ts.all fun t => decide (t.dependsOn < 0)
    | _ => false) = true) : ∃ s0, x = .ok s0 ∧ Independent s0 := by
  cases x with
  | ok s0 =>
    refine ⟨s0, rfl, ?_⟩
    rintro i j d ⟨t, _, _, ht, _, _, h0, _⟩
    have := of_decide_eq_true (List.all_eq_true.mp h t (List.mem_of_getElem? ht))
    omega
  | _ => cases h

/-! ### C115: congestion never makes a transfer end earlier -/

/-- Transfers of one core over one link, at 20 bytes per cycle. -/
def feed (bytes : Nat) : Transfer := Transfer.make bytes 1 ⟨0, 0, 0⟩ (.unicast ⟨0, 0, 1⟩) 20 0 .noc0

/-- C115 is violated for transfers that wait for others: without congestion the last of three transfers of a core ends
at cycle 308, with congestion at cycle 280.  The transfer that it waits for ends later with congestion, and so it is
not completed in the timestep in which it starts, where the end is computed from the start of the timestep. -/
theorem C115_violated :
    times Sample.dev ⟨id, id⟩ [feed 1000, feed 20, feed 3600] false = some (256, [(0, 50), (0, 1), (50, 308)]) ∧
    times Sample.dev ⟨id, id⟩ [feed 1000, feed 20, feed 3600] true = some (384, [(0, 100), (0, 2), (100, 280)]) := by
  decide +kernel

/-- C115 in exact arithmetic, if no transfer waits for another one: if the run with congestion finishes, the run without
congestion does, at no later clock; every transfer starts at the same cycle and ends no earlier with congestion than
without.  (Missing: rounding, and transfers that wait, where it is violated.) -/
theorem C115_partial (dev : Device) (hdev : DeviceOk dev) (hT : TableOk .exact dev.tbt) (cpt : Nat)
    (hpos : 0 < cpt) (hcpt : cpt < 4244967296) (golden : GoldenMap) (ho : HashOrder) (wl : Workload)
    (hw : ∀ t ∈ wl.transfers, 0 ≤ t.injectionRate ∧ RectsOk t) (s0 : Sim) (h0 : initSim .exact dev ho wl = .ok s0)
    (hI : Independent s0) (e : Ending) (s' : Sim) (c' : Nat)
    (h : runLoop (simConfig .exact dev cpt golden false) ho wl = .ok e)
    (h' : runLoop (simConfig .exact dev cpt golden true) ho wl = .ok (.finished s' c')) :
    ∃ s c, e = .finished s c ∧ c ≤ c' ∧ ∀ (i : Nat) (t : TState), s.ts[i]? = some t →
      ∃ t', s'.ts[i]? = some t' ∧ t'.start = t.start ∧ t.endc ≤ t'.endc := by
  obtain ⟨job, hd⟩ := describes_exists h0
  have F : Freely s0.ts.length id job job :=
    ⟨fun _ _ => Spec.SameData.more rfl, fun _ _ => rfl, fun _ hi => independent_after hd hI hi, fun _ hi => independent_after hd hI hi⟩
  have E1 : EndsAs s0.ts.length cpt (run id job cpt (alone .exact dev job)) e :=
    (C111_alone .exact dev cpt hpos hcpt golden ho wl s0 h0 job hd).2 e h
  have E2 := (C111_exact dev hdev hT cpt hpos hcpt golden ho wl hw s0 h0 job hd).2 _ h'
  have hA := F.run_behind (cpt := cpt) (speed := alone .exact dev job) (speed' := shared dev job s0.ts.length cpt)
    (fun curr σ σ' _ _ _ _ i hi => shared_le_alone hT (hw _ (describes_mem h0 hd hi)).1)
  exact behind_times (f := id) (fun _ hi => hi) hA hcpt E1 E2 (finished_le h')

/-- C115 for any rounding, if no transfer waits for another one and the run with congestion ends before cycle 2^24.
(Missing: later clocks, and transfers that wait, where it is violated.) -/
theorem C115_rounded_partial (fp : FP) (dev : Device) (hdev : DeviceOk dev) (hT : TableOk fp dev.tbt) (cpt : Nat)
    (hpos : 0 < cpt) (hcpt : cpt < 4244967296) (golden : GoldenMap) (ho : HashOrder) (wl : Workload)
    (hw : ∀ t ∈ wl.transfers, 0 ≤ t.injectionRate ∧ RectsOk t) (hr : ∀ t ∈ wl.transfers, fp.f32.Rep t.injectionRate)
    (s0 : Sim) (h0 : initSim fp dev ho wl = .ok s0)
    (hI : Independent s0) (e : Ending) (s' : Sim) (c' : Nat) (hc' : c' < 16777216)
    (h : runLoop (simConfig fp dev cpt golden false) ho wl = .ok e)
    (h' : runLoop (simConfig fp dev cpt golden true) ho wl = .ok (.finished s' c')) :
    ∃ s c, e = .finished s c ∧ c ≤ c' ∧ ∀ (i : Nat) (t : TState), s.ts[i]? = some t →
      ∃ t', s'.ts[i]? = some t' ∧ t'.start = t.start ∧ t.endc ≤ t'.endc := by
  obtain ⟨job, hd⟩ := describes_exists h0
  have F : Freely s0.ts.length id job job :=
    ⟨fun _ _ => Spec.SameData.more rfl, fun _ _ => rfl, fun _ hi => independent_after hd hI hi, fun _ hi => independent_after hd hI hi⟩
  have E1 : EndsAs s0.ts.length cpt (run fp.f32.fl job cpt (alone fp dev job)) e :=
    (C111_alone fp dev cpt hpos hcpt golden ho wl s0 h0 job hd).2 e h
  obtain ⟨order, _, E2⟩ := C111_shared fp dev hdev hT cpt hpos hcpt golden ho wl hw s0 h0 job hd
  have hA := F.run_trails (R := fp.f32) (cpt := cpt) (n' := s0.ts.length) (fun _ hi => hi) F.free
    (speed := alone fp dev job) (speed' := sharedIn fp dev job cpt order)
    (fun _ _ i hi => sharedIn_le_alone hT (hw _ (describes_mem h0 hd hi)).1 (hr _ (describes_mem h0 hd hi)))
  exact trails_times (f := id) (fun _ hi => hi) hA E1 (E2 _ h') hc'

/-- If all ends are no later, then the estimates are not larger. -/
theorem estimates_le {fp : FP} {dev : Device} (hdev : DeviceOk dev) {cpt : Nat}
    (hpos : 0 < cpt) {ho : HashOrder} {wl : Workload} (hon : OnChips dev wl.transfers)
    {s0 : Sim} (h0 : initSim fp dev ho wl = .ok s0) {en en' : Bool} {s s' : Sim} {st st' : Stats}
    (h : runSingle fp dev ho cpt en wl = .ok (.inl (s, st)))
    (h' : runSingle fp dev ho cpt en' wl = .ok (.inl (s', st')))
    (hall : ∀ (i : Nat) (t : TState), s.ts[i]? = some t →
      ∃ t', s'.ts[i]? = some t' ∧ t'.start = t.start ∧ t.endc ≤ t'.endc) {d : Int} {ds ds' : DevStats}
    (hm : (d, ds) ∈ st) (hm' : (d, ds') ∈ st') : ds.estimated ≤ ds'.estimated := by
  obtain ⟨gs, ge, m, g1, ⟨l1, l2⟩, _, m1, m2, _⟩ := C35_estimated fp dev hdev cpt hpos en ho wl hon s st h d ds hm
  obtain ⟨gs', ge', m', g1', ⟨l1', l2'⟩, _, m1', m2', _⟩ :=
    C35_estimated fp dev hdev cpt hpos en' ho wl hon s' st' h' d ds' hm'
  rw [g1] at g1'
  obtain ⟨e1, e2⟩ := Prod.mk.inj (Out.ok.inj g1')
  subst e1; subst e2
  obtain ⟨x0, c, y0, run1, _, reach1, _⟩ := runSingle_ok h
  obtain ⟨x0', c', y0', run2, _, reach2, _⟩ := runSingle_ok h'
  rw [h0] at y0 y0'
  rw [← Out.ok.inj y0] at reach1
  rw [← Out.ok.inj y0'] at reach2
  have hstat : s'.ts.map stat = s.ts.map stat := by
    rw [reach1.stat (computeRates_ok fp dev en) (init_inv h0), reach2.stat (computeRates_ok fp dev en') (init_inv h0)]
  have hmm : m ≤ m' := by
    rcases l2 with rfl | ⟨t, ht, hr, rfl⟩
    · exact Nat.zero_le _
    · obtain ⟨i, hi⟩ := List.mem_iff_getElem?.mp ht
      obtain ⟨t', hi', _, hle⟩ := hall i t hi
      have hp : t'.params = t.params := by
        have := congrArg (·[i]?) hstat
        simp only [List.getElem?_map, hi, hi', Option.map_some] at this
        exact congrArg Prod.fst (Option.some.inj this)
      exact le_trans hle (l1' t' (List.mem_of_getElem? hi') (by rw [hp]; exact hr))
  by_cases hg : gs ≤ m
  · have := m1 hg; have := m1' (le_trans hg hmm); omega
  · rw [m2 (by omega)]; exact Nat.zero_le _

/-- C115 for the reported estimates: that of a run with congestion is not smaller than that of one without. -/
theorem C115_estimated_partial (dev : Device) (hdev : DeviceOk dev) (hT : TableOk .exact dev.tbt) (cpt : Nat)
    (hpos : 0 < cpt) (hcpt : cpt < 4244967296) (ho : HashOrder) (wl : Workload)
    (hw : ∀ t ∈ wl.transfers, 0 ≤ t.injectionRate ∧ RectsOk t) (hon : OnChips dev wl.transfers)
    (s0 : Sim) (h0 : initSim .exact dev ho wl = .ok s0) (hI : Independent s0) (s s' : Sim) (st st' : Stats)
    (h : runSingle .exact dev ho cpt false wl = .ok (.inl (s, st)))
    (h' : runSingle .exact dev ho cpt true wl = .ok (.inl (s', st'))) (d : Int) (ds ds' : DevStats)
    (hm : (d, ds) ∈ st) (hm' : (d, ds') ∈ st') : ds.estimated ≤ ds'.estimated := by
  obtain ⟨_, c, _, run1, _⟩ := runSingle_ok h
  obtain ⟨_, c', _, run2, _⟩ := runSingle_ok h'
  obtain ⟨_, _, he, _, hall⟩ :=
    C115_partial dev hdev hT cpt hpos hcpt wl.golden ho wl hw s0 h0 hI _ s' c' run1 run2
  obtain ⟨rfl, rfl⟩ := Ending.finished.inj he
  exact estimates_le hdev hpos hon h0 h h' hall hm hm'

/-- The same with any rounding, if the run with congestion ends before cycle 2^24. -/
theorem C115_estimated_rounded_partial (fp : FP) (dev : Device) (hdev : DeviceOk dev) (hT : TableOk fp dev.tbt) (cpt : Nat)
    (hpos : 0 < cpt) (hcpt : cpt < 4244967296) (ho : HashOrder) (wl : Workload)
    (hw : ∀ t ∈ wl.transfers, 0 ≤ t.injectionRate ∧ RectsOk t) (hr : ∀ t ∈ wl.transfers, fp.f32.Rep t.injectionRate)
    (hon : OnChips dev wl.transfers)
    (s0 : Sim) (h0 : initSim fp dev ho wl = .ok s0) (hI : Independent s0) (s s' : Sim) (st st' : Stats)
    (h : runSingle fp dev ho cpt false wl = .ok (.inl (s, st)))
    (h' : runSingle fp dev ho cpt true wl = .ok (.inl (s', st')))
    (h24 : ∀ c, runLoop (simConfig fp dev cpt wl.golden true) ho wl = .ok (.finished s' c) → c < 16777216)
    (d : Int) (ds ds' : DevStats)
    (hm : (d, ds) ∈ st) (hm' : (d, ds') ∈ st') : ds.estimated ≤ ds'.estimated := by
  obtain ⟨_, c, _, run1, _⟩ := runSingle_ok h
  obtain ⟨_, c', _, run2, _⟩ := runSingle_ok h'
  obtain ⟨_, _, he, _, hall⟩ :=
    C115_rounded_partial fp dev hdev hT cpt hpos hcpt wl.golden ho wl hw hr s0 h0 hI _ s' c' (h24 c' run2) run1 run2
  obtain ⟨rfl, rfl⟩ := Ending.finished.inj he
  exact estimates_le hdev hpos hon h0 h h' hall hm hm'

/-- The transfers of the example below, in `float`. -/
example : ∃ s0, initSim .ieee Sample.dev ⟨id, id⟩ (Workload.addPhase {} { transfers := [feed 3000, south, east] }) = .ok s0 ∧
    Independent s0 := independent_of_marks (by decide +kernel)

example :
    let wl := (Workload.addPhase {} { transfers := [feed 3000, south, east] }).setGoldenResultCycles [(0, (0, 1000)), (1, (0, 1000))]
    [false, true].map (fun en => match runLoop (simConfig .ieee Sample.dev 128 wl.golden en) ⟨id, id⟩ wl with
      | .ok (.finished s c) => some (c, s.ts.map fun t => (t.start, t.endc))
      | _ => none) =
    [some (256, [(0, 150), (0, 45), (0, 33)]), some (256, [(0, 225), (0, 77), (0, 56)])] := by decide +kernel

/-- The hypothesis holds for the case below. -/
example : ∃ s0, initSim .exact Sample.dev ⟨id, id⟩ (Workload.addPhase {} { transfers := [feed 3000, south, east] }) = .ok s0 ∧
    Independent s0 := independent_of_marks (by decide +kernel)

/-- Two transfers of one core, and one that shares the sink of the second one. -/
example : times Sample.dev ⟨id, id⟩ [feed 3000, south, east] false = some (256, [(0, 150), (0, 45), (0, 33)]) ∧
    times Sample.dev ⟨id, id⟩ [feed 3000, south, east] true =
      some (256, [(0, 225), (0, 77), (0, 56)]) := by decide +kernel

/-! ### C116: further traffic never makes a transfer end earlier -/

/-- C116 is violated for transfers that wait for others: a fourth transfer of 100 bytes from another core makes the
third one end at cycle 273 instead of cycle 308. -/
theorem C116_violated :
    times Sample.dev ⟨id, id⟩ [feed 740, feed 20, feed 3600] true = some (256, [(0, 74), (0, 2), (74, 308)]) ∧
    times Sample.dev ⟨id, id⟩ [feed 740, feed 20, feed 3600, { feed 100 with src := ⟨0, 1, 1⟩ }] true =
      some (384, [(0, 93), (0, 3), (93, 273), (0, 13)]) := by decide +kernel

/-- C116 in exact arithmetic, if no transfer of either workload waits for another one: if the run of a workload with
further transfers finishes, the run of the smaller workload does, at no later clock; every transfer of the smaller
workload starts at the same cycle in both and ends no earlier with the further transfers.  (Missing: rounding, and
transfers that wait, where it is violated.) -/
theorem C116_partial (dev : Device) (hdev : DeviceOk dev) (hT : TableOk .exact dev.tbt) (hC : Capacities dev) (cpt : Nat)
    (hpos : 0 < cpt) (hcpt : cpt < 4244967296) (golden golden' : GoldenMap) (ho ho' : HashOrder)
    (hl : ho'.links = ho.links) (wl wl' : Workload)
    (hw : ∀ t ∈ wl.transfers, 0 ≤ t.injectionRate ∧ RectsOk t)
    (hw' : ∀ t ∈ wl'.transfers, 0 ≤ t.injectionRate ∧ RectsOk t) (s0 s0' : Sim)
    (h0 : initSim .exact dev ho wl = .ok s0) (h0' : initSim .exact dev ho' wl' = .ok s0')
    (f : Nat → Nat) (hE : Contains s0 s0' f) (hI : Independent s0) (hI' : Independent s0')
    (e : Ending) (s' : Sim) (c' : Nat) (h : runLoop (simConfig .exact dev cpt golden true) ho wl = .ok e)
    (h' : runLoop (simConfig .exact dev cpt golden' true) ho' wl' = .ok (.finished s' c')) :
    ∃ s c, e = .finished s c ∧ c ≤ c' ∧ ∀ (i : Nat) (t : TState), s.ts[i]? = some t →
      ∃ t', s'.ts[f i]? = some t' ∧ t'.start = t.start ∧ t.endc ≤ t'.endc := by
  obtain ⟨job, hd⟩ := describes_exists h0
  obtain ⟨job', hd'⟩ := describes_exists h0'
  have hlt : ∀ i, i < s0.ts.length → f i < s0'.ts.length := fun i hi => embed_lt hE hi
  have F : Freely s0.ts.length f job job' := by
    refine ⟨fun i hi => ?_, fun i hi => ?_, fun i hi => independent_after hd hI hi,
      fun i hi => independent_after hd' hI' (hlt i hi)⟩
    all_goals
      obtain ⟨t', a1, a2, a3⟩ := embed_get h0 h0' hl hE (List.getElem?_eq_getElem hi)
      have d1 := hd i _ (List.getElem?_eq_getElem hi)
      have d2 := hd' _ _ a1
    · rw [d1.1, d2.1]; exact a2.more
    · rw [d1.2.1, d2.2.1]; exact a3
  have hown : ∀ i, i < s0.ts.length → own .exact dev (job' (f i)).t = own .exact dev (job i).t := by
    intro i hi
    obtain ⟨t', a1, a2, _⟩ := embed_get h0 h0' hl hE (List.getElem?_eq_getElem hi)
    rw [(hd i _ (List.getElem?_eq_getElem hi)).1, (hd' _ _ a1).1]
    exact own_same _ dev a2
  refine behind_times (f := f) (n := s0.ts.length) (n' := s0'.ts.length) (job := job) (job' := job')
    (total := fun i => (job i).t.totalBytes) (b := fun k => k * cpt) hlt ?_ hcpt
    ((C111_exact dev hdev hT cpt hpos hcpt golden ho wl hw s0 h0 job hd).2 e h)
    ((C111_exact dev hdev hT cpt hpos hcpt golden' ho' wl' hw' s0' h0' job' hd').2 _ h') (finished_le h')
  intro k hk i hi
  exact F.run_behind (fun curr σ σ' _ hA hs hs' i hi => F.shared_le hE.inj hlt hT hC
    le_rfl (fun _ => le_rfl) (fun i hi => (hw _ (describes_mem h0 hd hi)).1) (fun i hi => (hw' _ (describes_mem h0' hd' hi)).1) hown hA hs hs' hi) k hk i hi

/-- C116 for any rounding, if no transfer of either workload waits for another one, transfers that are scheduled for the
same cycle are in the same order in both workloads, and the run of the larger one ends before cycle 2^24.  (Missing: later
clocks, other orders, and transfers that wait, where it is violated.) -/
theorem C116_rounded_partial (fp : FP) (dev : Device) (hdev : DeviceOk dev) (hT : TableOk fp dev.tbt) (hC : Capacities dev)
    (cpt : Nat) (hpos : 0 < cpt) (hcpt : cpt < 4244967296) (golden golden' : GoldenMap) (ho ho' : HashOrder)
    (hl : ho'.links = ho.links) (wl wl' : Workload)
    (hw : ∀ t ∈ wl.transfers, 0 ≤ t.injectionRate ∧ RectsOk t)
    (hw' : ∀ t ∈ wl'.transfers, 0 ≤ t.injectionRate ∧ RectsOk t)
    (hr : ∀ t ∈ wl.transfers, fp.f32.Rep t.injectionRate) (hr' : ∀ t ∈ wl'.transfers, fp.f32.Rep t.injectionRate)
    (s0 s0' : Sim) (h0 : initSim fp dev ho wl = .ok s0) (h0' : initSim fp dev ho' wl' = .ok s0')
    (f : Nat → Nat) (hE : Contains s0 s0' f)
    (hf : ∀ (i j : Nat) (t u : TState), s0.ts[i]? = some t → s0.ts[j]? = some u → t.params.offset = u.params.offset →
      i < j → f i < f j) (hI : Independent s0) (hI' : Independent s0')
    (e : Ending) (s' : Sim) (c' : Nat) (hc' : c' < 16777216)
    (h : runLoop (simConfig fp dev cpt golden true) ho wl = .ok e)
    (h' : runLoop (simConfig fp dev cpt golden' true) ho' wl' = .ok (.finished s' c')) :
    ∃ s c, e = .finished s c ∧ c ≤ c' ∧ ∀ (i : Nat) (t : TState), s.ts[i]? = some t →
      ∃ t', s'.ts[f i]? = some t' ∧ t'.start = t.start ∧ t.endc ≤ t'.endc := by
  obtain ⟨job, hd⟩ := describes_exists h0
  obtain ⟨job', hd'⟩ := describes_exists h0'
  have hlt : ∀ i, i < s0.ts.length → f i < s0'.ts.length := fun i hi => embed_lt hE hi
  have F : Freely s0.ts.length f job job' := by
    refine ⟨fun i hi => ?_, fun i hi => ?_, fun i hi => independent_after hd hI hi,
      fun i hi => independent_after hd' hI' (hlt i hi)⟩
    all_goals
      obtain ⟨t', a1, a2, a3⟩ := embed_get h0 h0' hl hE (List.getElem?_eq_getElem hi)
      have d1 := hd i _ (List.getElem?_eq_getElem hi)
      have d2 := hd' _ _ a1
    · rw [d1.1, d2.1]; exact a2.more
    · rw [d1.2.1, d2.2.1]; exact a3
  have hm : ∀ i j, i < s0.ts.length → j < s0.ts.length → (job i).t.offset = (job j).t.offset → i < j → f i < f j := by
    intro i j hi hj he
    have g1 := List.getElem?_eq_getElem hi
    have g2 := List.getElem?_eq_getElem hj
    refine hf i j _ _ g1 g2 ?_
    rw [← (hd i _ g1).1, ← (hd j _ g2).1]; exact he
  have hown : ∀ i, i < s0.ts.length → own fp dev (job' (f i)).t = own fp dev (job i).t := by
    intro i hi
    obtain ⟨t', a1, a2, _⟩ := embed_get h0 h0' hl hE (List.getElem?_eq_getElem hi)
    rw [(hd i _ (List.getElem?_eq_getElem hi)).1, (hd' _ _ a1).1]
    exact own_same _ dev a2
  refine trails_times (f := f) (n := s0.ts.length) (n' := s0'.ts.length) (job := job) (job' := job')
    (total := fun i => (job i).t.totalBytes) (total' := fun i => (job' (f i)).t.totalBytes) (b := fun k => k * cpt) hlt ?_
    (plan_ends hdev hT hpos hcpt hw h0 hd h) (plan_ends hdev hT hpos hcpt hw' h0' hd' h') hc'
  intro k hk i hi
  exact F.crowd_trails hlt hT hC (link := dev.linkBw) (sink := dev.absRate) le_rfl (fun _ => le_rfl)
    (fun i hi => (hw _ (describes_mem h0 hd hi)).1) (fun i hi => (hw' _ (describes_mem h0' hd' hi)).1)
    (fun i hi => hr _ (describes_mem h0 hd hi)) (fun i hi => hr' _ (describes_mem h0' hd' hi)) hown
    (line_of_init h0 hd fun _ hi => independent_after hd hI hi)
    (line_of_init h0' hd' fun _ hi => independent_after hd' hI' hi) hm hpos k hk i hi

example : floatTimes Sample.dev [feed 3000, south] = some (256, [(0, 150), (0, 45)]) ∧
    floatTimes Sample.dev [other2, feed 3000, { feed 100 with src := ⟨0, 1, 1⟩ }, { east with src := ⟨0, 1, 0⟩ }, south] =
      some (256, [(0, 164), (0, 202), (0, 10), (0, 55), (0, 77)]) := by decide +kernel

/-- Two transfers, and the same with three more between them. -/
example : times Sample.dev ⟨id, id⟩ [feed 3000, south] true = some (256, [(0, 150), (0, 45)]) ∧
    times Sample.dev ⟨id, id⟩ [other2, feed 3000, { feed 100 with src := ⟨0, 1, 1⟩ }, { east with src := ⟨0, 1, 0⟩ }, south]
      true = some (256, [(0, 164), (0, 202), (0, 10), (0, 55), (0, 77)]) := by decide +kernel

/-! ### C117: less bandwidth never makes a transfer end earlier -/

/-- C117 is violated for transfers that wait for others: with links of 18 instead of 30 bytes per cycle, or with sinks of
18 bytes per cycle, the last transfer ends at cycle 283 instead of cycle 308. -/
theorem C117_violated :
    times Sample.dev ⟨id, id⟩ [feed 740, feed 20, feed 3600] true = some (256, [(0, 74), (0, 2), (74, 308)]) ∧
    times (withRates Sample.dev 18 Sample.dev.absRate) ⟨id, id⟩ [feed 740, feed 20, feed 3600] true =
      some (384, [(0, 83), (0, 3), (83, 283)]) ∧
    times (withRates Sample.dev Sample.dev.linkBw fun _ => 18) ⟨id, id⟩ [feed 740, feed 20, feed 3600] true =
      some (384, [(0, 83), (0, 3), (83, 283)]) := by decide +kernel

/-- C117 in exact arithmetic, if no transfer waits for another one: if the run on a device with less bandwidth of links
or sinks finishes, the run on the device does, at no later clock; every transfer starts at the same cycle on both and
ends no earlier on the slower one.  (Missing: rounding, and transfers that wait, where it is violated.) -/
theorem C117_partial (dev : Device) (hdev : DeviceOk dev) (hT : TableOk .exact dev.tbt) (hC : Capacities dev)
    (link : ℚ) (hlink : link ≤ dev.linkBw) (sink : CoreType → ℚ) (hsink : ∀ c, sink c ≤ dev.absRate c) (cpt : Nat)
    (hpos : 0 < cpt) (hcpt : cpt < 4244967296) (golden golden' : GoldenMap) (ho : HashOrder) (wl : Workload)
    (hw : ∀ t ∈ wl.transfers, 0 ≤ t.injectionRate ∧ RectsOk t) (s0 : Sim)
    (h0 : initSim .exact dev ho wl = .ok s0) (hI : Independent s0)
    (e : Ending) (s' : Sim) (c' : Nat) (h : runLoop (simConfig .exact dev cpt golden true) ho wl = .ok e)
    (h' : runLoop (simConfig .exact (withRates dev link sink) cpt golden' true) ho wl = .ok (.finished s' c')) :
    ∃ s c, e = .finished s c ∧ c ≤ c' ∧ ∀ (i : Nat) (t : TState), s.ts[i]? = some t →
      ∃ t', s'.ts[i]? = some t' ∧ t'.start = t.start ∧ t.endc ≤ t'.endc := by
  obtain ⟨job, hd⟩ := describes_exists h0
  have h0' : initSim .exact (withRates dev link sink) ho wl = .ok s0 := by rw [initSim_rates]; exact h0
  have hdev' : DeviceOk (withRates dev link sink) := ⟨hdev.1, hdev.2, hdev.3, hdev.4, hdev.5⟩
  have F : Freely s0.ts.length id job job :=
    ⟨fun _ _ => Spec.SameData.more rfl, fun _ _ => rfl, fun _ hi => independent_after hd hI hi, fun _ hi => independent_after hd hI hi⟩
  have hinj : ∀ i, i < s0.ts.length → 0 ≤ (job i).t.injectionRate := fun i hi => (hw _ (describes_mem h0 hd hi)).1
  have hA := F.run_behind (cpt := cpt) (speed := shared dev job s0.ts.length cpt)
    (speed' := shared (withRates dev link sink) job s0.ts.length cpt)
    (fun curr σ σ' _ hA hs hs' i hi => F.shared_le Function.injective_id (fun _ hi => hi) hT hC hlink hsink hinj hinj (fun _ _ => rfl) hA hs hs' hi)
  exact behind_times (f := id) (fun _ hi => hi) hA hcpt
    ((C111_exact dev hdev hT cpt hpos hcpt golden ho wl hw s0 h0 job hd).2 _ h)
    ((C111_exact _ hdev' hT cpt hpos hcpt golden' ho wl hw s0 h0' job hd).2 _ h') (finished_le h')

/-- C117 for any rounding, if no transfer waits for another one and the run on the slower device ends before cycle 2^24.
(Missing: later clocks, and transfers that wait, where it is violated.) -/
theorem C117_rounded_partial (fp : FP) (dev : Device) (hdev : DeviceOk dev) (hT : TableOk fp dev.tbt) (hC : Capacities dev)
    (link : ℚ) (hlink : link ≤ dev.linkBw) (sink : CoreType → ℚ) (hsink : ∀ c, sink c ≤ dev.absRate c) (cpt : Nat)
    (hpos : 0 < cpt) (hcpt : cpt < 4244967296) (golden golden' : GoldenMap) (ho : HashOrder) (wl : Workload)
    (hw : ∀ t ∈ wl.transfers, 0 ≤ t.injectionRate ∧ RectsOk t) (hr : ∀ t ∈ wl.transfers, fp.f32.Rep t.injectionRate)
    (s0 : Sim) (h0 : initSim fp dev ho wl = .ok s0) (hI : Independent s0)
    (e : Ending) (s' : Sim) (c' : Nat) (hc' : c' < 16777216)
    (h : runLoop (simConfig fp dev cpt golden true) ho wl = .ok e)
    (h' : runLoop (simConfig fp (withRates dev link sink) cpt golden' true) ho wl = .ok (.finished s' c')) :
    ∃ s c, e = .finished s c ∧ c ≤ c' ∧ ∀ (i : Nat) (t : TState), s.ts[i]? = some t →
      ∃ t', s'.ts[i]? = some t' ∧ t'.start = t.start ∧ t.endc ≤ t'.endc := by
  obtain ⟨job, hd⟩ := describes_exists h0
  have h0' : initSim fp (withRates dev link sink) ho wl = .ok s0 := by rw [initSim_rates]; exact h0
  have hdev' : DeviceOk (withRates dev link sink) := ⟨hdev.1, hdev.2, hdev.3, hdev.4, hdev.5⟩
  have hfree : ∀ i, i < s0.ts.length → (job i).after = none := fun _ hi => independent_after hd hI hi
  have F : Freely s0.ts.length id job job := ⟨fun _ _ => Spec.SameData.more rfl, fun _ _ => rfl, hfree, hfree⟩
  have hinj : ∀ i, i < s0.ts.length → 0 ≤ (job i).t.injectionRate := fun i hi => (hw _ (describes_mem h0 hd hi)).1
  have hrep : ∀ i, i < s0.ts.length → fp.f32.Rep (job i).t.injectionRate := fun i hi => hr _ (describes_mem h0 hd hi)
  have hA := F.crowd_trails (cpt := cpt) (fun _ hi => hi) hT hC hlink hsink hinj hinj hrep hrep (fun _ _ => rfl) (line_of_init h0 hd hfree)
    (line_of_init h0 hd hfree) (fun _ _ _ _ _ h => h) hpos
  exact trails_times (f := id) (fun _ hi => hi) hA (plan_ends hdev hT hpos hcpt hw h0 hd h)
    (plan_ends hdev' hT hpos hcpt hw h0' hd h') hc'

/-- Slower links, in `float`. -/
example : floatTimes Sample.dev [feed 3000, south, east] = some (256, [(0, 225), (0, 77), (0, 56)]) ∧
    floatTimes (withRates Sample.dev 18 Sample.dev.absRate) [feed 3000, south, east] =
      some (256, [(0, 242), (0, 120), (0, 86)]) := by decide +kernel

/-- Slower links. -/
example : times Sample.dev ⟨id, id⟩ [feed 3000, south, east] true = some (256, [(0, 225), (0, 77), (0, 56)]) ∧
    times (withRates Sample.dev 18 Sample.dev.absRate) ⟨id, id⟩ [feed 3000, south, east] true =
      some (256, [(0, 242), (0, 120), (0, 86)]) := by decide +kernel

end NPE.Props
