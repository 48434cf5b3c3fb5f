import Verif.Proofs.FluidApart
import Verif.Proofs.FluidShared
import Verif.Proofs.FluidEmbed
import Verif.Proofs.FluidShift
import Verif.Proofs.FluidQueueLater
import Verif.Proofs.FluidOrder
import Verif.Props.Engine
import Verif.Props.Congestion
import Verif.Props.Timing

/-
Properties C111 to C114 and C118: what a simulation computes, and what it does not depend on.
-/

namespace NPE.Props
open NPE NPE.Spec NPE.Spec.Fluid

/-! ### C111: the simulation as a short description -/

/-- The jobs of a run exist. -/
theorem C111_jobs (fp : FP) (dev : Device) (ho : HashOrder) (wl : Workload) (s0 : Sim)
    (h0 : initSim fp dev ho wl = .ok s0) : ∃ job, Describes job s0 := describes_exists h0

theorem shows_alone {fp : FP} {dev : Device} {ho : HashOrder} {cpt : Nat} {golden : GoldenMap} {wl : Workload} {s0 : Sim}
    (h0 : initSim fp dev ho wl = .ok s0) (hcpt : cpt < 4244967296) {job : Nat → Job} (hd : Describes job s0)
    {c : Nat} {s : Sim} (h : Reach (simConfig fp dev cpt golden false) s0 c s) :
    ∃ k, c = k * cpt ∧ Shows s (run fp.f32.fl job cpt (alone fp dev job) k) :=
  h.shows (computeRates_ok fp dev false) (init_inv h0) (init_waiting h0) hd (gives_alone fp dev job _ cpt) hcpt

theorem shows_shared {dev : Device} {ho : HashOrder} {cpt : Nat} {golden : GoldenMap} {wl : Workload} {s0 : Sim}
    (hdev : DeviceOk dev) (hT : TableOk .exact dev.tbt) (hw : ∀ t ∈ wl.transfers, 0 ≤ t.injectionRate ∧ RectsOk t)
    (h0 : initSim .exact dev ho wl = .ok s0) (hcpt : cpt < 4244967296) {job : Nat → Job} (hd : Describes job s0)
    {c : Nat} {s : Sim} (h : Reach (simConfig .exact dev cpt golden true) s0 c s) :
    ∃ k, c = k * cpt ∧ Shows s (run id job cpt (shared dev job s0.ts.length cpt) k) := by
  have hj : ∀ i, i < s0.ts.length → (job i).t ∈ wl.transfers := by
    intro i hi
    have hg : s0.ts[i]? = some s0.ts[i] := List.getElem?_eq_getElem hi
    rw [(hd i _ hg).1]
    exact ((initSim_ok h0).1.slots i _ hg).1
  exact h.shows (computeRates_ok .exact dev true) (init_inv h0) (init_waiting h0) hd
    (gives_shared hdev hT (fun i hi => (hw _ (hj i hi)).1) (fun i hi => (hw _ (hj i hi)).2)) hcpt

/-- C111, without congestion model and with any rounding: the states of the engine are those of the description, and a
run ends at the first timestep after which all transfers are finished, with the starts and ends of the description. -/
theorem C111_alone (fp : FP) (dev : Device) (cpt : Nat) (hpos : 0 < cpt) (hcpt : cpt < 4244967296) (golden : GoldenMap)
    (ho : HashOrder) (wl : Workload) (s0 : Sim) (h0 : initSim fp dev ho wl = .ok s0) (job : Nat → Job)
    (hd : Describes job s0) :
    (∀ c s, Reach (simConfig fp dev cpt golden false) s0 c s →
      ∃ k, c = k * cpt ∧ Shows s (run fp.f32.fl job cpt (alone fp dev job) k)) ∧
    ∀ e, runLoop (simConfig fp dev cpt golden false) ho wl = .ok e →
      EndsAs s0.ts.length cpt (run fp.f32.fl job cpt (alone fp dev job)) e :=
  ⟨fun _ _ h => shows_alone h0 hcpt hd h, fun _ h =>
    endsAs_of_shows (cfg := simConfig fp dev cpt golden false) hpos (computeRates_ok fp dev false) h0
      (fun _ _ h => shows_alone h0 hcpt hd h) h⟩

/-- C111 with congestion model, with any rounding: there are lists of the active transfers of every timestep, each active
transfer occurring once, such that the states of the engine are those of the description if demands are added in the
order of these lists. -/
theorem C111_shared (fp : FP) (dev : Device) (hdev : DeviceOk dev) (hT : TableOk fp dev.tbt) (cpt : Nat)
    (hpos : 0 < cpt) (hcpt : cpt < 4244967296) (golden : GoldenMap)
    (ho : HashOrder) (wl : Workload) (hw : ∀ t ∈ wl.transfers, 0 ≤ t.injectionRate ∧ RectsOk t)
    (s0 : Sim) (h0 : initSim fp dev ho wl = .ok s0) (job : Nat → Job) (hd : Describes job s0) :
    ∃ order : Nat → List Nat,
      (∀ c s, Reach (simConfig fp dev cpt golden true) s0 c s →
        ∃ k, c = k * cpt ∧ Shows s (run fp.f32.fl job cpt (sharedIn fp dev job cpt order) k) ∧
          Orders fp.f32.fl job s0.ts.length cpt (sharedIn fp dev job cpt order) order k) ∧
      ∀ e, runLoop (simConfig fp dev cpt golden true) ho wl = .ok e →
        EndsAs s0.ts.length cpt (run fp.f32.fl job cpt (sharedIn fp dev job cpt order)) e := by
  have key : ∀ c s, Reach (simConfig fp dev cpt golden true) s0 c s →
      ∃ k, c = k * cpt ∧ Shows s (run fp.f32.fl job cpt
          (sharedIn fp dev job cpt (planOrder fp dev job s0.ts.length cpt s0.queue)) k) ∧
        Orders fp.f32.fl job s0.ts.length cpt (sharedIn fp dev job cpt (planOrder fp dev job s0.ts.length cpt s0.queue))
          (planOrder fp dev job s0.ts.length cpt s0.queue) k := by
    intro c s hs
    obtain ⟨k, k1, k2, _, _, k3⟩ := follows_plan hdev hT hw h0 hpos hcpt hd hs
    rw [← run_plan fp dev job s0.ts.length hpos s0.queue k] at k2
    exact ⟨k, k1, k2, k3⟩
  exact ⟨planOrder fp dev job s0.ts.length cpt s0.queue, key, fun e h =>
    endsAs_of_shows (cfg := simConfig fp dev cpt golden true) hpos (computeRates_ok fp dev true) h0
      (fun c s hs => by obtain ⟨k, k1, k2, _⟩ := key c s hs; exact ⟨k, k1, k2⟩) h⟩

/-- C111 with congestion model, in exact arithmetic: the order of additions does not matter. -/
theorem C111_exact (dev : Device) (hdev : DeviceOk dev) (hT : TableOk .exact dev.tbt) (cpt : Nat)
    (hpos : 0 < cpt) (hcpt : cpt < 4244967296) (golden : GoldenMap)
    (ho : HashOrder) (wl : Workload) (hw : ∀ t ∈ wl.transfers, 0 ≤ t.injectionRate ∧ RectsOk t)
    (s0 : Sim) (h0 : initSim .exact dev ho wl = .ok s0) (job : Nat → Job) (hd : Describes job s0) :
    (∀ c s, Reach (simConfig .exact dev cpt golden true) s0 c s →
      ∃ k, c = k * cpt ∧ Shows s (run id job cpt (shared dev job s0.ts.length cpt) k)) ∧
    ∀ e, runLoop (simConfig .exact dev cpt golden true) ho wl = .ok e →
      EndsAs s0.ts.length cpt (run id job cpt (shared dev job s0.ts.length cpt)) e :=
  ⟨fun _ _ h => shows_shared hdev hT hw h0 hcpt hd h, fun _ h =>
    endsAs_of_shows (cfg := simConfig .exact dev cpt golden true) hpos (computeRates_ok .exact dev true) h0
      (fun _ _ h => shows_shared hdev hT hw h0 hcpt hd h) h⟩

/-- Final clock, starts and ends of a run. -/
def times (dev : Device) (ho : HashOrder) (ts : List Transfer) (congestion : Bool) :
    Option (Nat × List (Nat × Nat)) :=
  let wl := (Workload.addPhase {} { transfers := ts }).setGoldenResultCycles [(0, (0, 1000)), (1, (0, 1000))]
  match runLoop (simConfig .exact dev 128 wl.golden congestion) ho wl with
  | .ok (.finished s c) => some (c, s.ts.map fun t => (t.start, t.endc))
  | _ => none

/-- Two transfers that share a link and a sink. -/
def east : Transfer := Transfer.make 900 1 ⟨0, 0, 0⟩ (.unicast ⟨0, 1, 1⟩) 28 0 .noc0
def south : Transfer := Transfer.make 900 1 ⟨0, 0, 1⟩ (.unicast ⟨0, 1, 1⟩) 20 0 .noc0

/-- Their jobs. -/
def pairJobs (i : Nat) : Job :=
  if i = 0 then ⟨east, (fresh Sample.dev east).route, none⟩ else ⟨south, (fresh Sample.dev south).route, none⟩

/-- The description gives the times of the engine. -/
example : (run id pairJobs 128 (shared Sample.dev pairJobs 2 128) 1 0, run id pairJobs 128 (shared Sample.dev pairJobs 2 128) 1 1) =
    (.finished 0 55, .finished 0 77) ∧ times Sample.dev ⟨id, id⟩ [east, south] true = some (128, [(0, 55), (0, 77)]) ∧
    (run id pairJobs 128 (alone .exact Sample.dev pairJobs) 1 0, run id pairJobs 128 (alone .exact Sample.dev pairJobs) 1 1) =
    (.finished 0 33, .finished 0 45) ∧ times Sample.dev ⟨id, id⟩ [east, south] false =
      some (128, [(0, 33), (0, 45)]) := by decide +kernel

/-- Slow transfers with speeds that are floats near 0.1 and 0.2, and a slow link. -/
def slowDev : Device := { Sample.dev with linkBw := 1/4 }
def slowJobs (i : Nat) : Job :=
  if i = 0 then ⟨{ east with injectionRate := 13421773 / 134217728 }, (fresh Sample.dev east).route, none⟩
  else ⟨{ south with injectionRate := 13421773 / 67108864 }, (fresh Sample.dev south).route, none⟩

/-- The rounded speed and the exact one; sums that depend on the order. -/
example : sharedIn .ieee slowDev slowJobs 128 (fun _ => [0, 1]) 128 (fun _ => .active 0 0) 0 = 11184811 / 134217728 ∧
    shared slowDev slowJobs 2 128 128 (fun _ => .active 0 0) 0 = 1 / 12 ∧
    (let job := fun i : Nat => Job.mk { east with injectionRate := if i = 0 then 1 else 1 / 16777216 } [] none
     (loadIn .ieee Sample.dev job 128 [0, 1, 2] (fun _ => 1) 128 (fun _ => .active 0 0),
      loadIn .ieee Sample.dev job 128 [1, 2, 0] (fun _ => 1) 128 (fun _ => .active 0 0))) = (1, 8388609 / 8388608) := by
  decide +kernel

/-- A chain over two timesteps. -/
def chain (i : Nat) : Job := ⟨Sample.tr 300 0, (fresh Sample.dev (Sample.tr 300 0)).route, if i = 2 then some (0, 0) else none⟩

example : (run id chain 128 (alone .exact Sample.dev chain) 1 0, run id chain 128 (alone .exact Sample.dev chain) 4 2,
      run id chain 128 (alone .exact Sample.dev chain) 5 2) = (.active 0 128, .active 300 212, .finished 300 600) ∧
    times Sample.dev ⟨id, id⟩ [Sample.tr 300 0, Sample.tr 300 0, Sample.tr 300 0] false =
      some (640, [(0, 300), (0, 300), (300, 600)]) := by decide +kernel

/-! ### C112: the order of hash tables -/

/-- C112 without congestion model, with any rounding.  The order in which the hash table of issue queues is iterated does
not matter, and neither does that of the sets of links if there are no multicasts: all starts, ends and the final clock
are the same.  (Missing: the order of links for multicasts, see the witness.) -/
theorem C112_alone_partial (fp : FP) (dev : Device) (cpt : Nat) (hpos : 0 < cpt) (hcpt : cpt < 4244967296) (golden : GoldenMap)
    (ho ho' : HashOrder) (hb : ∀ l, (ho.buckets l).Perm l) (hb' : ∀ l, (ho'.buckets l).Perm l) (wl : Workload)
    (hl : ho'.links = ho.links ∨ ∀ t ∈ wl.transfers, ∃ d, t.dst = .unicast d) (e : Ending) (s' : Sim) (c' : Nat)
    (h : runLoop (simConfig fp dev cpt golden false) ho wl = .ok e)
    (h' : runLoop (simConfig fp dev cpt golden false) ho' wl = .ok (.finished s' c')) :
    ∃ s, e = .finished s c' ∧ s.ts.map (fun t => (t.start, t.endc)) = s'.ts.map (fun t => (t.start, t.endc)) := by
  obtain ⟨s0, h0, _⟩ := Out.bind_eq_ok.mp h
  obtain ⟨s0', h0', _⟩ := Out.bind_eq_ok.mp h'
  obtain ⟨job, hd⟩ := describes_exists h0
  obtain ⟨job', hd'⟩ := describes_exists h0'
  obtain ⟨hlen, F⟩ := buckets_frame h0 h0' hb hb' hl hd hd'
  refine same_run (speed := alone fp dev job) (speed' := alone fp dev job')
    (F.run_eq fun _ _ _ _ i hi => F.alone_eq fp dev _ _ _ i hi)
    ((C111_alone fp dev cpt hpos hcpt golden _ wl s0 h0 job hd).2 e h) (fun s c he => finished_le (he ▸ h)) ?_
    (finished_le h')
  rw [← hlen]
  exact (C111_alone fp dev cpt hpos hcpt golden _ wl s0' h0' job' hd').2 _ h'

/-- C112 with congestion model, with any rounding. -/
theorem C112_shared_partial (fp : FP) (dev : Device) (hdev : DeviceOk dev) (hT : TableOk fp dev.tbt) (cpt : Nat)
    (hpos : 0 < cpt) (hcpt : cpt < 4244967296) (golden : GoldenMap)
    (ho ho' : HashOrder) (hb : ∀ l, (ho.buckets l).Perm l) (hb' : ∀ l, (ho'.buckets l).Perm l) (wl : Workload)
    (hl : ho'.links = ho.links ∨ ∀ t ∈ wl.transfers, ∃ d, t.dst = .unicast d) (hw : ∀ t ∈ wl.transfers, 0 ≤ t.injectionRate ∧ RectsOk t)
    (e : Ending) (s' : Sim) (c' : Nat)
    (h : runLoop (simConfig fp dev cpt golden true) ho wl = .ok e)
    (h' : runLoop (simConfig fp dev cpt golden true) ho' wl = .ok (.finished s' c')) :
    ∃ s, e = .finished s c' ∧ s.ts.map (fun t => (t.start, t.endc)) = s'.ts.map (fun t => (t.start, t.endc)) := by
  obtain ⟨s0, h0, _⟩ := Out.bind_eq_ok.mp h
  obtain ⟨s0', h0', _⟩ := Out.bind_eq_ok.mp h'
  exact same_rounded hdev hT hw hw hpos hcpt h0 h0' hb hb' (parallel_orders h0 h0' hl) h h'

/-- Two unicasts and a multicast from one core. -/
def queueMix : List Transfer := [Transfer.make 300 1 ⟨0, 0, 0⟩ (.unicast ⟨0, 0, 1⟩) 1 0 .noc0,
  Transfer.make 300 1 ⟨0, 0, 0⟩ (.unicast ⟨0, 0, 1⟩) 1 0 .noc0,
  Transfer.make 300 1 ⟨0, 0, 0⟩ (.mcast [⟨⟨0, 0, 0⟩, ⟨0, 1, 1⟩⟩]) 1 0 .noc0]

/-- C112 is violated for the sets of links: the queue of a multicast is chosen by the first element of a hash set of
links.  Iterated in another order, the multicast gets into the queue of the two unicasts and ends twice as late. -/
theorem C112_violated :
    times Sample.dev ⟨id, id⟩ queueMix false = some (384, [(0, 300), (0, 300), (0, 300)]) ∧
    times Sample.dev ⟨fun l => l.drop 1 ++ l.take 1, id⟩ queueMix false = some (640, [(0, 300), (0, 300), (300, 600)]) ∧
    ∀ l : List Int, (l.drop 1 ++ l.take 1).Perm l := by
  refine ⟨by decide +kernel, by decide +kernel, fun l => ?_⟩
  exact List.perm_append_comm.trans (by rw [List.take_append_drop])

/-- Another order of the queues. -/
example : times Sample.dev ⟨id, List.reverse⟩ queueMix false = times Sample.dev ⟨id, id⟩ queueMix false ∧
    times Sample.dev ⟨List.reverse, List.reverse⟩ [east, south, east, south, east] true =
      times Sample.dev ⟨id, id⟩ [east, south, east, south, east] true := by decide +kernel

/-! ### C113: traffic that shares nothing -/

/-- C113, without congestion model and with any rounding: if all further transfers of a second workload are unrelated,
a run of the first one finishes if one of the second one does, no later, and every transfer starts and ends at the same
cycles in both. -/
theorem C113_alone (fp : FP) (dev : Device) (cpt : Nat) (hpos : 0 < cpt) (hcpt : cpt < 4244967296)
    (golden golden' : GoldenMap) (links : List Int → List Int) (b b' : List BucketKey → List BucketKey)
    (hb : ∀ l, (b l).Perm l) (hb' : ∀ l, (b' l).Perm l) (wl wl' : Workload) (s0 s0' : Sim)
    (h0 : initSim fp dev ⟨links, b⟩ wl = .ok s0) (h0' : initSim fp dev ⟨links, b'⟩ wl' = .ok s0')
    (f : Nat → Nat) (hE : Embeds dev s0 s0' f) (hU : FurtherUnrelated dev s0 s0' f) (hP : ParentsFound s0)
    (e : Ending) (s' : Sim) (c' : Nat) (h : runLoop (simConfig fp dev cpt golden false) ⟨links, b⟩ wl = .ok e)
    (h' : runLoop (simConfig fp dev cpt golden' false) ⟨links, b'⟩ wl' = .ok (.finished s' c')) :
    ∃ s c, e = .finished s c ∧ c ≤ c' ∧ ∀ (i : Nat) (t : TState), s.ts[i]? = some t →
      ∃ t', s'.ts[f i]? = some t' ∧ t'.start = t.start ∧ t'.endc = t.endc := by
  obtain ⟨job, hd⟩ := describes_exists h0
  obtain ⟨job', hd'⟩ := describes_exists h0'
  have F := embed_frame h0 h0' hb hb' rfl hE hU hP hd hd'
  exact same_times (speed := alone fp dev job) (speed' := alone fp dev job') (fun i hi => embed_lt hE.toContains hi)
    (F.run_eq fun _ _ _ _ i hi => F.alone_eq fp dev _ _ _ i hi)
    ((C111_alone fp dev cpt hpos hcpt golden _ wl s0 h0 job hd).2 e h)
    ((C111_alone fp dev cpt hpos hcpt golden' _ wl' s0' h0' job' hd').2 _ h') (finished_le h')

/-- C113 with congestion model, in exact arithmetic (missing: rounding). -/
theorem C113_shared_partial (dev : Device) (hdev : DeviceOk dev) (hT : TableOk .exact dev.tbt) (cpt : Nat)
    (hpos : 0 < cpt) (hcpt : cpt < 4244967296)
    (golden golden' : GoldenMap) (links : List Int → List Int) (b b' : List BucketKey → List BucketKey)
    (hb : ∀ l, (b l).Perm l) (hb' : ∀ l, (b' l).Perm l) (wl wl' : Workload)
    (hw : ∀ t ∈ wl.transfers, 0 ≤ t.injectionRate ∧ RectsOk t)
    (hw' : ∀ t ∈ wl'.transfers, 0 ≤ t.injectionRate ∧ RectsOk t) (s0 s0' : Sim)
    (h0 : initSim .exact dev ⟨links, b⟩ wl = .ok s0) (h0' : initSim .exact dev ⟨links, b'⟩ wl' = .ok s0')
    (f : Nat → Nat) (hE : Embeds dev s0 s0' f) (hU : FurtherUnrelated dev s0 s0' f) (hP : ParentsFound s0)
    (e : Ending) (s' : Sim) (c' : Nat) (h : runLoop (simConfig .exact dev cpt golden true) ⟨links, b⟩ wl = .ok e)
    (h' : runLoop (simConfig .exact dev cpt golden' true) ⟨links, b'⟩ wl' = .ok (.finished s' c')) :
    ∃ s c, e = .finished s c ∧ c ≤ c' ∧ ∀ (i : Nat) (t : TState), s.ts[i]? = some t →
      ∃ t', s'.ts[f i]? = some t' ∧ t'.start = t.start ∧ t'.endc = t.endc := by
  obtain ⟨job, hd⟩ := describes_exists h0
  obtain ⟨job', hd'⟩ := describes_exists h0'
  have F := embed_frame h0 h0' hb hb' rfl hE hU hP hd hd'
  have P := embed_private (f := f) h0' hU (fun t ht => (hw' t ht).2) hd hd'
  exact same_times (speed := shared dev job s0.ts.length cpt) (speed' := shared dev job' s0'.ts.length cpt)
    (fun i hi => embed_lt hE.toContains hi) (F.run_eq fun _ _ _ hA i hi => F.shared_eq hE.inj (fun i hi => embed_lt hE.toContains hi) P hA hi)
    ((C111_exact dev hdev hT cpt hpos hcpt golden _ wl hw s0 h0 job hd).2 e h)
    ((C111_exact dev hdev hT cpt hpos hcpt golden' _ wl' hw' s0' h0' job' hd').2 _ h') (finished_le h')

/-- C113 with congestion model and any rounding, if no transfer of either workload waits for another one and transfers
that are scheduled for the same cycle are in the same order in both.  (Missing: transfers that wait, whose demands may be
added in another order.) -/
theorem C113_rounded_partial (fp : FP) (dev : Device) (hdev : DeviceOk dev) (hT : TableOk fp dev.tbt) (cpt : Nat)
    (hpos : 0 < cpt) (hcpt : cpt < 4244967296)
    (golden golden' : GoldenMap) (links : List Int → List Int) (b b' : List BucketKey → List BucketKey)
    (hb : ∀ l, (b l).Perm l) (hb' : ∀ l, (b' l).Perm l) (wl wl' : Workload)
    (hw : ∀ t ∈ wl.transfers, 0 ≤ t.injectionRate ∧ RectsOk t)
    (hw' : ∀ t ∈ wl'.transfers, 0 ≤ t.injectionRate ∧ RectsOk t) (s0 s0' : Sim)
    (h0 : initSim fp dev ⟨links, b⟩ wl = .ok s0) (h0' : initSim fp dev ⟨links, b'⟩ wl' = .ok s0')
    (f : Nat → Nat) (hE : Embeds dev s0 s0' f) (hU : FurtherUnrelated dev s0 s0' f) (hP : ParentsFound s0)
    (hf : ∀ (i j : Nat) (t u : TState), s0.ts[i]? = some t → s0.ts[j]? = some u → t.params.offset = u.params.offset →
      i < j → f i < f j) (hI : Independent s0) (hI' : Independent s0')
    (e : Ending) (s' : Sim) (c' : Nat) (h : runLoop (simConfig fp dev cpt golden true) ⟨links, b⟩ wl = .ok e)
    (h' : runLoop (simConfig fp dev cpt golden' true) ⟨links, b'⟩ wl' = .ok (.finished s' c')) :
    ∃ s c, e = .finished s c ∧ c ≤ c' ∧ ∀ (i : Nat) (t : TState), s.ts[i]? = some t →
      ∃ t', s'.ts[f i]? = some t' ∧ t'.start = t.start ∧ t'.endc = t.endc := by
  obtain ⟨job, hd⟩ := describes_exists h0
  obtain ⟨job', hd'⟩ := describes_exists h0'
  have F := embed_frame h0 h0' hb hb' rfl hE hU hP hd hd'
  have P := embed_private (f := f) h0' hU (fun t ht => (hw' t ht).2) hd hd'
  have hm : ∀ i j, i < s0.ts.length → j < s0.ts.length → (job i).t.offset = (job j).t.offset → i < j → f i < f j := by
    intro i j hi hj he
    have g1 := List.getElem?_eq_getElem hi
    have g2 := List.getElem?_eq_getElem hj
    refine hf i j _ _ g1 g2 ?_
    rw [← (hd i _ g1).1, ← (hd j _ g2).1]; exact he
  have hn : ∀ i, i < s0.ts.length → f i < s0'.ts.length := fun i hi => embed_lt hE.toContains hi
  exact same_times hn
    (F.apart_agree hn P (line_of_init h0 hd fun _ hi => independent_after hd hI hi)
      (line_of_init h0' hd' fun _ hi => independent_after hd' hI' hi) hm hpos)
    (plan_ends hdev hT hpos hcpt hw h0 hd h) (plan_ends hdev hT hpos hcpt hw' h0' hd' h') (finished_le h')

/-- Transfers on the other NoC are unrelated, unless a segment on this NoC names one of them as its parent. -/
theorem C113_other_noc (fp : FP) (dev : Device) (hdev : DeviceOk dev) (ho ho' : HashOrder) (hl : ho'.links = ho.links)
    (hord : ∀ l, (ho.links l).Perm l) (wl wl' : Workload) (s0 s0' : Sim) (h0 : initSim fp dev ho wl = .ok s0)
    (h0' : initSim fp dev ho' wl' = .ok s0') (f : Nat → Nat) (noc : Noc)
    (h1 : ∀ (i : Nat) (t : TState), s0.ts[i]? = some t → t.params.noc = noc)
    (h2 : ∀ (i' : Nat) (u : TState), s0'.ts[i']? = some u → (∀ i, i < s0.ts.length → f i ≠ i') → u.params.noc ≠ noc ∧
      ∀ (i : Nat) (t : TState), s0.ts[i]? = some t → NamesParent t.params → ¬ IsParent u.params t.params) :
    FurtherUnrelated dev s0 s0' f := by
  intro i' u hu hne i t ht
  obtain ⟨n1, n2⟩ := h2 i' u hu hne
  have nt := h1 i t ht
  have hnoc : t.params.noc ≠ u.params.noc := by rw [nt]; exact fun h => n1 h.symm
  have rt := ((initSim_ok h0).1.slots i t ht).2.1
  have ru := ((initSim_ok h0').1.slots i' u hu).2.1
  rw [hl] at ru
  exact ⟨⟨fun l hl hl' => ofNoc_ne hnoc (route_noc hdev hord rt l hl) (route_noc hdev hord ru l hl'),
    fun h => absurd h hnoc, fun h => absurd h hnoc⟩, fun h => hnoc h.1.symm, n2 i t ht⟩

/-- Traffic on NoC 1 and on other links, sources and sinks of NoC 0 between the two transfers. -/
def other1 : Transfer := Transfer.make 2000 1 ⟨0, 0, 0⟩ (.unicast ⟨0, 1, 1⟩) 20 0 .noc1
def other2 : Transfer := Transfer.make 2000 1 ⟨0, 1, 1⟩ (.unicast ⟨0, 0, 0⟩) 20 0 .noc0

example : times Sample.dev ⟨id, id⟩ [east, south] true = some (128, [(0, 55), (0, 77)]) ∧
    times Sample.dev ⟨id, id⟩ [other1, east, other1, south, other2] true =
      some (256, [(0, 200), (0, 55), (0, 200), (0, 77), (0, 100)]) := by decide +kernel

/-- A transfer on a chip, from core (0,1) to core (1,1). -/
def loneOn (c : Int) : Transfer := Transfer.make 300 1 ⟨c, 0, 1⟩ (.unicast ⟨c, 1, 1⟩) 1 0 .noc0

/-- C113 is violated for traffic on other chips: two transfers of chip 0 double the end of a transfer of chip 1, because
the queue of a transfer does not depend on the chip. -/
theorem C113_violated :
    times { wormhole .exact true 2 with rows := 2, cols := 2 } ⟨id, id⟩ [loneOn 1] false = some (384, [(0, 300)]) ∧
    times { wormhole .exact true 2 with rows := 2, cols := 2 } ⟨id, id⟩ [loneOn 0, loneOn 0, loneOn 1] false =
      some (640, [(0, 300), (0, 300), (300, 600)]) := by decide +kernel

/-! ### C118: the order of transfers in the workload -/

/-- C118 is violated: which of two transfers of a queue for the same cycle comes first decides for which one the third
one waits. -/
theorem C118_violated :
    times Sample.dev ⟨id, id⟩ [Sample.tr 300 0, Sample.tr 10 0, Sample.tr 100 0] false =
      some (512, [(0, 300), (0, 10), (300, 484)]) ∧
    times Sample.dev ⟨id, id⟩ [Sample.tr 10 0, Sample.tr 300 0, Sample.tr 100 0] false =
      some (384, [(0, 10), (0, 300), (10, 228)]) := by decide +kernel

/-- C118, without congestion model and with any rounding: if the order of the transfers of the same queue for the same
cycle and of segments with the same index is kept, all starts and ends and the final clock are the same. -/
theorem C118_alone_partial (fp : FP) (dev : Device) (cpt : Nat) (hpos : 0 < cpt) (hcpt : cpt < 4244967296)
    (golden golden' : GoldenMap) (links : List Int → List Int) (b b' : List BucketKey → List BucketKey)
    (hb : ∀ l, (b l).Perm l) (hb' : ∀ l, (b' l).Perm l) (wl wl' : Workload) (s0 s0' : Sim)
    (h0 : initSim fp dev ⟨links, b⟩ wl = .ok s0) (h0' : initSim fp dev ⟨links, b'⟩ wl' = .ok s0')
    (f : Nat → Nat) (hE : Embeds dev s0 s0' f) (hlen : s0'.ts.length = s0.ts.length) (hP : ParentsFound s0)
    (e : Ending) (s' : Sim) (c' : Nat) (h : runLoop (simConfig fp dev cpt golden false) ⟨links, b⟩ wl = .ok e)
    (h' : runLoop (simConfig fp dev cpt golden' false) ⟨links, b'⟩ wl' = .ok (.finished s' c')) :
    ∃ s, e = .finished s c' ∧ ∀ (i : Nat) (t : TState), s.ts[i]? = some t →
      ∃ t', s'.ts[f i]? = some t' ∧ t'.start = t.start ∧ t'.endc = t.endc := by
  have hU : FurtherUnrelated dev s0 s0' f := by
    intro i' u hu hne
    obtain ⟨i, hi, e⟩ := embed_onto hE.toContains hlen (List.getElem?_eq_some_iff.mp hu).1
    exact absurd e (hne i hi)
  obtain ⟨s, c, rfl, hc, hall⟩ := C113_alone fp dev cpt hpos hcpt golden golden' links b b' hb hb' wl wl' s0 s0' h0 h0' f hE hU
    hP e s' c' h h'
  obtain ⟨job, hd⟩ := describes_exists h0
  obtain ⟨job', hd'⟩ := describes_exists h0'
  have F := embed_frame h0 h0' hb hb' rfl hE hU hP hd hd'
  have E' := (C111_alone fp dev cpt hpos hcpt golden' _ wl' s0' h0' job' hd').2 _ h'
  rw [hlen] at E'
  have hge := same_clock (speed := alone fp dev job) (speed' := alone fp dev job')
    (fun i' hi' => embed_onto hE.toContains hlen (by rw [hlen]; exact hi'))
    (F.run_eq fun _ _ _ _ i hi => F.alone_eq fp dev _ _ _ i hi)
    ((C111_alone fp dev cpt hpos hcpt golden _ wl s0 h0 job hd).2 _ h) E'
  exact ⟨s, by rw [Nat.le_antisymm hc hge], hall⟩

/-- C118 with congestion model, in exact arithmetic (missing: rounding). -/
theorem C118_shared_partial (dev : Device) (hdev : DeviceOk dev) (hT : TableOk .exact dev.tbt) (cpt : Nat)
    (hpos : 0 < cpt) (hcpt : cpt < 4244967296)
    (golden golden' : GoldenMap) (links : List Int → List Int) (b b' : List BucketKey → List BucketKey)
    (hb : ∀ l, (b l).Perm l) (hb' : ∀ l, (b' l).Perm l) (wl wl' : Workload)
    (hw : ∀ t ∈ wl.transfers, 0 ≤ t.injectionRate ∧ RectsOk t)
    (hw' : ∀ t ∈ wl'.transfers, 0 ≤ t.injectionRate ∧ RectsOk t) (s0 s0' : Sim)
    (h0 : initSim .exact dev ⟨links, b⟩ wl = .ok s0) (h0' : initSim .exact dev ⟨links, b'⟩ wl' = .ok s0')
    (f : Nat → Nat) (hE : Embeds dev s0 s0' f) (hlen : s0'.ts.length = s0.ts.length) (hP : ParentsFound s0)
    (e : Ending) (s' : Sim) (c' : Nat) (h : runLoop (simConfig .exact dev cpt golden true) ⟨links, b⟩ wl = .ok e)
    (h' : runLoop (simConfig .exact dev cpt golden' true) ⟨links, b'⟩ wl' = .ok (.finished s' c')) :
    ∃ s, e = .finished s c' ∧ ∀ (i : Nat) (t : TState), s.ts[i]? = some t →
      ∃ t', s'.ts[f i]? = some t' ∧ t'.start = t.start ∧ t'.endc = t.endc := by
  have hU : FurtherUnrelated dev s0 s0' f := by
    intro i' u hu hne
    obtain ⟨i, hi, e⟩ := embed_onto hE.toContains hlen (List.getElem?_eq_some_iff.mp hu).1
    exact absurd e (hne i hi)
  obtain ⟨s, c, rfl, hc, hall⟩ := C113_shared_partial dev hdev hT cpt hpos hcpt golden golden' links b b' hb hb' wl wl' hw hw'
    s0 s0' h0 h0' f hE hU hP e s' c' h h'
  obtain ⟨job, hd⟩ := describes_exists h0
  obtain ⟨job', hd'⟩ := describes_exists h0'
  have F := embed_frame h0 h0' hb hb' rfl hE hU hP hd hd'
  have P := embed_private (f := f) h0' hU (fun t ht => (hw' t ht).2) hd hd'
  have E' := (C111_exact dev hdev hT cpt hpos hcpt golden' _ wl' hw' s0' h0' job' hd').2 _ h'
  have hA := F.run_eq (fl := id) (cpt := cpt) (speed := shared dev job s0.ts.length cpt)
    (speed' := shared dev job' s0'.ts.length cpt)
    fun _ _ _ hA i hi => F.shared_eq hE.inj (fun i hi => embed_lt hE.toContains hi) P hA hi
  rw [hlen] at E' hA
  have hge := same_clock (fun i' hi' => embed_onto hE.toContains hlen (by rw [hlen]; exact hi')) hA
    ((C111_exact dev hdev hT cpt hpos hcpt golden _ wl hw s0 h0 job hd).2 _ h) E'
  exact ⟨s, by rw [Nat.le_antisymm hc hge], hall⟩

/-- C118 with congestion model and any rounding, if no transfer waits for another one and transfers that are scheduled
for the same cycle keep their order.  (Missing: transfers that wait, and other orders.) -/
theorem C118_rounded_partial (fp : FP) (dev : Device) (hdev : DeviceOk dev) (hT : TableOk fp dev.tbt) (cpt : Nat)
    (hpos : 0 < cpt) (hcpt : cpt < 4244967296)
    (golden golden' : GoldenMap) (links : List Int → List Int) (b b' : List BucketKey → List BucketKey)
    (hb : ∀ l, (b l).Perm l) (hb' : ∀ l, (b' l).Perm l) (wl wl' : Workload)
    (hw : ∀ t ∈ wl.transfers, 0 ≤ t.injectionRate ∧ RectsOk t)
    (hw' : ∀ t ∈ wl'.transfers, 0 ≤ t.injectionRate ∧ RectsOk t) (s0 s0' : Sim)
    (h0 : initSim fp dev ⟨links, b⟩ wl = .ok s0) (h0' : initSim fp dev ⟨links, b'⟩ wl' = .ok s0')
    (f : Nat → Nat) (hE : Embeds dev s0 s0' f) (hlen : s0'.ts.length = s0.ts.length) (hP : ParentsFound s0)
    (hf : ∀ (i j : Nat) (t u : TState), s0.ts[i]? = some t → s0.ts[j]? = some u → t.params.offset = u.params.offset →
      i < j → f i < f j) (hI : Independent s0) (hI' : Independent s0')
    (e : Ending) (s' : Sim) (c' : Nat) (h : runLoop (simConfig fp dev cpt golden true) ⟨links, b⟩ wl = .ok e)
    (h' : runLoop (simConfig fp dev cpt golden' true) ⟨links, b'⟩ wl' = .ok (.finished s' c')) :
    ∃ s, e = .finished s c' ∧ ∀ (i : Nat) (t : TState), s.ts[i]? = some t →
      ∃ t', s'.ts[f i]? = some t' ∧ t'.start = t.start ∧ t'.endc = t.endc := by
  have hU : FurtherUnrelated dev s0 s0' f := by
    intro i' u hu hne
    obtain ⟨i, hi, e⟩ := embed_onto hE.toContains hlen (List.getElem?_eq_some_iff.mp hu).1
    exact absurd e (hne i hi)
  obtain ⟨s, c, rfl, hc, hall⟩ := C113_rounded_partial fp dev hdev hT cpt hpos hcpt golden golden' links b b' hb hb' wl wl'
    hw hw' s0 s0' h0 h0' f hE hU hP hf hI hI' e s' c' h h'
  obtain ⟨job, hd⟩ := describes_exists h0
  obtain ⟨job', hd'⟩ := describes_exists h0'
  have F := embed_frame h0 h0' hb hb' rfl hE hU hP hd hd'
  have P := embed_private (f := f) h0' hU (fun t ht => (hw' t ht).2) hd hd'
  have hm : ∀ i j, i < s0.ts.length → j < s0.ts.length → (job i).t.offset = (job j).t.offset → i < j → f i < f j := by
    intro i j hi hj he
    have g1 := List.getElem?_eq_getElem hi
    have g2 := List.getElem?_eq_getElem hj
    refine hf i j _ _ g1 g2 ?_
    rw [← (hd i _ g1).1, ← (hd j _ g2).1]; exact he
  have hA := F.apart_agree (fun i hi => embed_lt hE.toContains hi) P
    (line_of_init h0 hd fun _ hi => independent_after hd hI hi)
    (line_of_init h0' hd' fun _ hi => independent_after hd' hI' hi) hm (fp := fp) hpos
  have E' := plan_ends hdev hT hpos hcpt hw' h0' hd' h'
  rw [hlen] at E' hA
  have hge := same_clock (fun i' hi' => embed_onto hE.toContains hlen (by rw [hlen]; exact hi')) hA
    (plan_ends hdev hT hpos hcpt hw h0 hd h) E'
  exact ⟨s, by rw [Nat.le_antisymm hc hge], hall⟩

/-- Starts and ends in `float`. -/
def floatTimes (dev : Device) (ts : List Transfer) : Option (Nat × List (Nat × Nat)) :=
  let wl := (Workload.addPhase {} { transfers := ts }).setGoldenResultCycles [(0, (0, 1000)), (1, (0, 1000))]
  match runLoop (simConfig .ieee dev 128 wl.golden true) ⟨id, id⟩ wl with
  | .ok (.finished s c) => some (c, s.ts.map fun t => (t.start, t.endc))
  | _ => none

/-- Transfers to core (1,1), with injection rates that are rounded to `float`. -/
def toCorner (bytes : Nat) (src : Coord) (rate : ℚ) : Transfer :=
  Transfer.make bytes 1 src (.unicast ⟨0, 1, 1⟩) (FP.ieee.f32.fl rate) 0 .noc0

/-- C118 is violated in `float` although no transfer waits: three transfers from different cores for the same cycle, in two
orders.  The demands 19.5, 12.9 and 9.2 on the sink have different sums; with the larger one, one byte of the first transfer
is left over for the next timestep, where it slows down the other two.  The last one ends at cycle 194 or 173. -/
theorem C118_violated_rounding :
    floatTimes { wormhole .ieee false 1 with rows := 2, cols := 2 }
      [toCorner 1686 ⟨0, 0, 0⟩ 19.5, toCorner 1200 ⟨0, 0, 1⟩ 12.9, toCorner 1200 ⟨0, 1, 0⟩ 9.2] =
      some (256, [(0, 129), (0, 138), (0, 194)]) ∧
    floatTimes { wormhole .ieee false 1 with rows := 2, cols := 2 }
      [toCorner 1200 ⟨0, 0, 1⟩ 12.9, toCorner 1200 ⟨0, 1, 0⟩ 9.2, toCorner 1686 ⟨0, 0, 0⟩ 19.5] =
      some (256, [(0, 135), (0, 173), (0, 128)]) := by decide +kernel

/-- The same in `float`, for transfers for the cycles 0, 5 and 9. -/
example :
    floatTimes Sample.dev [east, { south with offset := 5 }, { other2 with offset := 9 }] =
      some (128, [(0, 55), (5, 81), (9, 109)]) ∧
    floatTimes Sample.dev [{ other2 with offset := 9 }, east, { south with offset := 5 }] =
      some (128, [(9, 109), (0, 55), (5, 81)]) := by
  decide +kernel

/-- Another order of three transfers from different cores. -/
example : times Sample.dev ⟨id, id⟩ [east, south, other2] true = some (128, [(0, 55), (0, 77), (0, 100)]) ∧
    times Sample.dev ⟨id, id⟩ [other2, east, south] true = some (128, [(0, 100), (0, 55), (0, 77)]) := by decide +kernel

/-! ### C114: later schedules -/

/-- C114 is violated if the delay is not a multiple of the timestep: the third transfer takes 244 cycles; with a
schedule that is 64 cycles later it takes 180. -/
theorem C114_violated :
    Sample.result [Sample.tr 64 0, Sample.tr 1 0, Sample.tr 180 0] false =
      some (256, [(0, 64, 64), (0, 1, 1), (64, 308, 180)]) ∧
    Sample.result [Sample.tr 64 64, Sample.tr 1 64, Sample.tr 180 64] false =
      some (384, [(64, 128, 64), (64, 65, 1), (128, 308, 180)]) := by decide +kernel

/-- C114 is violated by rounding: one timestep later, the transfer takes no time. -/
theorem C114_violated_rounding : ieeeRun 1 0 16777216 1 = some (16777216, [(0, 1, 1)]) ∧
    ieeeRun 1 16777216 16777216 1 = some (33554432, [(16777216, 16777216, 1)]) := by decide +kernel

/-- C114 without congestion model, in exact arithmetic: if the schedule is later by `q` timesteps, all starts, all ends
and the final clock are later by `q` timesteps (within the cycle limit and without overflow).  Missing: rounding and
other delays, see the witnesses. -/
theorem C114_alone_partial (dev : Device) (cpt q : Nat) (hpos : 0 < cpt) (hcpt : cpt < 1000000000)
    (golden golden' : GoldenMap) (ho : HashOrder) (hb : ∀ l, (ho.buckets l).Perm l) (wl wl' : Workload)
    (hne : wl.transfers ≠ []) (hbytes : ∀ t ∈ wl.transfers, 0 < t.totalBytes)
    (hS : wl'.transfers = wl.transfers.map (postponed (q * cpt)))
    (s0 : Sim) (h0 : initSim .exact dev ho wl = .ok s0) (hdelay : ∀ i j d, WaitsFor s0 i j d → d < 2000000000)
    (s : Sim) (c : Nat) (e' : Ending) (hlim : c + q * cpt ≤ 50000000)
    (h : runLoop (simConfig .exact dev cpt golden false) ho wl = .ok (.finished s c))
    (h' : runLoop (simConfig .exact dev cpt golden' false) ho wl' = .ok e') :
    ∃ s', e' = .finished s' (c + q * cpt) ∧ s'.ts.map (fun t => (t.start, t.endc)) =
      s.ts.map (fun t => (t.start + q * cpt, t.endc + q * cpt)) := by
  obtain ⟨s0', h0', _⟩ := Out.bind_eq_ok.mp h'
  obtain ⟨job, hd⟩ := describes_exists h0
  obtain ⟨job', hd'⟩ := describes_exists h0'
  obtain ⟨hlen, L⟩ := later_jobs h0 h0' hb hS hd hd'
  have E' := (C111_alone .exact dev cpt hpos (by omega) golden' ho wl' s0' h0' job' hd').2 _ h'
  rw [hlen] at E'
  exact L.ends hpos (later_pos h0 hne) (speed := alone .exact dev job) (speed' := alone .exact dev job')
    (fun _ _ _ _ _ i hi => L.alone_eq dev _ _ _ _ hi) (later_bytes h0 hbytes hd) hlim (by omega)
    (fun i hi j d ha => by have := hdelay i j d (((hd i _ (List.getElem?_eq_getElem hi)).2.2 j d).mp ha); omega)
    ((C111_alone .exact dev cpt hpos (by omega) golden ho wl s0 h0 job hd).2 _ h) E'

/-- C114 with congestion model, in exact arithmetic. -/
theorem C114_shared_partial (dev : Device) (hdev : DeviceOk dev) (hT : TableOk .exact dev.tbt) (cpt q : Nat)
    (hpos : 0 < cpt) (hcpt : cpt < 1000000000)
    (golden golden' : GoldenMap) (ho : HashOrder) (hb : ∀ l, (ho.buckets l).Perm l) (wl wl' : Workload)
    (hw : ∀ t ∈ wl.transfers, 0 ≤ t.injectionRate ∧ RectsOk t)
    (hne : wl.transfers ≠ []) (hbytes : ∀ t ∈ wl.transfers, 0 < t.totalBytes)
    (hS : wl'.transfers = wl.transfers.map (postponed (q * cpt)))
    (s0 : Sim) (h0 : initSim .exact dev ho wl = .ok s0) (hdelay : ∀ i j d, WaitsFor s0 i j d → d < 2000000000)
    (s : Sim) (c : Nat) (e' : Ending) (hlim : c + q * cpt ≤ 50000000)
    (h : runLoop (simConfig .exact dev cpt golden true) ho wl = .ok (.finished s c))
    (h' : runLoop (simConfig .exact dev cpt golden' true) ho wl' = .ok e') :
    ∃ s', e' = .finished s' (c + q * cpt) ∧ s'.ts.map (fun t => (t.start, t.endc)) =
      s.ts.map (fun t => (t.start + q * cpt, t.endc + q * cpt)) := by
  obtain ⟨s0', h0', _⟩ := Out.bind_eq_ok.mp h'
  obtain ⟨job, hd⟩ := describes_exists h0
  obtain ⟨job', hd'⟩ := describes_exists h0'
  obtain ⟨hlen, L⟩ := later_jobs h0 h0' hb hS hd hd'
  have hw' : ∀ t ∈ wl'.transfers, 0 ≤ t.injectionRate ∧ RectsOk t := by
    intro t ht
    rw [hS] at ht
    obtain ⟨u, hu, rfl⟩ := List.mem_map.mp ht
    exact hw u hu
  have E' := (C111_exact dev hdev hT cpt hpos (by omega) golden' ho wl' hw' s0' h0' job' hd').2 _ h'
  rw [hlen] at E'
  exact L.ends hpos (later_pos h0 hne) (speed := shared dev job s0.ts.length cpt)
    (speed' := shared dev job' s0.ts.length cpt)
    (fun _ _ _ hc hA i hi => L.shared_eq dev hc hA hi) (later_bytes h0 hbytes hd) hlim (by omega)
    (fun i hi j d ha => by have := hdelay i j d (((hd i _ (List.getElem?_eq_getElem hi)).2.2 j d).mp ha); omega)
    ((C111_exact dev hdev hT cpt hpos (by omega) golden ho wl hw s0 h0 job hd).2 _ h) E'

/-- C114 without congestion model and with any rounding, as long as all cycles are below 2^24 and so are represented exactly.
Missing: later cycles and other delays, see the witnesses. -/
theorem C114_alone_rounded_partial (fp : FP) (dev : Device) (cpt q : Nat) (hpos : 0 < cpt)
    (golden golden' : GoldenMap) (ho : HashOrder) (hb : ∀ l, (ho.buckets l).Perm l) (wl wl' : Workload)
    (hne : wl.transfers ≠ []) (hbytes : ∀ t ∈ wl.transfers, 0 < t.totalBytes)
    (hS : wl'.transfers = wl.transfers.map (postponed (q * cpt)))
    (s0 : Sim) (h0 : initSim fp dev ho wl = .ok s0) (hdelay : ∀ i j d, WaitsFor s0 i j d → d < 2000000000)
    (s : Sim) (c : Nat) (e' : Ending) (h24 : c + 2 * cpt + q * cpt + 2 ≤ 16777216)
    (h : runLoop (simConfig fp dev cpt golden false) ho wl = .ok (.finished s c))
    (h' : runLoop (simConfig fp dev cpt golden' false) ho wl' = .ok e') :
    ∃ s', e' = .finished s' (c + q * cpt) ∧ s'.ts.map (fun t => (t.start, t.endc)) =
      s.ts.map (fun t => (t.start + q * cpt, t.endc + q * cpt)) := by
  obtain ⟨s0', h0', _⟩ := Out.bind_eq_ok.mp h'
  obtain ⟨job, hd⟩ := describes_exists h0
  obtain ⟨job', hd'⟩ := describes_exists h0'
  obtain ⟨hlen, L⟩ := later_jobs h0 h0' hb hS hd hd'
  have E' := (C111_alone fp dev cpt hpos (by omega) golden' ho wl' s0' h0' job' hd').2 _ h'
  rw [hlen] at E'
  exact L.ends_round hpos (later_pos h0 hne) (speed := alone fp dev job) (speed' := alone fp dev job')
    (fun _ _ _ i hi => by unfold Fluid.alone; rw [L.data i hi]; rfl) (later_bytes h0 hbytes hd) h24
    (fun i hi j d ha => by have := hdelay i j d (((hd i _ (List.getElem?_eq_getElem hi)).2.2 j d).mp ha); omega)
    ((C111_alone fp dev cpt hpos (by omega) golden ho wl s0 h0 job hd).2 _ h) E'

/-- C114 with congestion model and with any rounding, as long as all cycles are below 2^24: rounded sums of demands are
the same, because the later transfers become active in the same order. -/
theorem C114_shared_rounded_partial (fp : FP) (dev : Device) (hdev : DeviceOk dev) (hT : TableOk fp dev.tbt) (cpt q : Nat)
    (hpos : 0 < cpt)
    (golden golden' : GoldenMap) (ho : HashOrder) (hb : ∀ l, (ho.buckets l).Perm l) (wl wl' : Workload)
    (hw : ∀ t ∈ wl.transfers, 0 ≤ t.injectionRate ∧ RectsOk t)
    (hne : wl.transfers ≠ []) (hbytes : ∀ t ∈ wl.transfers, 0 < t.totalBytes)
    (hS : wl'.transfers = wl.transfers.map (postponed (q * cpt)))
    (s0 : Sim) (h0 : initSim fp dev ho wl = .ok s0) (hdelay : ∀ i j d, WaitsFor s0 i j d → d < 2000000000)
    (s : Sim) (c : Nat) (e' : Ending) (h24 : c + 2 * cpt + q * cpt + 2 ≤ 16777216)
    (h : runLoop (simConfig fp dev cpt golden true) ho wl = .ok (.finished s c))
    (h' : runLoop (simConfig fp dev cpt golden' true) ho wl' = .ok e') :
    ∃ s', e' = .finished s' (c + q * cpt) ∧ s'.ts.map (fun t => (t.start, t.endc)) =
      s.ts.map (fun t => (t.start + q * cpt, t.endc + q * cpt)) := by
  obtain ⟨s0', h0', _⟩ := Out.bind_eq_ok.mp h'
  obtain ⟨job, hd⟩ := describes_exists h0
  obtain ⟨job', hd'⟩ := describes_exists h0'
  obtain ⟨hlen, L⟩ := later_jobs h0 h0' hb hS hd hd'
  have hw' : ∀ t ∈ wl'.transfers, 0 ≤ t.injectionRate ∧ RectsOk t := by
    intro t ht
    rw [hS] at ht
    obtain ⟨u, hu, rfl⟩ := List.mem_map.mp ht
    exact hw u hu
  have E' := plan_ends hdev hT hpos (by omega) hw' h0' hd' h'
  rw [hlen, later_queue h0 h0' hS] at E'
  have hoffs : ∀ x ∈ s0.queue, x.1 = (job x.2).t.offset := by
    intro x hx
    obtain ⟨t, ht, e⟩ := (initSim_ok h0).1.offs x hx
    rw [e, (hd _ t ht).1]
  have hdel : ∀ i, i < s0.ts.length → ∀ j d, (job i).after = some (j, d) → d < 2000000000 := fun i hi j d ha =>
    hdelay i j d (((hd i _ (List.getElem?_eq_getElem hi)).2.2 j d).mp ha)
  refine L.ends_round hpos (later_pos h0 hne) (fun k hk hA i hi => ?_) (later_bytes h0 hbytes hd) h24
    (fun i hi j d ha => by have := hdel i hi j d ha; omega) (plan_ends hdev hT hpos (by omega) hw h0 hd h) E'
  have hk2 : (k + 2) * cpt = (k + 1) * cpt + cpt := by ring
  have hk1 : (k + 1) * cpt = k * cpt + cpt := by ring
  have o1 : planOrder fp dev job s0.ts.length cpt s0.queue ((k + 1) * cpt) =
      ((plan fp dev job s0.ts.length cpt s0.queue k).picked job s0.ts.length ((k + 1) * cpt)).2.1 := by
    unfold planOrder
    rw [Nat.mul_div_cancel _ hpos, Nat.add_sub_cancel]
  refine L.sharedIn_eq (by omega) hA ?_ ?_ hi
  · rw [o1, ← (L.picked_eq (fp := fp) (dev := dev) hpos hoffs (later_bytes h0 hbytes hd) k (by omega)
      fun i hi j d ha => by have := hdel i hi j d ha; omega).1]
    unfold planOrder
    rw [show ((k + 1) * cpt + q * cpt) / cpt - 1 = k + q by
      rw [show (k + 1) * cpt + q * cpt = (k + q + 1) * cpt by ring, Nat.mul_div_cancel _ hpos, Nat.add_sub_cancel]]
  · rw [o1]
    exact picked_lt (plan_lt fp dev job s0.ts.length cpt s0.queue k)

/-- The three transfers whose order matters in `float` and two more from the first core, of which the last one has to wait. -/
def cornerCrowd : List Transfer := [toCorner 1686 ⟨0, 0, 0⟩ 19.5, toCorner 1200 ⟨0, 0, 1⟩ 12.9, toCorner 1200 ⟨0, 1, 0⟩ 9.2,
  toCorner 900 ⟨0, 0, 0⟩ 19.5, toCorner 700 ⟨0, 0, 0⟩ 19.5]

/-- Five timesteps later in `float`. -/
example :
    floatTimes { wormhole .ieee false 1 with rows := 2, cols := 2 } cornerCrowd =
      some (384, [(0, 169), (0, 179), (0, 235), (0, 101), (169, 292)]) ∧
    floatTimes { wormhole .ieee false 1 with rows := 2, cols := 2 } (cornerCrowd.map (postponed (5 * 128))) =
      some (1024, [(640, 809), (640, 819), (640, 875), (640, 741), (809, 932)]) := by decide +kernel

/-- Three timesteps later. -/
example : times Sample.dev ⟨id, id⟩ [east, south, { east with offset := 130 }] true =
      some (256, [(0, 55), (0, 77), (130, 163)]) ∧
    times Sample.dev ⟨id, id⟩ ([east, south, { east with offset := 130 }].map (postponed (3 * 128))) true =
      some (640, [(384, 439), (384, 461), (514, 547)]) := by decide +kernel

end NPE.Props
