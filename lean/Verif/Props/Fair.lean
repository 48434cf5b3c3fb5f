import Verif.Proofs.FluidFair
import Verif.Props.Fluid
import Verif.Props.Workload

/-
Properties C124 and C125: equal transfers are treated equally, and phases have no influence.
-/

namespace NPE.Props
open NPE NPE.Spec NPE.Spec.Fluid

/-! ### C124: equal transfers -/

/-- Two transfers have got equally far: both wait, both are active since the same cycle and have moved the same number of
bytes, or both are complete with the same start and end. -/
def EquallyFar (s : Sim) (i j : Nat) : Prop :=
  ∀ (t u : TState), s.ts[i]? = some t → s.ts[j]? = some u →
    (Waiting s i ∧ Waiting s j) ∨ (Active s i ∧ Active s j ∧ u.start = t.start ∧ u.moved = t.moved) ∨
    (Completed s i ∧ Completed s j ∧ u.start = t.start ∧ u.endc = t.endc)

theorem equallyFar_of_shows {s : Sim} {σ : Fluid.State} (h : Shows s σ) {i j : Nat} (e : σ j = σ i) : EquallyFar s i j := by
  intro t u ht hu
  have a := h i t ht
  have b := h j u hu
  rw [e] at b
  cases hσ : σ i with
  | waiting => rw [hσ] at a b; exact Or.inl ⟨a, b⟩
  | active c m =>
    rw [hσ] at a b
    exact Or.inr (Or.inl ⟨a.1, b.1, by rw [a.2.1, b.2.1], by rw [a.2.2, b.2.2]⟩)
  | finished c m =>
    rw [hσ] at a b
    exact Or.inr (Or.inr ⟨a.1, b.1, by rw [a.2.1, b.2.1], by rw [a.2.2, b.2.2]⟩)

/-- C124, without congestion model and with any rounding: two transfers with the same data that wait for the same (or for
nothing) are equally far in every state of the run. -/
theorem C124_alone_partial (fp : FP) (dev : Device) (cpt : Nat) (hcpt : cpt < 4244967296) (golden : GoldenMap)
    (ho : HashOrder) (wl : Workload) (s0 : Sim) (h0 : initSim fp dev ho wl = .ok s0) (i j : Nat) (t u : TState)
    (hi : s0.ts[i]? = some t) (hj : s0.ts[j]? = some u) (hs : SameData t.params u.params)
    (hw : ∀ p d, WaitsFor s0 i p d ↔ WaitsFor s0 j p d) (c : Nat) (s : Sim)
    (h : Reach (simConfig fp dev cpt golden false) s0 c s) : EquallyFar s i j := by
  obtain ⟨job, hd⟩ := describes_exists h0
  have T := twins_of h0 hd hi hj hs hw
  obtain ⟨k, _, hk⟩ := shows_alone h0 hcpt hd h
  exact equallyFar_of_shows hk (T.run (fun curr σ => T.alone fp dev curr σ) k)

/-- C124 with congestion model and any rounding. -/
theorem C124_shared_partial (fp : FP) (dev : Device) (hdev : DeviceOk dev) (hT : TableOk fp dev.tbt) (cpt : Nat)
    (hpos : 0 < cpt) (hcpt : cpt < 4244967296) (golden : GoldenMap)
    (ho : HashOrder) (wl : Workload) (hr : ∀ t ∈ wl.transfers, 0 ≤ t.injectionRate ∧ RectsOk t)
    (s0 : Sim) (h0 : initSim fp dev ho wl = .ok s0) (i j : Nat) (t u : TState)
    (hi : s0.ts[i]? = some t) (hj : s0.ts[j]? = some u) (hs : SameData t.params u.params)
    (hw : ∀ p d, WaitsFor s0 i p d ↔ WaitsFor s0 j p d) (c : Nat) (s : Sim)
    (h : Reach (simConfig fp dev cpt golden true) s0 c s) : EquallyFar s i j := by
  obtain ⟨job, hd⟩ := describes_exists h0
  have T := twins_of h0 hd hi hj hs hw
  obtain ⟨order, key, _⟩ := C111_shared fp dev hdev hT cpt hpos hcpt golden ho wl hr s0 h0 job hd
  obtain ⟨k, _, hk, _⟩ := key c s h
  exact equallyFar_of_shows hk (T.run (fun curr σ => T.sharedIn fp dev cpt order curr σ) k)

/-- C124 is violated for three equal transfers of one queue: the third one waits for the first one. -/
theorem C124_violated :
    times Sample.dev ⟨id, id⟩ [south, south, south] false = some (256, [(0, 45), (0, 45), (45, 173)]) := by decide +kernel

/-- Two equal transfers among others, with congestion: they end at the same cycle. -/
example : times Sample.dev ⟨id, id⟩ [south, east, east, other2] true =
    some (128, [(0, 122), (0, 87), (0, 87), (0, 100)]) := by decide +kernel

/-! ### C125: phases -/

theorem build_transfers (phs : List Phase) :
    (Workload.build phs).transfers.map content = (phs.flatMap (·.transfers)).map content := by
  have h := (C01_dense_ids phs).2.2.2
  unfold Workload.transfers
  have e : ∀ l : List Phase, (l.flatMap (·.transfers)).map content = (l.map fun p => p.transfers.map content).flatten := by
    intro l
    rw [List.map_flatMap, List.flatMap]
  rw [e, e, h]

theorem build_content {phs phs' : List Phase}
    (hc : (phs.flatMap (·.transfers)).map content = (phs'.flatMap (·.transfers)).map content) :
    (Workload.build phs).transfers.map content = (Workload.build phs').transfers.map content := by
  rw [build_transfers, build_transfers, hc]

theorem dense_golden (phs : List Phase) (g : GoldenMap) : ((Workload.build phs).setGoldenResultCycles g).Dense := by
  have hd : (Workload.build phs).Dense := Workload.Dense.foldl phs _ Workload.Dense.empty
  exact ⟨hd.phaseIds, hd.ids, hd.gbl, hd.phase⟩

/-- C125, without congestion model and with any rounding: if the phases of two workloads hold the same transfers in the
same order, all starts and ends and the final clock are the same, whatever the golden results. -/
theorem C125_alone (fp : FP) (dev : Device) (cpt : Nat) (hpos : 0 < cpt) (hcpt : cpt < 4244967296) (g g' : GoldenMap)
    (ho : HashOrder) (hb : ∀ l, (ho.buckets l).Perm l) (phs phs' : List Phase)
    (hc : (phs.flatMap (·.transfers)).map content = (phs'.flatMap (·.transfers)).map content) (wl wl' : Workload)
    (hwl : wl = (Workload.build phs).setGoldenResultCycles g) (hwl' : wl' = (Workload.build phs').setGoldenResultCycles g')
    (e : Ending) (s' : Sim) (c' : Nat) (h : runLoop (simConfig fp dev cpt wl.golden false) ho wl = .ok e)
    (h' : runLoop (simConfig fp dev cpt wl'.golden false) ho wl' = .ok (.finished s' c')) :
    ∃ s, e = .finished s c' ∧ s.ts.map (fun t => (t.start, t.endc)) = s'.ts.map (fun t => (t.start, t.endc)) := by
  obtain ⟨s0, h0, _⟩ := Out.bind_eq_ok.mp h
  obtain ⟨s0', h0', _⟩ := Out.bind_eq_ok.mp h'
  have P := parallel_phases (fp := fp) (dev := dev) (ho := ho) (ho' := ho) rfl (by rw [hwl]; exact dense_golden phs g)
    (by rw [hwl']; exact dense_golden phs' g') (by rw [hwl, hwl']; exact build_content hc) h0 h0'
  obtain ⟨job, hd⟩ := describes_exists h0
  obtain ⟨job', hd'⟩ := describes_exists h0'
  have F := parallel_frame h0 h0' hb hb P hd hd'
  refine same_run (speed := alone fp dev job) (speed' := alone fp dev job')
    (F.run_eq fun _ _ _ _ i hi => F.alone_eq fp dev _ _ _ i hi)
    ((C111_alone fp dev cpt hpos hcpt wl.golden _ wl s0 h0 job hd).2 e h) (fun s c he => finished_le (he ▸ h)) ?_
    (finished_le (cfg := simConfig fp dev cpt wl'.golden false) h')
  rw [← P.1]
  exact (C111_alone fp dev cpt hpos hcpt wl'.golden _ wl' s0' h0' job' hd').2 _ h'

/-- C125 with congestion model and any rounding. -/
theorem C125_shared (fp : FP) (dev : Device) (hdev : DeviceOk dev) (hT : TableOk fp dev.tbt) (cpt : Nat) (hpos : 0 < cpt)
    (hcpt : cpt < 4244967296) (g g' : GoldenMap) (ho : HashOrder) (hb : ∀ l, (ho.buckets l).Perm l) (phs phs' : List Phase)
    (hr : ∀ ph ∈ phs, ∀ t ∈ ph.transfers, 0 ≤ t.injectionRate ∧ RectsOk t)
    (hc : (phs.flatMap (·.transfers)).map content = (phs'.flatMap (·.transfers)).map content) (wl wl' : Workload)
    (hwl : wl = (Workload.build phs).setGoldenResultCycles g) (hwl' : wl' = (Workload.build phs').setGoldenResultCycles g')
    (e : Ending) (s' : Sim) (c' : Nat) (h : runLoop (simConfig fp dev cpt wl.golden true) ho wl = .ok e)
    (h' : runLoop (simConfig fp dev cpt wl'.golden true) ho wl' = .ok (.finished s' c')) :
    ∃ s, e = .finished s c' ∧ s.ts.map (fun t => (t.start, t.endc)) = s'.ts.map (fun t => (t.start, t.endc)) := by
  obtain ⟨s0, h0, _⟩ := Out.bind_eq_ok.mp h
  obtain ⟨s0', h0', _⟩ := Out.bind_eq_ok.mp h'
  have hT1 : wl.transfers.map content = (phs.flatMap (·.transfers)).map content := by
    rw [hwl]; exact build_transfers phs
  have hT2 : wl'.transfers.map content = (phs.flatMap (·.transfers)).map content := by
    rw [hwl', hc]; exact build_transfers phs'
  have hall : ∀ w : Workload, w.transfers.map content = (phs.flatMap (·.transfers)).map content →
      ∀ t ∈ w.transfers, 0 ≤ t.injectionRate ∧ RectsOk t := by
    intro w hw t ht
    have hm : content t ∈ (phs.flatMap (·.transfers)).map content := by rw [← hw]; exact List.mem_map_of_mem ht
    obtain ⟨u, hu, he⟩ := List.mem_map.mp hm
    obtain ⟨ph, hp, hup⟩ := List.mem_flatMap.mp hu
    obtain ⟨r1, r2⟩ := hr ph hp u hup
    have e1 : t.injectionRate = u.injectionRate := (congrArg Transfer.injectionRate he).symm
    have e2 : t.dst = u.dst := (congrArg Transfer.dst he).symm
    refine ⟨by rw [e1]; exact r1, ?_⟩
    unfold RectsOk at r2 ⊢
    rw [e2]; exact r2
  have P := parallel_phases (fp := fp) (dev := dev) (ho := ho) (ho' := ho) rfl (by rw [hwl]; exact dense_golden phs g)
    (by rw [hwl']; exact dense_golden phs' g') (hT1.trans hT2.symm) h0 h0'
  exact same_rounded hdev hT (hall wl hT1) (hall wl' hT2) hpos hcpt h0 h0' hb hb P h h'

/-- Starts and ends of a run with several phases. -/
def phasedTimes (phs : List Phase) (congestion : Bool) : Option (Nat × List (Nat × Nat)) :=
  let wl := (Workload.build phs).setGoldenResultCycles [(0, (0, 1000))]
  match runLoop (simConfig .exact Sample.dev 128 wl.golden congestion) ⟨id, id⟩ wl with
  | .ok (.finished s c) => some (c, s.ts.map fun t => (t.start, t.endc))
  | _ => none

/-- Three phases, two phases and one: the second phase does not wait for the first one. -/
example : phasedTimes [⟨[south], 0⟩, ⟨[east], 0⟩, ⟨[south, south], 0⟩] true =
      phasedTimes [⟨[south, east], 0⟩, ⟨[south, south], 0⟩] true ∧
    phasedTimes [⟨[south], 0⟩, ⟨[east], 0⟩, ⟨[south, south], 0⟩] true = phasedTimes [⟨[south, east, south, south], 0⟩] true ∧
    phasedTimes [⟨[south], 0⟩, ⟨[east], 0⟩] true = some (128, [(0, 77), (0, 55)]) := by decide +kernel

end NPE.Props
