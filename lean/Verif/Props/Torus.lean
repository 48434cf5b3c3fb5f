import Verif.Proofs.Turn
import Verif.Props.Fluid
import Verif.Props.Route

/-
Properties C129 and C130: the symmetries of the torus.  Where on the grid transfers take place does not matter, as long
as their positions relative to each other and the kinds of the receiving cores stay; and the two NoCs are mirror images.
-/

namespace NPE.Props
open NPE NPE.Spec NPE.Spec.Fluid

theorem alike_alone {fp : FP} {dev dev' : Device} {ho ho' : HashOrder} {wl wl' : Workload} {s0 s0' : Sim} {cpt : Nat}
    {golden golden' : GoldenMap} (hpos : 0 < cpt) (hcpt : cpt < 4244967296)
    (h0 : initSim fp dev ho wl = .ok s0) (h0' : initSim fp dev' ho' wl' = .ok s0')
    (hb : ∀ l, (ho.buckets l).Perm l) (hb' : ∀ l, (ho'.buckets l).Perm l) (P : Alike fp dev dev' s0 s0')
    {e : Ending} {s' : Sim} {c' : Nat}
    (h : runLoop (simConfig fp dev cpt golden false) ho wl = .ok e)
    (h' : runLoop (simConfig fp dev' cpt golden' false) ho' wl' = .ok (.finished s' c')) :
    ∃ s, e = .finished s c' ∧ s.ts.map (fun t => (t.start, t.endc)) = s'.ts.map (fun t => (t.start, t.endc)) := by
  obtain ⟨job, hd⟩ := describes_exists h0
  obtain ⟨job', hd'⟩ := describes_exists h0'
  have F := P.image h0 h0' hb hb' hd hd'
  have a := (C111_alone fp dev cpt hpos hcpt golden ho wl s0 h0 job hd).2 e h
  have a' := (C111_alone fp dev' cpt hpos hcpt golden' ho' wl' s0' h0' job' hd').2 _ h'
  rw [P.len] at a'
  exact same_run (F.run_eq fun _ _ _ _ i hi => F.own i hi) a (fun s c he => finished_le (he ▸ h)) a'
    (finished_le (cfg := simConfig fp dev' cpt golden' false) h')

theorem within_rects {dev : Device} {t : Transfer} (h : Within dev t) : RectsOk t := by
  obtain ⟨_, d, hd, _⟩ := h
  intro gs hg
  rw [hd] at hg
  cases hg

theorem relocated_rates {dev : Device} {wl wl' : Workload} {pos : Coord → Coord} {noc : Noc → Noc}
    (hw : ∀ t ∈ wl.transfers, 0 ≤ t.injectionRate ∧ Within dev t)
    (hS : wl'.transfers = wl.transfers.map (relocated pos noc)) :
    ∀ t ∈ wl'.transfers, 0 ≤ t.injectionRate ∧ RectsOk t := by
  intro t ht
  rw [hS] at ht
  obtain ⟨u, hu, rfl⟩ := List.mem_map.mp ht
  refine ⟨(hw u hu).1, ?_⟩
  obtain ⟨_, d, hd, _⟩ := (hw u hu).2
  intro gs hg
  unfold relocated at hg
  simp only [hd] at hg
  cases hg

/-! ### C129: moving all transfers -/

/-- C129, routes: the route between moved cores consists of the moved links. -/
theorem C129_route (dev : Device) (hdev : DeviceOk dev) (ord : List Int → List Int) (dr dc : Int) (noc : Noc) (s e : Coord)
    (hs : IsCore dev s) (he : IsCore dev e) (hse : e.dev = s.dev) (ids : List Int) (ls : List LinkAttr)
    (h : dev.route ord noc s (.unicast e) = .ok ids) (hl : Denotes dev ids ls) :
    ∃ ids', dev.route ord noc (shiftBy dev.rows dev.cols dr dc s) (.unicast (shiftBy dev.rows dev.cols dr dc e)) = .ok ids' ∧
      Denotes dev ids' (ls.map fun l => ⟨shiftBy dev.rows dev.cols dr dc l.coord, l.type⟩) := by
  have T := turn_shift hdev dr dc
  refine ⟨_, dev.route_unicast_eq hdev ord noc _ _ (T.core s hs) (T.core e he) hse, ?_⟩
  have hls : ls = dev.legs s.dev noc s e := by
    rw [dev.route_unicast_eq hdev ord noc s e hs he hse] at h
    rw [← Out.ok.inj h] at hl
    exact denotes_unique hl (dev.denotes_map _ (dev.legs_on _ _ _ _ hs.1 hs.2 he.2))
  have := T.legs s.dev noc s e hs he
  simp only [id] at this
  rw [show (shiftBy dev.rows dev.cols dr dc s).dev = s.dev from rfl, this, hls]
  refine dev.denotes_map _ fun l hlm => ?_
  obtain ⟨a, ha, rfl⟩ := List.mem_map.mp hlm
  exact T.core _ (dev.legs_on _ _ _ _ hs.1 hs.2 he.2 a ha)

/-- C129 without congestion model, with any rounding. -/
theorem C129_alone (fp : FP) (dev : Device) (hdev : DeviceOk dev) (cpt : Nat) (hpos : 0 < cpt) (hcpt : cpt < 4244967296)
    (golden golden' : GoldenMap) (ho ho' : HashOrder) (hb : ∀ l, (ho.buckets l).Perm l) (hb' : ∀ l, (ho'.buckets l).Perm l)
    (dr dc : Int) (wl wl' : Workload) (hw : ∀ t ∈ wl.transfers, Within dev t)
    (hS : wl'.transfers = wl.transfers.map (relocated (shiftBy dev.rows dev.cols dr dc) id))
    (hsink : ∀ t ∈ wl.transfers, ∀ d, t.dst = .unicast d →
      dev.getSinkAbsorptionRate (shiftBy dev.rows dev.cols dr dc d) = dev.getSinkAbsorptionRate d)
    (hg : (∀ t ∈ wl.transfers, ¬ NamesParent t) ∨ archDims dev.arch = (dev.rows, dev.cols))
    (e : Ending) (s' : Sim) (c' : Nat)
    (h : runLoop (simConfig fp dev cpt golden false) ho wl = .ok e)
    (h' : runLoop (simConfig fp dev cpt golden' false) ho' wl' = .ok (.finished s' c')) :
    ∃ s, e = .finished s c' ∧ s.ts.map (fun t => (t.start, t.endc)) = s'.ts.map (fun t => (t.start, t.endc)) := by
  obtain ⟨s0, h0, _⟩ := Out.bind_eq_ok.mp h
  obtain ⟨s0', h0', _⟩ := Out.bind_eq_ok.mp h'
  exact alike_alone hpos hcpt h0 h0' hb hb' ((turn_shift hdev dr dc).alike hdev hdev rfl rfl h0 h0' hw hS hsink
    fun t ht hp p _ => hg.elim (fun hn => absurd hp (hn t ht)) fun hA => groupDelay_shift hA dr dc _) h h'

/-- C129 with congestion model, with any rounding. -/
theorem C129_shared (fp : FP) (dev : Device) (hdev : DeviceOk dev) (hT : TableOk fp dev.tbt) (cpt : Nat) (hpos : 0 < cpt)
    (hcpt : cpt < 4244967296)
    (golden golden' : GoldenMap) (ho ho' : HashOrder) (hb : ∀ l, (ho.buckets l).Perm l) (hb' : ∀ l, (ho'.buckets l).Perm l)
    (dr dc : Int) (wl wl' : Workload) (hw : ∀ t ∈ wl.transfers, 0 ≤ t.injectionRate ∧ Within dev t)
    (hS : wl'.transfers = wl.transfers.map (relocated (shiftBy dev.rows dev.cols dr dc) id))
    (hsink : ∀ t ∈ wl.transfers, ∀ d, t.dst = .unicast d →
      dev.getSinkAbsorptionRate (shiftBy dev.rows dev.cols dr dc d) = dev.getSinkAbsorptionRate d)
    (hg : (∀ t ∈ wl.transfers, ¬ NamesParent t) ∨ archDims dev.arch = (dev.rows, dev.cols))
    (e : Ending) (s' : Sim) (c' : Nat)
    (h : runLoop (simConfig fp dev cpt golden true) ho wl = .ok e)
    (h' : runLoop (simConfig fp dev cpt golden' true) ho' wl' = .ok (.finished s' c')) :
    ∃ s, e = .finished s c' ∧ s.ts.map (fun t => (t.start, t.endc)) = s'.ts.map (fun t => (t.start, t.endc)) := by
  obtain ⟨s0, h0, _⟩ := Out.bind_eq_ok.mp h
  obtain ⟨s0', h0', _⟩ := Out.bind_eq_ok.mp h'
  exact alike_rounded hdev hT hdev hT rfl rfl (fun t ht => ⟨(hw t ht).1, within_rects (hw t ht).2⟩)
    (relocated_rates hw hS) hpos hcpt h0 h0' hb hb'
    ((turn_shift hdev dr dc).alike hdev hdev rfl rfl h0 h0' (fun t ht => (hw t ht).2) hS hsink
    fun t ht hp p _ => hg.elim (fun hn => absurd hp (hn t ht)) fun hA => groupDelay_shift hA dr dc _) h h'

/-- The devices that can be created have the dimensions of their architecture. -/
theorem C129_devices (fp : FP) (name : String) (dev : Device) (h : createDeviceModel fp name = .ok dev) :
    DeviceOk dev ∧ archDims dev.arch = (dev.rows, dev.cols) := by
  refine ⟨factory_devices_ok fp name dev h, ?_⟩
  unfold createDeviceModel at h
  split_ifs at h <;> cases h <;> rfl

/-- A grid of four rows and four columns with DRAM in the first column, and three transfers between its worker cores. -/
def grid4 : Device :=
  { wormhole .exact false 1 with rows := 4, cols := 4, coreTable := fun _ c => if c = 0 then .dram else .worker }
def trio : List Transfer :=
  [Transfer.make 8192 2 ⟨0, 0, 1⟩ (.unicast ⟨0, 2, 3⟩) 28 0 .noc0,
   Transfer.make 4096 1 ⟨0, 0, 2⟩ (.unicast ⟨0, 2, 3⟩) 28 10 .noc0,
   Transfer.make 2048 1 ⟨0, 2, 3⟩ (.unicast ⟨0, 0, 1⟩) 28 10 .noc1]

/-- Three rows below, around the edge, everything takes the same time. -/
example : times grid4 ⟨id, id⟩ trio true = some (896, [(0, 774), (10, 297), (10, 84)]) ∧
    times grid4 ⟨id, id⟩ (trio.map (relocated (shiftBy 4 4 3 0) id)) true =
      some (896, [(0, 774), (10, 297), (10, 84)]) := by decide +kernel

/-- The condition on the receiving cores is needed: two rows below and one column to the right, the data of the first
two transfers end at a DRAM core. -/
theorem C129_sinks : times grid4 ⟨id, id⟩ (trio.map (relocated (shiftBy 4 4 2 1) id)) true =
    some (896, [(0, 873), (10, 347), (10, 84)]) := by decide +kernel

/-! ### C130: the NoCs are mirror images -/

/-- C130, routes: the route back on the other NoC runs over the opposite links of the route, in reverse order. -/
theorem C130_back (dev : Device) (hdev : DeviceOk dev) (ord : List Int → List Int) (noc : Noc) (s e : Coord)
    (hs : IsCore dev s) (he : IsCore dev e) (hse : e.dev = s.dev) (ids : List Int) (ls : List LinkAttr)
    (h : dev.route ord noc s (.unicast e) = .ok ids) (hl : Denotes dev ids ls) :
    ∃ ids', dev.route ord (otherNoc noc) e (.unicast s) = .ok ids' ∧
      Denotes dev ids' (ls.map (opposite dev.rows dev.cols)).reverse := by
  refine ⟨_, dev.route_unicast_eq hdev ord (otherNoc noc) e s he hs hse.symm, ?_⟩
  have hls : ls = dev.legs s.dev noc s e := by
    rw [dev.route_unicast_eq hdev ord noc s e hs he hse] at h
    rw [← Out.ok.inj h] at hl
    exact denotes_unique hl (dev.denotes_map _ (dev.legs_on _ _ _ _ hs.1 hs.2 he.2))
  rw [hls, ← legs_opposite dev _ _ _ _ hdev.rows_pos hdev.cols_pos, ← hse]
  exact dev.denotes_map _ (dev.legs_on _ _ _ _ he.1 he.2 hs.2)

theorem transposed_ok {dev : Device} (hdev : DeviceOk dev) (core : Nat → Nat → CoreType) : DeviceOk (transposed dev core) := by
  refine ⟨hdev.cols_pos, hdev.rows_pos, hdev.chips_pos, ?_, hdev.single⟩
  have := hdev.ids
  show dev.chips * (dev.cols * (dev.rows * 4)) ≤ 32768
  have e : dev.chips * (dev.cols * (dev.rows * 4)) = dev.chips * (dev.rows * (dev.cols * 4)) := by ring
  rw [e]; exact this

/-- C130 without congestion model, with any rounding: the mirror image of a workload, with NoC 0 and NoC 1 exchanged, on
the device with rows and columns exchanged has the same starts and ends. -/
theorem C130_alone (fp : FP) (dev : Device) (hdev : DeviceOk dev) (core : Nat → Nat → CoreType) (cpt : Nat) (hpos : 0 < cpt)
    (hcpt : cpt < 4244967296)
    (golden golden' : GoldenMap) (ho ho' : HashOrder) (hb : ∀ l, (ho.buckets l).Perm l) (hb' : ∀ l, (ho'.buckets l).Perm l)
    (wl wl' : Workload) (hw : ∀ t ∈ wl.transfers, Within dev t ∧ ¬ NamesParent t)
    (hS : wl'.transfers = wl.transfers.map (relocated (mirrored dev.rows dev.cols) otherNoc))
    (hsink : ∀ t ∈ wl.transfers, ∀ d, t.dst = .unicast d →
      (transposed dev core).getSinkAbsorptionRate (mirrored dev.rows dev.cols d) = dev.getSinkAbsorptionRate d)
    (e : Ending) (s' : Sim) (c' : Nat)
    (h : runLoop (simConfig fp dev cpt golden false) ho wl = .ok e)
    (h' : runLoop (simConfig fp (transposed dev core) cpt golden' false) ho' wl' = .ok (.finished s' c')) :
    ∃ s, e = .finished s c' ∧ s.ts.map (fun t => (t.start, t.endc)) = s'.ts.map (fun t => (t.start, t.endc)) := by
  obtain ⟨s0, h0, _⟩ := Out.bind_eq_ok.mp h
  obtain ⟨s0', h0', _⟩ := Out.bind_eq_ok.mp h'
  exact alike_alone hpos hcpt h0 h0' hb hb' ((turn_mirror hdev core).alike hdev (transposed_ok hdev core) rfl rfl h0 h0'
    (fun t ht => (hw t ht).1) hS hsink fun t ht hp p _ => absurd hp (hw t ht).2) h h'

/-- C130 with congestion model, with any rounding. -/
theorem C130_shared (fp : FP) (dev : Device) (hdev : DeviceOk dev) (hT : TableOk fp dev.tbt) (core : Nat → Nat → CoreType)
    (cpt : Nat) (hpos : 0 < cpt) (hcpt : cpt < 4244967296)
    (golden golden' : GoldenMap) (ho ho' : HashOrder) (hb : ∀ l, (ho.buckets l).Perm l) (hb' : ∀ l, (ho'.buckets l).Perm l)
    (wl wl' : Workload) (hw : ∀ t ∈ wl.transfers, 0 ≤ t.injectionRate ∧ Within dev t ∧ ¬ NamesParent t)
    (hS : wl'.transfers = wl.transfers.map (relocated (mirrored dev.rows dev.cols) otherNoc))
    (hsink : ∀ t ∈ wl.transfers, ∀ d, t.dst = .unicast d →
      (transposed dev core).getSinkAbsorptionRate (mirrored dev.rows dev.cols d) = dev.getSinkAbsorptionRate d)
    (e : Ending) (s' : Sim) (c' : Nat)
    (h : runLoop (simConfig fp dev cpt golden true) ho wl = .ok e)
    (h' : runLoop (simConfig fp (transposed dev core) cpt golden' true) ho' wl' = .ok (.finished s' c')) :
    ∃ s, e = .finished s c' ∧ s.ts.map (fun t => (t.start, t.endc)) = s'.ts.map (fun t => (t.start, t.endc)) := by
  obtain ⟨s0, h0, _⟩ := Out.bind_eq_ok.mp h
  obtain ⟨s0', h0', _⟩ := Out.bind_eq_ok.mp h'
  exact alike_rounded hdev hT (transposed_ok hdev core) hT rfl rfl
    (fun t ht => ⟨(hw t ht).1, within_rects (hw t ht).2.1⟩)
    (relocated_rates (fun t ht => ⟨(hw t ht).1, (hw t ht).2.1⟩) hS) hpos hcpt h0 h0' hb hb'
    ((turn_mirror hdev core).alike hdev (transposed_ok hdev core) rfl rfl h0 h0'
    (fun t ht => (hw t ht).2.1) hS hsink fun t ht hp p _ => absurd hp (hw t ht).2.2) h h'

/-- The mirror image of the three transfers, with the NoCs exchanged. -/
example : times (transposed grid4 fun _ _ => .worker) ⟨id, id⟩
    (trio.map (relocated (mirrored 4 4) otherNoc)) true = some (896, [(0, 774), (10, 297), (10, 84)]) := by decide +kernel

/-- There and back on a Wormhole chip, around the corner of the torus. -/
example : ((wormhole .exact false 1).legs 0 .noc0 ⟨0, 11, 8⟩ ⟨0, 0, 0⟩).length = 3 ∧
    (wormhole .exact false 1).legs 0 .noc1 ⟨0, 0, 0⟩ ⟨0, 11, 8⟩ =
      [⟨⟨0, 0, 0⟩, .noc1North⟩, ⟨⟨0, 11, 0⟩, .noc1West⟩, ⟨⟨0, 11, 9⟩, .noc1West⟩] ∧
    opposite 12 10 ⟨⟨0, 11, 0⟩, .noc0South⟩ = ⟨⟨0, 0, 0⟩, .noc1North⟩ := by decide +kernel

end NPE.Props
