import Verif.Proofs.TotalRun
import Verif.Model.Api

/-
Executable transfers: routes, network interfaces, reports, whole runs.
-/

namespace NPE
open Spec (Reach DeviceOk TableOk Capacities OnChips IsCore RectOk Executable Reachable OnGrid)

theorem forall₂_exists_of_mem_right {α β : Type} {R : α → β → Prop} : ∀ {l : List α} {m : List β},
    List.Forall₂ R l m → ∀ {b : β}, b ∈ m → ∃ a ∈ l, R a b := by
  intro l m h
  induction h with
  | nil => intro b hb; simp at hb
  | cons h1 _ ih =>
    intro b hb
    rcases List.mem_cons.mp hb with rfl | hb
    · exact ⟨_, by simp, h1⟩
    · obtain ⟨a, ha, hr⟩ := ih hb
      exact ⟨a, List.mem_cons_of_mem _ ha, hr⟩

theorem exec_route {dev : Device} (hd : DeviceOk dev) {ord : List Int → List Int}
    (hord : ∀ l, (ord l).Perm l) {t : Transfer} (h : Executable dev t) :
    ∃ r, dev.route ord t.noc t.src t.dst = .ok r ∧
      ∀ i ∈ r, ∃ a : LinkAttr, dev.On a.coord ∧ i = dev.linkIdx a := by
  have hdst := h.dst
  cases hdst' : t.dst with
  | unicast e =>
    rw [hdst'] at hdst
    cases hdst with
    | core _ he hdv =>
      refine ⟨_, dev.route_unicast_eq hd ord t.noc t.src e h.src he hdv, ?_⟩
      intro i hi
      obtain ⟨l, hl, rfl⟩ := List.mem_map.mp hi
      exact ⟨l, dev.legs_on _ _ _ _ h.src.1 h.src.2 he.2 l hl, rfl⟩
  | mcast gs =>
    rw [hdst'] at hdst
    cases hdst with
    | rect g hlo hhi hr hc hdv =>
      obtain ⟨ids, h1, _, h3⟩ := dev.route_mcast_eq hd ord hord t.noc t.src g h.src hlo hhi hdv
      refine ⟨ids, h1, ?_⟩
      intro i hi
      obtain ⟨x, _, hx, hi⟩ := (h3 i).mp hi
      obtain ⟨l, hl, rfl⟩ := List.mem_map.mp hi
      exact ⟨l, dev.legs_on _ _ _ _ h.src.1 h.src.2 hx l hl, rfl⟩

theorem getCoreType_total {dev : Device} {c : Coord} (h : OnGrid dev.rows dev.cols c) :
    ∃ ty, dev.getCoreType c = .ok ty := by
  unfold Device.getCoreType
  simp only
  have h1 : 0 ≤ c.row * dev.cols + c.col := by
    have := mul_nonneg h.1.1 (Int.natCast_nonneg dev.cols)
    have := h.2.1
    omega
  have h2 : c.row * dev.cols + c.col < dev.rows * dev.cols := by
    have h3 : (c.row + 1) * dev.cols ≤ dev.rows * dev.cols :=
      mul_le_mul_of_nonneg_right (by have := h.1.2; omega) (Int.natCast_nonneg _)
    have := h.2.2
    rw [add_mul, one_mul] at h3
    omega
  rw [if_pos ⟨h1, h2⟩]
  exact ⟨_, rfl⟩

theorem niuAt_total {dev : Device} (hd : DeviceOk dev) {c : Coord} (h : OnGrid dev.rows dev.cols c)
    (hdv : 0 ≤ c.dev ∧ c.dev < dev.chips) (ty : NIUType) :
    ∃ i : Nat, dev.niuAt c ty = .ok (i : Int) ∧ i < dev.nLinks := by
  unfold Device.niuAt
  have hOn : dev.On ⟨if dev.multichip then c.dev else 0, c.row, c.col⟩ := by
    refine ⟨?_, h.1, h.2⟩
    simp only
    split
    · exact hdv
    · have := hd.chips_pos; omega
  exact ⟨_, dev.getNIUID_eq hd.ids _ hOn, dev.niuIdx_lt _ hOn⟩

theorem exec_placed {fp : FP} {dev : Device} (hd : DeviceOk dev) {ord : List Int → List Int}
    (hord : ∀ l, (ord l).Perm l) {t : TState} (h : Executable dev t.params)
    (hsmall : dev.rows ≤ 32767 ∧ dev.cols ≤ 32767)
    (hr : dev.route ord t.params.noc t.params.src t.params.dst = .ok t.route)
    (hrep : fp.f32.Rep t.params.injectionRate) : Placed fp dev t := by
  have hsz := sized_init dev
  have hnl : dev.niuTable.length = dev.nLinks := dev.niuTable_length
  have hll : dev.linkTable.length = dev.nLinks := dev.linkTable_length
  have hroute : ∀ i ∈ t.route, 0 ≤ i ∧ i < (dev.nLinks : Int) := by
    obtain ⟨r, h1, h2⟩ := exec_route hd hord h
    rw [hr] at h1
    rw [Out.ok.inj h1]
    intro i hi
    obtain ⟨a, ha, rfl⟩ := h2 i hi
    have := dev.linkIdx_lt a ha
    omega
  refine ⟨hrep, ⟨?_, ?_, ?_⟩, ?_⟩
  · obtain ⟨i, hi, hlt⟩ := niuAt_total hd (c := t.params.src) ⟨h.src.2.1, h.src.2.2⟩ h.src.1
      (srcNiu t.params.noc)
    have hsk : ∃ l : List Int, sinkIds dev t.params = .ok l ∧ ∀ j ∈ l, 0 ≤ j ∧ j < (dev.nLinks : Int) := by
      have hdst := h.dst
      unfold sinkIds
      cases hdst' : t.params.dst with
      | unicast e =>
        rw [hdst'] at hdst
        cases hdst with
        | core _ he hdv =>
          obtain ⟨j, hj, hlt⟩ := niuAt_total hd (c := e) ⟨he.2.1, he.2.2⟩ he.1 (sinkNiu t.params.noc)
          refine ⟨[(j : Int)], by simp only [hj, Out.bind_ok], ?_⟩
          intro k hk
          simp only [List.mem_singleton] at hk
          omega
      | mcast gs =>
        rw [hdst'] at hdst
        cases hdst with
        | rect g hlo hhi hrr hcc hdv =>
          have hrect : RectOk g := by
            obtain ⟨⟨a1, a2⟩, a3, a4⟩ := hlo
            obtain ⟨⟨b1, b2⟩, b3, b4⟩ := hhi
            exact ⟨hrr, hcc, by omega, by omega, by omega, by omega⟩
          have hcell : ∀ c ∈ Spec.cells g, OnGrid dev.rows dev.cols c ∧ c.dev = t.params.src.dev := by
            intro c hc
            obtain ⟨c1, c2, c3⟩ := mem_cells.mp hc
            obtain ⟨⟨a1, a2⟩, a3, a4⟩ := hlo
            obtain ⟨⟨b1, b2⟩, b3, b4⟩ := hhi
            exact ⟨⟨⟨by omega, by omega⟩, by omega, by omega⟩, by rw [c1, hdv]⟩
          simp only
          have hmc : mcastCoords [g] = .ok (Spec.cells g) := by
            rw [mcastCoords_eq [g] (by intro g' hg'; simp only [List.mem_singleton] at hg'; rw [hg']; exact hrect)]
            simp
          obtain ⟨tys, htys⟩ := Out.mapM_total (f := dev.getCoreType) (l := Spec.cells g)
            fun c hc => getCoreType_total (hcell c hc).1
          unfold mcastWorkers
          rw [hmc, Out.bind_ok, htys, Out.bind_ok, Out.pure_eq, Out.bind_ok]
          set W := (((Spec.cells g).zip tys).filter fun p => p.2 = .worker).map (·.1) with hW
          have hWc : ∀ c ∈ W, c ∈ Spec.cells g := by
            intro c hc
            obtain ⟨p, hp, rfl⟩ := List.mem_map.mp hc
            exact (List.of_mem_zip (List.mem_of_mem_filter hp)).1
          have hW1 : ∀ c ∈ W, ∃ j : Int, dev.niuAt c (sinkNiu t.params.noc) = .ok j ∧
              0 ≤ j ∧ j < (dev.nLinks : Int) := by
            intro c hc
            obtain ⟨a, b⟩ := hcell c (hWc c hc)
            obtain ⟨j, hj, hlt⟩ := niuAt_total hd a (by rw [b]; exact h.src.1) (sinkNiu t.params.noc)
            exact ⟨j, hj, by omega, by omega⟩
          obtain ⟨l, hl⟩ := Out.mapM_total (f := fun c => dev.niuAt c (sinkNiu t.params.noc)) (l := W)
            fun c hc => (hW1 c hc).imp fun _ h => h.1
          refine ⟨l, hl, ?_⟩
          intro j hj
          have h2 := Out.mapM_eq_ok.mp hl
          obtain ⟨c, hc, hcj⟩ := forall₂_exists_of_mem_right h2 hj
          obtain ⟨j', e1, e2⟩ := hW1 c hc
          rw [hcj] at e1
          rw [Out.ok.inj e1]; exact e2
    obtain ⟨l, hl, hlr⟩ := hsk
    refine ⟨(i : Int) :: l, ?_, ?_⟩
    · unfold loads
      rw [hi, Out.bind_ok, hl, Out.bind_ok]
    · intro j hj
      rw [hsz.1, hnl]
      rcases List.mem_cons.mp hj with e | hj
      · subst e; omega
      · exact hlr j hj
  · rw [hsz.2.1, hll]; exact hroute
  · unfold mcastRoute
    split
    · rw [hsz.2.2, hll]; exact hroute
    · simp
  · intro e he
    have hdst := h.dst
    rw [he] at hdst
    cases hdst with
    | core _ hc _ =>
      obtain ⟨ty, hty⟩ := getCoreType_total (dev := dev) (c := e) ⟨hc.2.1, hc.2.2⟩
      unfold Device.getSinkAbsorptionRate
      rw [hty]
      exact ⟨_, rfl⟩

/-! ### The report -/

theorem computeSummary_total {dev : Device} {wl : Workload} (h : ∀ t ∈ wl.transfers, Executable dev t)
    (d : Int) (s : DevStats) : ∃ r, computeSummary dev wl d s = .ok r := by
  have hsrc : ∀ t ∈ wl.transfers, ∃ ty, dev.getCoreType t.src = .ok ty := fun t ht =>
    getCoreType_total ⟨(h t ht).src.2.1, (h t ht).src.2.2⟩
  have hdst : ∀ t ∈ wl.transfers, ∀ e, t.dst = .unicast e → ∃ ty, dev.getCoreType e = .ok ty := by
    intro t ht e he
    have hd := (h t ht).dst
    rw [he] at hd
    cases hd with
    | core _ hc _ => exact getCoreType_total ⟨hc.2.1, hc.2.2⟩
  have hmem : ∀ t ∈ wl.transfers.filter (countedTransfer d), t ∈ wl.transfers := fun t ht =>
    List.mem_of_mem_filter ht
  obtain ⟨bytes, hb⟩ := Out.mapM_total (f := dramBytes dev) (l := wl.transfers.filter (countedTransfer d)) (by
    intro t ht
    obtain ⟨ty, hty⟩ := hsrc t (hmem t ht)
    unfold dramBytes
    rw [hty, Out.bind_ok]
    split
    · exact ⟨_, rfl⟩
    · split
      · rename_i e he
        obtain ⟨ty2, hty2⟩ := hdst t (hmem t ht) e he
        rw [hty2]
        exact ⟨_, rfl⟩
      · exact ⟨_, rfl⟩)
  have heth : ∀ (l : List Transfer) (m : List (Coord × Nat)), (∀ t ∈ l, t ∈ wl.transfers) →
      ∃ m', Out.foldlM (ethOne dev) m l = .ok m' := by
    intro l
    induction l with
    | nil => intro m _; exact ⟨m, rfl⟩
    | cons t l ih =>
      intro m hl
      have h1 : ∃ m', ethOne dev m t = .ok m' := by
        unfold ethOne
        split
        · rename_i e he
          obtain ⟨ty2, hty2⟩ := hdst t (hl t (by simp)) e he
          rw [hty2]
          exact ⟨_, rfl⟩
        · exact ⟨_, rfl⟩
      obtain ⟨m', h1⟩ := h1
      rw [Out.foldlM_cons, h1, Out.bind_ok]
      exact ih m' fun u hu => hl u (List.mem_cons_of_mem _ hu)
  obtain ⟨eth, he⟩ := heth _ [] hmem
  unfold computeSummary
  simp only
  rw [hb, Out.bind_ok, he, Out.bind_ok]
  exact ⟨_, rfl⟩

theorem report_total {dev : Device} {wl : Workload} (h : ∀ t ∈ wl.transfers, Executable dev t)
    (st : Stats) : ∃ r, st.report dev wl = .ok r := by
  unfold Stats.report
  refine Out.mapM_total fun e _ => ?_
  obtain ⟨r, hr⟩ := computeSummary_total h e.1 e.2
  rw [hr]
  exact ⟨_, rfl⟩

/-! ### Whole runs -/

theorem exec_onChips {dev : Device} {ts : List Transfer} (h : ∀ t ∈ ts, Executable dev t) : OnChips dev ts :=
  fun t ht => (h t ht).src.1

theorem exec_init {fp : FP} {dev : Device} (hd : DeviceOk dev) {ho : HashOrder}
    (hord : ∀ l, (ho.links l).Perm l) {wl : Workload} (hw : wl.Dense)
    (h : ∀ t ∈ wl.transfers, Executable dev t) : ∃ s, initSim fp dev ho wl = .ok s := by
  refine initSim_total hw ?_ ?_
  · intro t ht
    obtain ⟨r, h1, h2⟩ := exec_route hd hord (h t ht)
    refine ⟨r, h1, fun i hi => ?_⟩
    obtain ⟨a, ha, e⟩ := h2 i hi
    exact ⟨a, (dev.getLinkAttributes_eq i a).mpr ⟨ha, e⟩⟩
  · intro t ht hp pd
    obtain ⟨ha, e, he⟩ := (h t ht).parent hp.1 hp.2
    exact groupDelay_total ha he (h t ht).size.2

theorem finish_keys {golden : GoldenMap} {cpt : Nat} {st st' : Stats} (h : st.finish golden cpt = .ok st') :
    st'.map (·.1) = st.map (·.1) := by
  have hf := finish_ok h
  clear h
  induction hf with
  | nil => rfl
  | cons h1 _ ih => rw [List.map_cons, List.map_cons, h1.1, ih]

theorem runSingle_total {fp : FP} {dev : Device} (hd : DeviceOk dev) (hT : TableOk fp dev.tbt)
    (hc : Capacities dev) (hmax : dev.maxBw ≤ 524288) {cpt : Nat} (hpos : 0 < cpt)
    (h32 : cpt < 4294967296) {en : Bool}
    {ho : HashOrder} {wl : Workload} (hg : GoldenAll dev wl.golden) (hon : OnChips dev wl.transfers) {s0 : Sim}
    (h0 : initSim fp dev ho wl = .ok s0) (hR : ∀ t ∈ s0.ts, Runnable fp dev wl.golden en t) :
    (∃ s st, runSingle fp dev ho cpt en wl = .ok (.inl (s, st)) ∧
      st.map (·.1) = dev.deviceIDs ++ [MESH_DEVICE]) ∨
    runSingle fp dev ho cpt en wl = .ok (.inr .exceededSimCycleLimit) := by
  obtain ⟨e, he⟩ := runLoop_total hd hT hc hmax hpos h32 hg (en := en) hon h0 hR
  unfold runSingle
  rw [he, Out.bind_ok]
  cases e with
  | limit s c => right; rfl
  | finished s c =>
    left
    have hreach : Reach (simConfig fp dev cpt wl.golden en) s0 c s := by
      unfold runLoop at he
      rw [show initSim (simConfig fp dev cpt wl.golden en).fp (simConfig fp dev cpt wl.golden en).dev ho wl =
        .ok s0 from h0, Out.bind_ok] at he
      rcases simLoop_reach simFuel 0 s0 _ .start (Or.inl rfl) (by rw [Nat.zero_add]; exact he) with
        ⟨s', c', e, hr, _⟩ | ⟨s', c', e, _⟩
      · simp only [Ending.finished.injEq] at e
        rw [e.1, e.2]; exact hr
      · simp at e
    obtain ⟨_, hSI, _⟩ := run_statsInv hd hpos hon h0 hreach
    have hk : s.stats.map (·.1) = dev.deviceIDs ++ [MESH_DEVICE] := hSI.keys
    obtain ⟨st, hst⟩ := finish_total (cpt := cpt) hpos (st := s.stats) (golden := wl.golden) (by
      intro e he
      exact hg _ (by rw [← hk]; exact List.mem_map_of_mem he))
    refine ⟨s, st, ?_, ?_⟩
    · simp only [hst, Out.bind_ok]; rfl
    · rw [finish_keys hst, hk]

theorem exec_runnable {fp : FP} {dev : Device} (hd : DeviceOk dev)
    (hsmall : dev.rows ≤ 32767 ∧ dev.cols ≤ 32767) {ho : HashOrder}
    (hord : ∀ l, (ho.links l).Perm l) {wl : Workload} (hg : GoldenAll dev wl.golden)
    (h : ∀ t ∈ wl.transfers, Executable dev t)
    (hrate : ∀ t ∈ wl.transfers, 0 ≤ t.injectionRate ∧ fp.f32.Rep t.injectionRate) {s0 : Sim}
    (h0 : initSim fp dev ho wl = .ok s0) (en : Bool) : ∀ t ∈ s0.ts, Runnable fp dev wl.golden en t := by
  intro t ht
  obtain ⟨i, hi⟩ := List.mem_iff_getElem?.mp ht
  obtain ⟨hm, hr, _⟩ := (initSim_ok h0).1.slots i t hi
  have hx := h _ hm
  refine ⟨⟨hx.packets, hx.size.1, (hrate _ hm).1, ?_⟩, ?_, ?_⟩
  · refine hg _ (List.mem_append_left _ ?_)
    unfold Device.deviceIDs
    have := hx.src.1
    exact List.mem_map.mpr ⟨t.params.src.dev.toNat, List.mem_range.mpr (by omega), by omega⟩
  · intro h0
    have := hx.bytes
    omega
  · intro _
    exact exec_placed hd hord hx hsmall hr (hrate _ hm).2

theorem runSim_total {fp : FP} {api : Api} (hd : DeviceOk api.dev) (hT : TableOk fp api.dev.tbt)
    (hc : Capacities api.dev) (hmax : api.dev.maxBw ≤ 524288)
    (hsmall : api.dev.rows ≤ 32767 ∧ api.dev.cols ≤ 32767) (hpos : 0 < api.cfg.cyclesPerTimestep)
    (h32 : api.cfg.cyclesPerTimestep < 4294967296) {ho : HashOrder} (hord : ∀ l, (ho.links l).Perm l)
    {wl : Workload} (hw : wl.Dense) (hg : GoldenAll api.dev wl.golden)
    (h : ∀ t ∈ wl.transfers, Executable api.dev t)
    (hrate : ∀ t ∈ wl.transfers, 0 ≤ t.injectionRate ∧ fp.f32.Rep t.injectionRate) (en : Bool) :
    (∃ r, api.runSim fp ho en wl = .ok (.inl r)) ∨
      api.runSim fp ho en wl = .ok (.inr .exceededSimCycleLimit) := by
  obtain ⟨s0, h0⟩ := exec_init (fp := fp) hd hord hw h
  unfold Api.runSim
  rcases runSingle_total hd hT hc hmax hpos h32 hg (exec_onChips h) h0
    (exec_runnable hd hsmall hord hg h hrate h0 en) with ⟨s, st, h1, _⟩ | h1
  · left
    obtain ⟨r, hr⟩ := report_total h st
    rw [h1, Out.bind_ok]
    simp only [hr, Out.bind_ok]
    exact ⟨r, rfl⟩
  · right
    rw [h1, Out.bind_ok]
    rfl

theorem runPerf_total {fp : FP} {api : Api} (hd : DeviceOk api.dev) (hT : TableOk fp api.dev.tbt)
    (hc : Capacities api.dev) (hmax : api.dev.maxBw ≤ 524288)
    (hsmall : api.dev.rows ≤ 32767 ∧ api.dev.cols ≤ 32767) (hpos : 0 < api.cfg.cyclesPerTimestep)
    (h32 : api.cfg.cyclesPerTimestep < 4294967296) {ho : HashOrder} (hord : ∀ l, (ho.links l).Perm l)
    {wl : Workload} (hw : wl.Dense) (hg : GoldenAll api.dev wl.golden)
    (h : ∀ t ∈ wl.transfers, Executable api.dev t)
    (hrate : ∀ t ∈ wl.transfers, 0 ≤ t.injectionRate ∧ fp.f32.Rep t.injectionRate) :
    (∃ r, api.runPerf fp ho wl = .ok (.inl r)) ∨
      api.runPerf fp ho wl = .ok (.inr .exceededSimCycleLimit) := by
  have key := runSim_total hd hT hc hmax hsmall hpos h32 hord hw hg h hrate
  unfold Api.runPerf
  simp only
  split
  · rcases key (decide (api.cfg.congestionModel ≠ "none")) with ⟨r, hr⟩ | hr
    · left
      rw [hr, Out.bind_ok]
      simp only
      rcases key false with ⟨r', hr'⟩ | hr'
      · rw [hr', Out.bind_ok]; exact ⟨_, rfl⟩
      · rw [hr', Out.bind_ok]; exact ⟨_, rfl⟩
    · right
      rw [hr, Out.bind_ok]
  · exact key _

/-! ### A second run without congestion -/

/-- The report of a run only depends on the devices for its success. -/
theorem report_congr {dev : Device} {wl : Workload} {st st' : Stats} {r : Report}
    (hk : st'.map (·.1) = st.map (·.1)) (h : st.report dev wl = .ok r) :
    ∃ r', st'.report dev wl = .ok r' := by
  unfold Stats.report at h ⊢
  refine Out.mapM_total fun e' he' => ?_
  have : e'.1 ∈ st.map (·.1) := by rw [← hk]; exact List.mem_map_of_mem he'
  obtain ⟨e, he, hek⟩ := List.mem_map.mp this
  obtain ⟨b, hb⟩ : ∃ b, (computeSummary dev wl e.1 e.2) = .ok b := by
    have h2 := Out.mapM_eq_ok.mp h
    obtain ⟨i, hi⟩ := List.mem_iff_getElem?.mp he
    obtain ⟨hlt, hge⟩ := List.getElem?_eq_some_iff.mp hi
    have h3 := (List.forall₂_iff_get.mp h2).2 i hlt (by rw [← h2.length_eq]; exact hlt)
    simp only [List.get_eq_getElem, hge] at h3
    obtain ⟨b, hb, _⟩ := Out.bind_eq_ok.mp h3
    exact ⟨b, hb⟩
  rw [hek] at hb
  unfold computeSummary at hb ⊢
  simp only at hb ⊢
  obtain ⟨bytes, h1, hb⟩ := Out.bind_eq_ok.mp hb
  obtain ⟨eth, h2, hb⟩ := Out.bind_eq_ok.mp hb
  rw [h1, Out.bind_ok, h2, Out.bind_ok]
  exact ⟨_, rfl⟩

theorem second_run {fp : FP} {api : Api} (hd : DeviceOk api.dev) (hT : TableOk fp api.dev.tbt)
    (hc : Capacities api.dev) (hmax : api.dev.maxBw ≤ 524288) (hpos : 0 < api.cfg.cyclesPerTimestep)
    (h32 : api.cfg.cyclesPerTimestep < 4294967296) {ho : HashOrder} {wl : Workload}
    (hon : OnChips api.dev wl.transfers)
    (hwf : ∀ t ∈ wl.transfers, 1 ≤ t.numPackets ∧ 1 ≤ t.packetSize ∧ 0 ≤ t.injectionRate ∧
      (t.totalBytes = 0 → 0 < t.injectionRate)) {en : Bool} {r : Report}
    (h : api.runSim fp ho en wl = .ok (.inl r)) :
    (∃ r', api.runSim fp ho false wl = .ok (.inl r')) ∨
      api.runSim fp ho false wl = .ok (.inr .exceededSimCycleLimit) := by
  unfold Api.runSim at h
  obtain ⟨x, h1, h⟩ := Out.bind_eq_ok.mp h
  cases x with
  | inr e => simp at h
  | inl x =>
    obtain ⟨s, st⟩ := x
    simp only at h
    obtain ⟨r0, hr0, h⟩ := Out.bind_eq_ok.mp h
    obtain ⟨s0, c, h0, _, hcc, hreach, _, _, hfin⟩ := runSingle_ok h1
    obtain ⟨_, hSI, _⟩ := run_statsInv hd hpos hon h0 hreach
    have hk : s.stats.map (·.1) = api.dev.deviceIDs ++ [MESH_DEVICE] := hSI.keys
    have hg : GoldenAll api.dev wl.golden := by
      intro d hdm
      rw [← hk] at hdm
      obtain ⟨e, he, rfl⟩ := List.mem_map.mp hdm
      exact hSI.golden (by omega) e he
    have hkst : st.map (·.1) = api.dev.deviceIDs ++ [MESH_DEVICE] := by
      rw [finish_keys hfin, hk]
    have hR : ∀ t ∈ s0.ts, Runnable fp api.dev wl.golden false t := by
      intro t ht
      obtain ⟨i, hi⟩ := List.mem_iff_getElem?.mp ht
      obtain ⟨hm, hr, _⟩ := (initSim_ok h0).1.slots i t hi
      obtain ⟨w1, w2, w3, w4⟩ := hwf _ hm
      refine ⟨⟨w1, w2, w3, ?_⟩, fun hz => ⟨w4 hz, rfl⟩, fun hf => by simp at hf⟩
      refine hg _ (List.mem_append_left _ ?_)
      unfold Device.deviceIDs
      have := hon _ hm
      exact List.mem_map.mpr ⟨t.params.src.dev.toNat, List.mem_range.mpr (by omega), by omega⟩
    unfold Api.runSim
    rcases runSingle_total hd hT hc hmax hpos h32 hg hon h0 hR with ⟨s', st', h2, hk'⟩ | h2
    · left
      obtain ⟨r', hr'⟩ := report_congr (st := st) (st' := st') (by rw [hk', hkst]) hr0
      rw [h2, Out.bind_ok]
      simp only [hr', Out.bind_ok]
      exact ⟨r', rfl⟩
    · right
      rw [h2, Out.bind_ok]
      rfl

end NPE
