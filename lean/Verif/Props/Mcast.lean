import Verif.Props.Stats
import Verif.Props.Ingest
import Verif.Props.Api

/-
Property C107: the utilisation that is reported for multicast writes.
-/

namespace NPE.Props
open NPE NPE.Spec

/-- The demand of every link is all due to multicast writes. -/
def OnlyMcast (dev : Device) (g : Grids) : Prop := Sized dev g ∧ g.mcast = g.link

/-- No demand is due to multicast writes. -/
def NoMcast (dev : Device) (g : Grids) : Prop := Sized dev g ∧ ∀ x ∈ g.mcast, x = 0

/-- The transfers for which demands are computed are those of the simulation. -/
theorem bandwidth_params {fp : FP} {dev : Device} {ts ts1 : List TState} {live : List Nat} (hn : live.Nodup)
    (h : updateTransferBandwidth fp dev ts live = .ok ts1) {P : Transfer → Prop}
    (hts : ∀ (i : Nat) t, ts[i]? = some t → P t.params) (i : Nat) (t : TState) (ht : ts1[i]? = some t) :
    P t.params := by
  have w := updateTransferBandwidth_written hn h
  by_cases hi : i ∈ live
  · obtain ⟨t0, b, h1, _, h3⟩ := w.2.2 i hi
    rw [ht] at h3
    rw [Option.some.inj h3]
    exact hts i t0 h1
  · rw [w.2.1 i hi] at ht
    exact hts i t ht

theorem onlyMcast_rates {fp : FP} {dev : Device} {en : Bool} {a b : Nat} {g g' : Grids} {ts ts' : List TState}
    {live : List Nat} (hn : live.Nodup)
    (hts : ∀ (i : Nat) t, ts[i]? = some t → t.params.eventType = "WRITE_MULTICAST")
    (hg : OnlyMcast dev g) (h : computeRates fp dev en a b g ts live = .ok (ts', g')) : OnlyMcast dev g' := by
  refine ⟨sized_rates hn hg.1 h, ?_⟩
  unfold computeRates at h
  obtain ⟨ts1, h1, h⟩ := Out.bind_eq_ok.mp h
  have hts1 := bandwidth_params hn h1 (P := fun t => t.eventType = "WRITE_MULTICAST") hts
  cases en with
  | false =>
    simp only [Bool.false_eq_true, if_false, Out.ok.injEq, Prod.mk.injEq] at h
    rw [← h.2]; exact hg.2
  | true =>
    simp only [if_true] at h
    obtain ⟨_, ⟨_, _, _, _, l5, l6⟩, _⟩ := modelCongestion_parts hn h
    refine List.ext_getElem? fun k => ?_
    rw [l5, l6, initGrids_link, initGrids_mcast]
    have : contrib (mcastC fp a b k) ts1 live = contrib (linkC fp a b k) ts1 live := by
      unfold contrib
      congr 1
      funext i
      cases ht : ts1[i]? with
      | none => rfl
      | some t =>
        simp only [mcastC, linkC, mcastRoute]
        rw [if_pos (hts1 i t ht)]
    rw [this]

theorem noMcast_rates {fp : FP} {dev : Device} {en : Bool} {a b : Nat} {g g' : Grids} {ts ts' : List TState}
    {live : List Nat} (hn : live.Nodup)
    (hts : ∀ (i : Nat) t, ts[i]? = some t → t.params.eventType ≠ "WRITE_MULTICAST")
    (hg : NoMcast dev g) (h : computeRates fp dev en a b g ts live = .ok (ts', g')) : NoMcast dev g' := by
  refine ⟨sized_rates hn hg.1 h, ?_⟩
  unfold computeRates at h
  obtain ⟨ts1, h1, h⟩ := Out.bind_eq_ok.mp h
  have hts1 := bandwidth_params hn h1 (P := fun t => t.eventType ≠ "WRITE_MULTICAST") hts
  cases en with
  | false =>
    simp only [Bool.false_eq_true, if_false, Out.ok.injEq, Prod.mk.injEq] at h
    rw [← h.2]; exact hg.2
  | true =>
    simp only [if_true] at h
    obtain ⟨_, ⟨_, _, _, _, _, l6⟩, _⟩ := modelCongestion_parts hn h
    intro x hx
    obtain ⟨k, hk⟩ := List.mem_iff_getElem?.mp hx
    rw [l6, initGrids_mcast] at hk
    have : contrib (mcastC fp a b k) ts1 live = [] := by
      unfold contrib
      rw [List.flatMap_eq_nil_iff]
      intro i _
      cases ht : ts1[i]? with
      | none => rfl
      | some t =>
        simp only [mcastC, mcastRoute]
        rw [if_neg (hts1 i t ht)]
        rfl
    rw [this] at hk
    split at hk
    · simpa using hk.symm
    · simp at hk

/-- A property of the demands that holds along a run holds for every record of the result. -/
theorem records_of (fp : FP) (dev : Device) (hd : DeviceOk dev) (cpt : Nat) (hpos : 0 < cpt) (congestion : Bool)
    (ho : HashOrder) (wl : Workload) (hon : OnChips dev wl.transfers) (s : Sim) (st : Stats)
    (h : runSingle fp dev ho cpt congestion wl = .ok (.inl (s, st)))
    (Q : Grids → Prop) (hq0 : Q (initGrids dev)) (hqs : ∀ g, Q g → Sized dev g)
    (hq : ∀ a b g ts live ts' g', live.Nodup → (∀ (i : Nat) t, ts[i]? = some t → t.params ∈ wl.transfers) →
      Q g → computeRates fp dev congestion a b g ts live = .ok (ts', g') → Q g')
    (R : TimestepStats → Prop) (hR0 : R {})
    (hR : ∀ g live d (i : Nat × Nat), Q g → R (Stats.summarize dev (linksOf dev g) (niusOf dev g) g live d
      { startc := i.1, endc := i.2 }))
    (d : Int) (ds : DevStats) (hm : (d, ds) ∈ st) (r : TimestepStats) (hr : r ∈ ds.steps) : R r := by
  obtain ⟨s0, c, h0, _, hc, hs, _, _, hf⟩ := runSingle_ok h
  obtain ⟨hist, hi, hgood, _⟩ := Spec.Reach.statsInv (cfg := simConfig fp dev cpt wl.golden congestion)
    (computeRates_ok fp dev congestion) hd hpos h0 (init_onChips h0 hon) Q hq0 hqs
    (fun a b g ts live ts' g' _ hn hts hg h => by
      refine hq a b g ts live ts' g' hn ?_ hg h
      intro i t hi
      obtain ⟨t0, b1, b2, _⟩ := hts i t hi
      rw [← b2]
      exact ((initSim_ok h0).1.slots i t0 b1).1) hs
  obtain ⟨e, he, hk, g, _, _, _, _, _, h5⟩ := forall2_mem (finish_ok hf) hm
  simp only at h5
  rw [h5] at hr
  split at hr
  · simp at hr
  · unfold Stats.resize at hr
    rcases List.mem_append.mp hr with hr | hr
    · have hr := List.mem_of_mem_take hr
      obtain ⟨g, hg⟩ := hi.golden (by omega) e he
      rw [hi.steps e he g hg] at hr
      obtain ⟨i, _, rfl⟩ := List.mem_map.mp hr
      exact hR _ _ _ _ (hgood _)
    · rw [(List.mem_replicate.mp hr).2]; exact hR0

/-- C107, part 1 (missing: multicasts with other event types, see `C107_violated`): if all transfers are multicast
writes by their event type, all of the utilisation is reported as multicast utilisation, in every timestep
of every device. -/
theorem C107_all_partial (fp : FP) (dev : Device) (hd : DeviceOk dev) (cpt : Nat) (hpos : 0 < cpt)
    (congestion : Bool) (ho : HashOrder) (wl : Workload) (hon : OnChips dev wl.transfers)
    (hall : ∀ t ∈ wl.transfers, t.eventType = "WRITE_MULTICAST") (s : Sim) (st : Stats)
    (h : runSingle fp dev ho cpt congestion wl = .ok (.inl (s, st))) (d : Int) (ds : DevStats)
    (hm : (d, ds) ∈ st) (r : TimestepStats) (hr : r ∈ ds.steps) : r.avgMcastUtil = r.avgLinkUtil := by
  refine records_of fp dev hd cpt hpos congestion ho wl hon s st h (OnlyMcast dev) ⟨sized_init dev, rfl⟩
    (fun _ h => h.1) (fun a b g ts live ts' g' hn hts hg h => onlyMcast_rates hn (fun i t hi => hall _ (hts i t hi)) hg h)
    (fun r => r.avgMcastUtil = r.avgLinkUtil) rfl ?_ d ds hm r hr
  intro g live d i hg
  have hz : ∀ e ∈ linksOf dev g, e.2.2 = e.2.1 := by
    intro e he
    unfold linksOf at he
    rw [hg.2] at he
    have h2 := (List.of_mem_zip he).2
    rw [List.zip_eq_zipWith] at h2
    obtain ⟨k, hk⟩ := List.mem_iff_getElem?.mp h2
    rw [List.getElem?_zipWith] at hk
    cases hx : g.link[k]? with
    | none => rw [hx] at hk; simp at hk
    | some x => rw [hx] at hk; rw [← Option.some.inj hk]
  unfold Stats.summarize
  simp only
  congr 2
  congr 1
  refine List.map_congr_left fun e he => ?_
  rw [hz e (List.mem_of_mem_filter he)]

/-- C107, part 2: without multicast writes none of the utilisation is. -/
theorem C107_none_partial (fp : FP) (dev : Device) (hd : DeviceOk dev) (hbw : 0 ≤ dev.linkBw) (cpt : Nat)
    (hpos : 0 < cpt) (congestion : Bool) (ho : HashOrder) (wl : Workload) (hon : OnChips dev wl.transfers)
    (hall : ∀ t ∈ wl.transfers, t.eventType ≠ "WRITE_MULTICAST") (s : Sim) (st : Stats)
    (h : runSingle fp dev ho cpt congestion wl = .ok (.inl (s, st))) (d : Int) (ds : DevStats)
    (hm : (d, ds) ∈ st) (r : TimestepStats) (hr : r ∈ ds.steps) : r.avgMcastUtil = 0 := by
  refine records_of fp dev hd cpt hpos congestion ho wl hon s st h (NoMcast dev)
    ⟨sized_init dev, fun x hx => by simp [initGrids] at hx; exact hx.2⟩
    (fun _ h => h.1) (fun a b g ts live ts' g' hn hts hg h => noMcast_rates hn (fun i t hi => hall _ (hts i t hi)) hg h)
    (fun r => r.avgMcastUtil = 0) rfl ?_ d ds hm r hr
  intro g live d i hg
  have hz : ∀ e ∈ linksOf dev g, e.2.2 = 0 := by
    intro e he
    unfold linksOf at he
    exact hg.2 _ (List.of_mem_zip (List.of_mem_zip he).2).2
  unfold Stats.summarize
  simp only
  have : ((List.filter (fun e => Stats.counted d e.1.coord) (linksOf dev g)).map fun e => min e.2.2 dev.linkBw).sum = 0 := by
    refine List.sum_eq_zero fun x hx => ?_
    obtain ⟨e, he, rfl⟩ := List.mem_map.mp hx
    rw [hz e (List.mem_of_mem_filter he), min_eq_left hbw]
  rw [this]
  simp

/-! ### Whole runs -/

/-- What pre-processing leaves as it is. -/
def still (t : Transfer) : Transfer := { t with id := 0, phaseId := 0, offset := 0, injectionRate := 0 }

theorem mapTransfersM_back {f : Transfer → Out Transfer} (hf : ∀ t t', f t = .ok t' → still t' = still t)
    {wl wl' : Workload} (h : wl.mapTransfersM f = .ok wl') :
    ∀ t' ∈ wl'.transfers, ∃ t ∈ wl.transfers, still t' = still t := by
  unfold Workload.mapTransfersM at h
  obtain ⟨phs, h1, h⟩ := Out.bind_eq_ok.mp h
  rw [← Out.ok.inj h]
  intro t' ht'
  obtain ⟨ph', hph', ht'⟩ := List.mem_flatMap.mp ht'
  rw [Out.mapM_eq_ok] at h1
  obtain ⟨ph, hph, h2⟩ := forall2_mem h1 hph'
  obtain ⟨ts, h3, h2⟩ := Out.bind_eq_ok.mp h2
  rw [← Out.ok.inj h2] at ht'
  rw [Out.mapM_eq_ok] at h3
  obtain ⟨t, ht, h4⟩ := forall2_mem h3 ht'
  exact ⟨t, List.mem_flatMap.mpr ⟨ph, hph, ht⟩, hf t t' h4⟩

theorem removeLocal_back (wl : Workload) :
    ∀ t' ∈ wl.removeLocalUnicastTransfers.transfers, ∃ t ∈ wl.transfers, still t' = still t := by
  intro t' ht'
  obtain ⟨ph', hph', ht'⟩ := List.mem_flatMap.mp ht'
  have h1 := Workload.foldl_addPhase_map still (fun _ _ _ => rfl)
    (wl.phases.map fun ph => ({ transfers := ph.transfers.filter Workload.keepNonLocal } : Phase))
    (({} : Workload).setGoldenResultCycles wl.golden)
  rw [List.foldl_map] at h1
  have h2 : ph'.transfers.map still ∈ wl.removeLocalUnicastTransfers.phases.map fun p => p.transfers.map still :=
    List.mem_map.mpr ⟨ph', hph', rfl⟩
  unfold Workload.removeLocalUnicastTransfers at h2
  rw [h1, List.mem_append] at h2
  rcases h2 with h2 | h2
  · simp [Workload.setGoldenResultCycles] at h2
  · rw [List.map_map] at h2
    obtain ⟨ph, hph, e⟩ := List.mem_map.mp h2
    have h3 : still t' ∈ ph'.transfers.map still := List.mem_map_of_mem ht'
    rw [← e] at h3
    obtain ⟨t, ht, e⟩ := List.mem_map.mp h3
    exact ⟨t, List.mem_flatMap.mpr ⟨ph, hph, List.mem_of_mem_filter ht⟩, e.symm⟩

/-- Every transfer that is simulated is one of the workload, apart from its start, rate and identifiers. -/
theorem preprocess_back {fp : FP} {api : Api} {wl wl' : Workload} (h : api.preprocess fp wl = .ok wl') :
    ∀ t' ∈ wl'.transfers, ∃ t ∈ wl.transfers, still t' = still t := by
  unfold Api.preprocess at h
  obtain ⟨w1, h1, h⟩ := Out.bind_eq_ok.mp h
  obtain ⟨w2, h2, h⟩ := Out.bind_eq_ok.mp h
  have e1 : ∀ t' ∈ w1.transfers, ∃ t ∈ wl.transfers, still t' = still t := by
    split at h1
    · refine mapTransfersM_back ?_ h1
      intro t t' h
      obtain ⟨_, _, h⟩ := Out.bind_eq_ok.mp h
      rw [← Out.ok.inj h]; rfl
    · rw [← Out.ok.inj h1]; exact fun t ht => ⟨t, ht, rfl⟩
  have e2 : ∀ t' ∈ w2.transfers, ∃ t ∈ w1.transfers, still t' = still t := by
    split at h2
    · refine mapTransfersM_back ?_ h2
      intro t t' h
      obtain ⟨_, _, h⟩ := Out.bind_eq_ok.mp h
      rw [← Out.ok.inj h]; rfl
    · rw [← Out.ok.inj h2]; exact fun t ht => ⟨t, ht, rfl⟩
  have e3 : ∀ t' ∈ wl'.transfers, ∃ t ∈ w2.transfers, still t' = still t := by
    rw [← Out.ok.inj h]
    split
    · exact removeLocal_back w2
    · exact fun t ht => ⟨t, ht, rfl⟩
  intro t3 ht3
  obtain ⟨t2, ht2, a3⟩ := e3 t3 ht3
  obtain ⟨t1, ht1, a2⟩ := e2 t2 ht2
  obtain ⟨t, ht, a1⟩ := e1 t1 ht1
  exact ⟨t, ht, by rw [a3, a2, a1]⟩

/-- What holds for the records of all simulations of a workload holds for the report of a run. -/
theorem report_of {fp : FP} {api : Api} {ho : HashOrder}
    {wl : Workload} {rep : Report} (h : api.runNPE fp ho wl = .ok (.inl rep)) (R : TimestepStats → Prop)
    (hR : ∀ wl', (∀ t' ∈ wl'.transfers, ∃ t ∈ wl.transfers, still t' = still t) → OnChips api.dev wl'.transfers →
      ∀ (en : Bool) s st, runSingle fp api.dev ho api.cfg.cyclesPerTimestep en wl' = .ok (.inl (s, st)) →
        ∀ d ds, (d, ds) ∈ st → ∀ r ∈ ds.steps, R r) :
    ∀ e ∈ rep, (∀ r ∈ e.2.stats.steps, R r) ∧
      e.2.summary.avgMcastUtil = avgOver e.2.stats.steps (·.avgMcastUtil) ∧
      e.2.summary.avgLinkUtil = avgOver e.2.stats.steps (·.avgLinkUtil) := by
  unfold Api.runNPE at h
  obtain ⟨wl', hpre, h⟩ := Out.bind_eq_ok.mp h
  obtain ⟨v, hv, h⟩ := Out.bind_eq_ok.mp h
  cases v with
  | false => simp at h
  | true =>
    rw [if_pos rfl] at h
    have hback := preprocess_back hpre
    have hon : OnChips api.dev wl'.transfers := by
      intro t ht
      have hv := validate_true hv t ht
      unfold Transfer.validate at hv
      split at hv
      · simp at hv
      · have hv := Out.ok.inj hv
        simp only [Bool.and_eq_true, decide_eq_true_eq, Device.isValidDeviceID] at hv
        exact ⟨hv.2.1, hv.2.2⟩
    have key : ∀ en r0, api.runSim fp ho en wl' = .ok (.inl r0) → ∀ e ∈ r0, (∀ r ∈ e.2.stats.steps, R r) ∧
        e.2.summary.avgMcastUtil = avgOver e.2.stats.steps (·.avgMcastUtil) ∧
        e.2.summary.avgLinkUtil = avgOver e.2.stats.steps (·.avgLinkUtil) := by
      intro en r0 h e he
      unfold Api.runSim at h
      obtain ⟨x, h1, h⟩ := Out.bind_eq_ok.mp h
      cases x with
      | inr e => simp at h
      | inl x =>
        obtain ⟨s, st⟩ := x
        simp only at h
        obtain ⟨r1, hr1, h⟩ := Out.bind_eq_ok.mp h
        have e1 : r1 = r0 := Sum.inl.inj (Out.ok.inj h)
        subst e1
        unfold Stats.report at hr1
        rw [Out.mapM_eq_ok] at hr1
        obtain ⟨e0, he0, h2⟩ := forall2_mem hr1 he
        obtain ⟨sm, h3, h2⟩ := Out.bind_eq_ok.mp h2
        rw [← Out.ok.inj h2]
        unfold computeSummary at h3
        obtain ⟨_, _, h3⟩ := Out.bind_eq_ok.mp h3
        obtain ⟨_, _, h3⟩ := Out.bind_eq_ok.mp h3
        refine ⟨fun r hr => hR wl' hback hon en s st h1 e0.1 e0.2 he0 r hr, ?_⟩
        rw [← Out.ok.inj h3]
        exact ⟨rfl, rfl⟩
    have hp : api.runPerf fp ho wl' = .ok (.inl rep) := by
      unfold catchNpe at h
      split at h
      · simp at h
      · exact h
    unfold Api.runPerf at hp
    simp only at hp
    split at hp
    · obtain ⟨x, h1, hp⟩ := Out.bind_eq_ok.mp hp
      cases x with
      | inr e => simp at hp
      | inl st =>
        simp only at hp
        obtain ⟨y, _, hp⟩ := Out.bind_eq_ok.mp hp
        cases y with
        | inr _ => simp only [Out.ok.injEq, Sum.inl.injEq] at hp; rw [← hp]; exact key _ _ h1
        | inl _ =>
          simp only [Out.ok.injEq, Sum.inl.injEq] at hp
          rw [← hp]
          intro e he
          obtain ⟨e0, he0, rfl⟩ := List.mem_map.mp he
          exact key _ _ h1 e0 he0
    · exact key _ _ hp

/-- C107, part 3: the repository's test asks of one trace that multicast writes have a share of one in the
utilisation.  Every run whose transfers are all multicast writes has it, for every device and for the
mesh. -/
theorem C107_share_partial (fp : FP) (cfg : Config) (api : Api) (hmake : Api.make fp cfg = .ok api) (ho : HashOrder)
    (wl : Workload) (hall : ∀ t ∈ wl.transfers, t.eventType = "WRITE_MULTICAST") (rep : Report)
    (h : api.runNPE fp ho wl = .ok (.inl rep)) :
    ∀ e ∈ rep, e.2.summary.avgMcastUtil = e.2.summary.avgLinkUtil := by
  obtain ⟨ecfg, hpos, hdev⟩ := make_ok hmake
  obtain ⟨hd, _, _⟩ := C33_devices fp _ _ hdev
  intro e he
  obtain ⟨h1, h2, h3⟩ := report_of h (fun r => r.avgMcastUtil = r.avgLinkUtil) (by
    intro wl' hback hon en s st hs d ds hm r hr
    refine C107_all_partial fp api.dev hd _ (by rw [ecfg]; exact hpos) en ho wl' hon ?_ s st hs d ds hm r hr
    intro t ht
    obtain ⟨t0, ht0, e0⟩ := hback t ht
    have e1 : (still t).eventType = (still t0).eventType := by rw [e0]
    exact e1.trans (hall t0 ht0)) e he
  rw [h2, h3]
  unfold avgOver
  rw [List.map_congr_left h1]

/-- C107, part 4: without multicast writes the share is zero. -/
theorem C107_no_share_partial (fp : FP) (cfg : Config) (api : Api) (hmake : Api.make fp cfg = .ok api)
    (ho : HashOrder) (wl : Workload) (hall : ∀ t ∈ wl.transfers, t.eventType ≠ "WRITE_MULTICAST") (rep : Report)
    (h : api.runNPE fp ho wl = .ok (.inl rep)) :
    ∀ e ∈ rep, e.2.stats.steps ≠ [] → e.2.summary.avgMcastUtil = .num 0 := by
  obtain ⟨ecfg, hpos, hdev⟩ := make_ok hmake
  obtain ⟨hd, _, hbw⟩ := C33_devices fp _ _ hdev
  intro e he hne
  obtain ⟨h1, h2, _⟩ := report_of h (fun r => r.avgMcastUtil = 0) (by
    intro wl' hback hon en s st hs d ds hm r hr
    refine C107_none_partial fp api.dev hd hbw.le _ (by rw [ecfg]; exact hpos) en ho wl' hon ?_ s st hs d ds hm r hr
    intro t ht
    obtain ⟨t0, ht0, e0⟩ := hback t ht
    have e1 : (still t).eventType = (still t0).eventType := by rw [e0]
    rw [show t.eventType = t0.eventType from e1]
    exact hall t0 ht0) e he
  rw [h2, avgOver_num hne, List.map_congr_left h1]
  simp

/-- C107, part 5: in workloads made from traces the event type tells which transfers are multicasts.  So for these
the reported share is the share of the multicasts. -/
theorem C107_trace {fp : FP} {device path : String} {evs : List Json} {wl : Workload}
    (hpaths : Trace.PathsComplete evs) (hne : evs ≠ [])
    (h : convertTrace fp device path (.doc (.arr evs)) = .ok (some wl)) :
    (∀ t ∈ wl.transfers, ∀ gs, t.dst = .mcast gs → t.eventType = "WRITE_MULTICAST") ∧
    ((∀ e ∈ evs, Trace.fabric e = none) → (∀ e ∈ evs, e.strD "noc" = "NOC_0" ∨ e.strD "noc" = "NOC_1") →
      ∀ t ∈ wl.transfers, t.eventType = "WRITE_MULTICAST" → ∃ gs, t.dst = .mcast gs) := by
  obtain ⟨dev, t0, _, _, hitems⟩ := C49_conversion hpaths hne h
  have key : ∀ t ∈ wl.transfers, ∃ q ∈ Trace.converted [] evs, Trace.item t ∈ Trace.items dev.arch t0 q.1 q.2 := by
    intro t ht
    have h1 : Trace.item t ∈ wl.transfers.map Trace.item := List.mem_map_of_mem ht
    rw [hitems] at h1
    obtain ⟨q, hq, h1⟩ := List.mem_flatMap.mp h1
    exact ⟨q, hq, h1⟩
  have hmem : ∀ (l pre : List Json) q, q ∈ Trace.converted pre l → q.2 ∈ l := by
    intro l
    induction l with
    | nil => intro pre q hq; simp [Trace.converted] at hq
    | cons e l ih =>
      intro pre q hq
      unfold Trace.converted at hq
      rcases List.mem_append.mp hq with hq | hq
      · split at hq
        · rw [List.mem_singleton.mp hq]; simp
        · simp at hq
      · exact List.mem_cons_of_mem _ (ih _ q hq)
  constructor
  · intro t ht gs hd
    obtain ⟨q, hq, h1⟩ := key t ht
    unfold Trace.items at h1
    split at h1
    · have e := List.mem_singleton.mp h1
      have ed : t.dst = Trace.dest q.1 q.2 := congrArg Trace.Item.dst e
      have et : t.eventType = Trace.type q.2 := congrArg Trace.Item.type e
      rw [et]
      by_contra hc
      rw [ed] at hd
      unfold Trace.dest at hd
      simp only at hd
      rw [if_neg hc] at hd
      cases hd
    · unfold Trace.pathItems at h1
      obtain ⟨m, _, e⟩ := List.mem_map.mp h1
      have ed := congrArg Trace.Item.dst e
      rw [show (Trace.item t).dst = t.dst from rfl, hd] at ed
      cases ed
  · intro hf hnoc t ht het
    obtain ⟨q, hq, h1⟩ := key t ht
    have hqe := hmem evs [] q hq
    unfold Trace.items at h1
    rw [hf q.2 hqe] at h1
    have e := List.mem_singleton.mp h1
    have ed : t.dst = Trace.dest q.1 q.2 := congrArg Trace.Item.dst e
    have et : t.eventType = Trace.type q.2 := congrArg Trace.Item.type e
    rw [ed]
    unfold Trace.dest
    simp only
    rw [if_pos (et ▸ het)]
    rcases hnoc q.2 hqe with hn | hn
    · rw [if_pos hn]; exact ⟨_, rfl⟩
    · rw [if_neg (by rw [hn]; decide), if_pos hn]; exact ⟨_, rfl⟩

/-! ### Multicasts of other kinds -/

/-- A multicast to the two cores of the second column of the small device. -/
def mcastTr (type : String) : Transfer :=
  Transfer.make 300 1 ⟨0, 0, 1⟩ (.mcast [⟨⟨0, 0, 1⟩, ⟨0, 1, 1⟩⟩]) 1 0 .noc0 type

/-- The link utilisation and the multicast utilisation of a run with congestion on the small device. -/
def mcastUtil (ts : List Transfer) : Option (List (Int × Dbl × Dbl)) :=
  match runSingle .exact Sample.dev ⟨id, id⟩ 128 true (Sample.wl ts) with
  | .ok (.inl (_, st)) => match st.report Sample.dev (Sample.wl ts) with
    | .ok r => some (r.map fun e => (e.1, e.2.summary.avgLinkUtil, e.2.summary.avgMcastUtil))
    | _ => none
  | _ => none

/-- The claim, for one run on the small device: if every transfer is a multicast, multicasts have all of the
utilisation. -/
def C107_claim (ts : List Transfer) : Prop :=
  (∀ t ∈ ts, ∃ gs, t.dst = .mcast gs) → ∀ l, mcastUtil ts = some l → ∀ e ∈ l, e.2.2 = e.2.1

/-- C107 is violated: a multicast of a workload file or of the API that has no event type (the default) uses links,
but none of it is reported as multicast utilisation. -/
theorem C107_violated : ¬ C107_claim [mcastTr ""] := by
  intro h
  have h1 : mcastUtil [mcastTr ""] = some [(0, .num (5 / 32), .num 0), (-1, .num (5 / 32), .num 0)] := by
    decide +kernel
  have h2 := h (fun t ht => ⟨[⟨⟨0, 0, 1⟩, ⟨0, 1, 1⟩⟩], by rw [List.mem_singleton.mp ht]; rfl⟩) _ h1 (0, .num (5 / 32), .num 0) (by simp)
  exact absurd h2 (by decide +kernel)

-- A multicast write: all of the utilisation.
example : mcastUtil [mcastTr "WRITE_MULTICAST"] =
    some [(0, .num (5 / 32), .num (5 / 32)), (-1, .num (5 / 32), .num (5 / 32))] := by decide +kernel

-- With a unicast of the same size: half of it.
example : mcastUtil [mcastTr "WRITE_MULTICAST", Sample.tr 300 0] =
    some [(0, .num (25 / 72), .num (25 / 144)), (-1, .num (25 / 72), .num (25 / 144))] := by decide +kernel

end NPE.Props
