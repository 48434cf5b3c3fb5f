import Verif.Proofs.AccountRounded
import Verif.Props.Account
import Verif.Props.RoofRounded

/-
Property C142 for any rounding.
-/

namespace NPE.Props
open NPE NPE.Spec NPE.Spec.Fluid

/-- The hypotheses of C142 for any rounding: as `Accounted`, with timesteps of at least 25 cycles, at most 65536
transfers and routes that pass no link twice. -/
structure AccountedRounded (fp : FP) (dev : Device) (cpt : Nat) (ho : HashOrder) (wl : Workload) (s : Sim) (st : Stats)
    (dm : DevStats) : Prop where
  device : DeviceOk dev
  table : TableOk fp dev.tbt
  caps : Capacities dev
  long : 25 ≤ cpt
  length : cpt ≤ 25000000
  chips : OnChips dev wl.transfers
  rates : ∀ t ∈ wl.transfers, SaneRate fp t
  rects : ∀ t ∈ wl.transfers, RectsOk t
  few : s.ts.length ≤ 65536
  routes : ∀ t ∈ s.ts, t.route.Nodup
  run : runSingle fp dev ho cpt true wl = .ok (.inl (s, st))
  mesh : (-1, dm) ∈ st
  window : ∃ last, wl.golden.at (-1) = .ok (0, last) ∧ ∀ t ∈ wl.transfers, t.offset ≤ last

theorem AccountedRounded.positive {fp : FP} {dev : Device} {cpt : Nat} {ho : HashOrder} {wl : Workload} {s : Sim}
    {st : Stats} {dm : DevStats} (H : AccountedRounded fp dev cpt ho wl s st dm) : 0 < cpt := by
  have := H.long
  omega

/-- The load of a link after the congestion model is that of its record, up to the rounding of the demands. -/
theorem rates_flow_rounded {fp : FP} {dev : Device} (hd : DeviceOk dev) (hT : TableOk fp dev.tbt) (hc : Capacities dev)
    {c cpt : Nat} (hpos : 0 < cpt) (h32 : c + cpt < 4294967296) {g g' : Grids} {ts ts' : List TState}
    {live : List Nat} (hn : live.Nodup) (hlen : live.length ≤ 65536)
    (hs : ∀ i ∈ live, ∀ t, ts[i]? = some t → t.start ≤ c + cpt ∧ SaneRate fp t.params ∧ RectsOk t.params ∧
      t.route.Nodup)
    (h : computeRates fp dev true c (c + cpt) g ts live = .ok (ts', g')) {a : LinkAttr} {l : Int}
    (hl : dev.getLinkID a = .ok l) :
    offered (fun t => t.route.count l) c (c + cpt) ts' live ≤
      (min ((g'.link[l.toNat]?).getD 0) dev.linkBw + (g'.link[l.toNat]?).getD 0 / 16777216) * (1 + 1 / 127) := by
  obtain ⟨ts1, h1, h2, h3⟩ := rates_model_rounded hT hn
    (fun i hi t ht => ⟨(hs i hi t ht).1, (hs i hi t ht).2.1⟩) h
  have hof : ∀ i ∈ live, ∀ u, ts1[i]? = some u → u.route.Nodup ∧ RectsOk u.params := by
    intro i hi u hu
    obtain ⟨_, _, t, b1, b2, b3⟩ := h3 i hi u hu
    rw [b3, b2]
    exact ⟨(hs i hi t b1).2.2.2, (hs i hi t b1).2.2.1⟩
  have huse : ∀ live' : List Nat, (∀ i ∈ live', i ∈ live) →
      uses (fun t => t.route.count l) ts1 live' ≤ live'.length := by
    intro live'
    induction live' with
    | nil => intro _; simp [uses]
    | cons i k ih =>
      intro hk
      have := ih fun j hj => hk j (List.mem_cons_of_mem _ hj)
      unfold uses at this ⊢
      rw [List.map_cons, List.sum_cons, List.length_cons, Nat.add_comm k.length]
      refine Nat.add_le_add ?_ this
      cases e : ts1[i]? with
      | none => exact Nat.zero_le _
      | some t => exact List.nodup_iff_count_le_one.mp (hof i (hk i List.mem_cons_self) t e).1 l
  obtain ⟨X, hX, hXle⟩ := (C66_demands_rounded fp dev hd c (c + cpt) (by omega) h32 ts1 ts' live g' hn
    (fun i hi u hu => ⟨(h1.2 i hi u hu).1, (h1.2 i hi u hu).2.1, (hof i hi u hu).2⟩) h2).1 a l hl
    ((huse live fun _ h => h).trans hlen)
  have hw3 := (modelCongestion_parts hn h2).2.2
  have hroute' : ∀ i ∈ live, ∀ u, ts'[i]? = some u → u.route.Nodup := by
    intro i hi u hu
    obtain ⟨t, b, a1, _, a3⟩ := hw3.2.2 i hi
    rw [hu] at a3
    rw [Option.some.inj a3]
    exact (hof i hi t a1).1
  have hoff : 0 ≤ offered (fun t => t.route.count l) c (c + cpt) ts1 live :=
    offered_nonneg fun i hi t ht => mul_nonneg (share_nonneg (by omega) (h1.2 i hi t ht).1) (h1.2 i hi t ht).2.1
  have hle : offered (fun t => t.route.count l) c (c + cpt) ts' live ≤
      offered (fun t => t.route.count l) c (c + cpt) ts1 live := by
    unfold offered
    refine List.sum_le_sum fun i hi => ?_
    obtain ⟨t, b, a1, _, a3⟩ := hw3.2.2 i hi
    have hb := (C26_slows fp dev hc c (c + cpt) (by omega) ts1 ts' live g' h1 (fun i hi u hu => (h3 i hi u hu).1) h2 i t
      _ a1 a3).1
    rw [a1, a3]
    simp only
    have hsh : share c (c + cpt) { t with bw := b } = share c (c + cpt) t := rfl
    rw [hsh]
    exact mul_le_mul_of_nonneg_left (mul_le_mul_of_nonneg_left hb (share_nonneg (by omega) (h1.2 i hi t a1).1))
      (by positivity)
  have hb := hc.1
  have hx := abs_le.mp hXle
  rw [hX, Option.getD_some]
  have hX0 : 0 ≤ X := by linarith [hx.1]
  rw [linkLoad_offered hroute'] at hle ⊢
  rcases le_total X dev.linkBw with hcase | hcase
  · rw [min_eq_left hcase]
    nlinarith [hx.1]
  · rw [min_eq_right hcase]
    rcases C27_link_capacity_rounded fp dev hc c (c + cpt) (by omega) h32 ts1 ts' live g' h1
      (fun i hi u hu => (h3 i hi u hu).1) (fun i hi u hu => (hof i hi u hu).1) hlen h2 l with hz | ⟨Y, hY, hYle⟩
    · refine hz.trans ?_
      positivity
    · rw [hX] at hY
      have hY := Option.some.inj hY
      subst hY
      refine hYle.trans (mul_le_mul_of_nonneg_left (by norm_num) (by positivity))

/-- The records of such a run: all timesteps and records without content. -/
theorem AccountedRounded.records {fp : FP} {dev : Device} {cpt : Nat} {ho : HashOrder} {wl : Workload} {s : Sim} {st : Stats}
    {dm : DevStats} (H : AccountedRounded fp dev cpt ho wl s st dm) :
    ∃ s0 c, initSim fp dev ho wl = .ok s0 ∧ Reach (simConfig fp dev cpt wl.golden true) s0 c s ∧
      s.live = [] ∧ s.queue = [] ∧
      ∀ hist, StatsInv (simConfig fp dev cpt wl.golden true) hist c s →
        (∃ m, dm.steps = ((List.range (c / cpt)).map fun k => record dev hist (-1) (k * cpt, (k + 1) * cpt)) ++
          List.replicate m ({} : TimestepStats)) ∨ (dm.steps = [] ∧ ∀ t ∈ s.ts, t.params.totalBytes = 0) := by
  obtain ⟨s0, c, h0, _, hcc, hs, hl, hq, hf⟩ := runSingle_ok H.run
  have hr : RatesOk (simConfig fp dev cpt wl.golden true).rates := computeRates_ok fp dev true
  have hinv := init_inv h0
  obtain ⟨last, hgold, hoff⟩ := H.window
  have hrel : ∀ t ∈ s.ts, Relevant (-1) (0, last) t.params := by
    intro t ht
    obtain ⟨i, hi⟩ := List.mem_iff_getElem?.mp ht
    obtain ⟨t0, b1, b2, _⟩ := hs.static_get hr hinv hi
    refine ⟨Or.inl rfl, Nat.zero_le _, ?_⟩
    rw [← b2]
    exact hoff _ ((initSim_ok h0).1.slots i t0 b1).1
  obtain ⟨c0, hc0, hdv, h1, h2⟩ := hs.last_rounded H.table H.caps (by have := H.long; omega) H.length h0 H.rates (by have := H.long; omega) hl hq
  refine ⟨s0, c, h0, hs, hl, hq, ?_⟩
  intro hist hst
  obtain ⟨⟨d', ds0⟩, he, hk, g', hg', _, _, _, _, h5⟩ := forall2_mem (finish_ok hf) H.mesh
  have hk' : -1 = d' := hk
  subst hk'
  simp only at hg' h5
  rw [hgold] at hg'
  have e := Out.ok.inj hg'
  subst e
  have hw := hst.worst (-1, ds0) he (0, last) hgold
  have hsteps := hst.steps (-1, ds0) he (0, last) hgold
  simp only at hw hsteps
  obtain ⟨w1, w2⟩ := lastEnd_spec s.ts (-1) (0, last)
  rw [← hw] at w1 w2
  simp only at h5
  have hint : intervals cpt c 0 = (List.range (c / cpt)).map fun (k : Nat) => (k * cpt, (k + 1) * cpt) := by
    unfold intervals
    rw [List.filter_eq_self]
    intro i _
    simp
  rw [show (simConfig fp dev cpt wl.golden true).cpt = cpt from rfl, hint, List.map_map] at hsteps
  by_cases hz : ds0.worst ≤ 0
  · right
    rw [if_pos hz] at h5
    refine ⟨h5, ?_⟩
    rcases h1 with h1 | ⟨i, t, a1, a2⟩
    · intro t ht; rw [h1] at ht; simp at ht
    · have hm := w1 t (List.mem_of_getElem? a1) (hrel t (List.mem_of_getElem? a1))
      intro u hu
      obtain ⟨j, hj⟩ := List.mem_iff_getElem?.mp hu
      have hm2 := w1 u hu (hrel u hu)
      refine h2 ?_ j u hj (by omega)
      have h24 : c0 < cpt := by have := H.long; omega
      exact Nat.eq_zero_of_dvd_of_lt hdv h24
  · left
    rw [if_neg hz] at h5
    have hle : c0 ≤ ds0.worst + 24 := by
      rcases h1 with h1 | ⟨i, t, a1, a2⟩
      · rw [h1] at hw
        exact absurd (le_of_eq hw) hz
      · have := w1 t (List.mem_of_getElem? a1) (hrel t (List.mem_of_getElem? a1))
        omega
    have hn : ds0.steps.length ≤ (ds0.worst + cpt - 1) / cpt - 0 / cpt + 1 := by
      rw [hsteps, List.length_map, List.length_range, Nat.zero_div, Nat.sub_zero, hc0, Nat.add_div_right _ H.positive]
      apply Nat.succ_le_succ
      exact Nat.div_le_div_right (by have := H.long; omega)
    unfold Stats.resize at h5
    rw [List.take_of_length_le hn, hsteps] at h5
    exact ⟨_, h5⟩

/-- C142 with any rounding, for timesteps of at least 25 cycles, at most 65536 transfers and routes that pass no link
twice.  As in `C142_partial` there is one timestep at full speed for every transfer with a dependency; for the rounding
there is one part in 127 and a 2^24-th of what the link was asked to carry. -/
theorem C142_rounded_partial (fp : FP) (dev : Device) (cpt : Nat) (ho : HashOrder) (wl : Workload) (s : Sim) (st : Stats)
    (dm : DevStats) (H : AccountedRounded fp dev cpt ho wl s st dm) (a : LinkAttr) (l : Int)
    (hl : dev.getLinkID a = .ok l) :
    linkBytes s.ts l ≤ rounded ((carried dev.linkBw dm.steps l + requested dm.steps l / 16777216) * (1 + 1 / 127) +
      extraRounded fp dev cpt s.ts fun t => t.route.count l) := by
  obtain ⟨s0, c, h0, hs, hlive, hq, hrec⟩ := H.records
  have hr : RatesOk (simConfig fp dev cpt wl.golden true).rates := computeRates_ok fp dev true
  have hinv := init_inv h0
  have hi := hs.inv hr hinv
  obtain ⟨hist, A, hst, _, hsz, hA, hsum⟩ := hs.account_rounded H.device H.table H.caps H.positive H.length H.chips
    H.rates h0 (l := l) (f := fun x => (min x dev.linkBw + x / 16777216) * (1 + 1 / 127))
    (fun c g ts ts' live g' a1 a2 a3 a4 a5 => by
      have hlen : s0.ts.length = s.ts.length := by
        apply le_antisymm
        · by_contra hcon
          obtain ⟨t0, b1, _⟩ := hs.static_get' hr hinv
            (List.getElem?_eq_getElem (show s.ts.length < s0.ts.length by omega))
          exact absurd (List.getElem?_eq_some_iff.mp b1).1 (by omega)
        · by_contra hcon
          obtain ⟨t0, b1, _⟩ := hs.static_get hr hinv
            (List.getElem?_eq_getElem (show s0.ts.length < s.ts.length by omega))
          exact absurd (List.getElem?_eq_some_iff.mp b1).1 (by omega)
      refine rates_flow_rounded H.device H.table H.caps H.positive a1 a2 (by have := H.few; omega) (fun i hi t ht => ?_) a5 hl
      obtain ⟨b1, b2, t0, b3, b4, b5⟩ := a4 i hi t ht
      obtain ⟨j, hj⟩ := List.mem_iff_getElem?.mp b3
      obtain ⟨t', c1, _, c3, _⟩ := hs.static_get' hr hinv hj
      refine ⟨b1, H.rates _ b2, H.rects _ b2, ?_⟩
      rw [← b5, ← c3]
      exact H.routes t' (List.mem_of_getElem? c1))
  have hbw : 0 ≤ dev.linkBw := H.caps.1
  have hK : ∀ t ∈ s.ts, 0 ≤ aloneBw fp dev t.params := by
    intro t ht
    obtain ⟨i, hi⟩ := List.mem_iff_getElem?.mp ht
    obtain ⟨t0, b1, b2, _⟩ := hs.static_get hr hinv hi
    refine aloneBw_nonneg H.table _ ?_
    rw [← b2]; exact H.rates _ ((initSim_ok h0).1.slots i t0 b1).1
  have hcp : (0 : ℚ) < cpt := by exact_mod_cast H.positive
  rcases hrec hist hst with ⟨m, hm⟩ | ⟨hm, hz⟩
  · have hcar : (carried dev.linkBw dm.steps l + requested dm.steps l / 16777216) * (1 + 1 / 127) =
        recordedBy (fun x => (min x dev.linkBw + x / 16777216) * (1 + 1 / 127)) cpt hist l c := by
      unfold carried requested recordedBy
      rw [div_eq_mul_inv, ← List.sum_map_mul_right, ← List.sum_map_add, ← List.sum_map_mul_right, hm, List.map_append,
        List.sum_append, List.map_map, List.map_replicate, List.sum_replicate]
      have : min (({} : TimestepStats).linkGrid.getD l.toNat 0) dev.linkBw = 0 := by
        simp [hbw]
      have h0 : ({} : TimestepStats).linkGrid.getD l.toNat 0 = 0 := by simp
      rw [this, h0, zero_mul, zero_mul, add_zero, zero_mul, nsmul_zero, add_zero]
      congr 1
      apply List.map_congr_left
      intro k _
      simp only [Function.comp, record_start, record_end]
      have e : (record dev hist (-1) (k * cpt, (k + 1) * cpt)).linkGrid = (hist ((k + 1) * cpt)).1.link := rfl
      rw [e, List.getD_eq_getElem?_getD]
      push_cast
      ring
    rw [hcar]
    have hlen : s.ts.length = s0.ts.length := by
      have h1 := hs.static hr hinv
      apply le_antisymm
      · by_contra hcon
        obtain ⟨t0, b1, _⟩ := hs.static_get hr hinv (List.getElem?_eq_getElem (show s0.ts.length < s.ts.length by omega))
        exact absurd (List.getElem?_eq_some_iff.mp b1).1 (by omega)
      · by_contra hcon
        obtain ⟨t0, b1, _⟩ := hs.static_get' hr hinv (List.getElem?_eq_getElem (show s.ts.length < s0.ts.length by omega))
        exact absurd (List.getElem?_eq_some_iff.mp b1).1 (by omega)
    have hoc : ∀ (i : Nat) t, s.ts[i]? = some t → occurs s0 l i = (t.route.count l : ℚ) := by
      intro i t ht
      obtain ⟨t0, b1, _, b3, _⟩ := hs.static_get hr hinv ht
      unfold occurs
      rw [b1]
      simp only
      rw [b3]
    have h1 : linkBytes s.ts l ≤ rounded (((List.range s0.ts.length).map fun i => occurs s0 l i * A i).sum +
        extraRounded fp dev cpt s.ts fun t => t.route.count l) := by
      unfold linkBytes extraRounded rounded
      rw [sum_index s.ts (fun t => (t.route.count l : ℚ) * t.params.totalBytes) (fun i => match s.ts[i]? with
          | some t => (t.route.count l : ℚ) * t.params.totalBytes
          | none => 0) (fun i t ht => by rw [ht]),
        sum_index s.ts (fun t => (t.route.count l : ℚ) * (aloneBw fp dev t.params * extraCredit cpt t))
          (fun i => match s.ts[i]? with
          | some t => (t.route.count l : ℚ) * (aloneBw fp dev t.params * extraCredit cpt t)
          | none => 0) (fun i t ht => by rw [ht])]
      rw [hlen, ← List.sum_map_add, ← List.sum_map_mul_right]
      apply sum_le_sum'
      intro i hi'
      have hlt : i < s.ts.length := by rw [hlen]; exact List.mem_range.mp hi'
      have ht := List.getElem?_eq_getElem hlt
      rw [ht]
      simp only
      rw [hoc i _ ht, ← mul_add, mul_assoc]
      refine mul_le_mul_of_nonneg_left ?_ (by positivity)
      have := (hA i _ ht).2.2 (by rw [hq]; simp)
      have hfin := (hi.finished i _ ht (by rw [hq]; simp) (by rw [hlive]; simp))
      rw [hfin] at this
      exact this
    exact h1.trans (rounded_mono (by linarith))
  · have e1 : linkBytes s.ts l = 0 := by
      unfold linkBytes
      apply List.sum_eq_zero
      intro x hx
      obtain ⟨t, ht, rfl⟩ := List.mem_map.mp hx
      rw [hz t ht]; simp
    have e2 : carried dev.linkBw dm.steps l = 0 := by rw [hm]; rfl
    have e3 : 0 ≤ extraRounded fp dev cpt s.ts fun t => t.route.count l := by
      unfold extraRounded
      apply List.sum_nonneg
      intro x hx
      obtain ⟨t, ht, rfl⟩ := List.mem_map.mp hx
      have : 0 ≤ extraCredit cpt t := by unfold extraCredit; split <;> positivity
      exact mul_nonneg (by positivity) (mul_nonneg (hK t ht) this)
    have e4 : requested dm.steps l = 0 := by rw [hm]; rfl
    rw [e1, e2, e4]
    exact rounded_nonneg (by linarith)

/-- C142 without dependencies, with any rounding. -/
theorem C142_rounded_independent (fp : FP) (dev : Device) (cpt : Nat) (ho : HashOrder) (wl : Workload) (s : Sim)
    (st : Stats) (dm : DevStats) (H : AccountedRounded fp dev cpt ho wl s st dm) (hind : ∀ t ∈ s.ts, t.dependsOn = -1)
    (a : LinkAttr) (l : Int) (hl : dev.getLinkID a = .ok l) :
    linkBytes s.ts l ≤
      rounded ((carried dev.linkBw dm.steps l + requested dm.steps l / 16777216) * (1 + 1 / 127)) := by
  have h := C142_rounded_partial fp dev cpt ho wl s st dm H a l hl
  have e : (extraRounded fp dev cpt s.ts fun t => t.route.count l) = 0 := by
    unfold extraRounded
    apply List.sum_eq_zero
    intro x hx
    obtain ⟨t, ht, rfl⟩ := List.mem_map.mp hx
    unfold extraCredit
    rw [if_pos (hind t ht)]; simp
  rw [e, add_zero] at h
  exact h

/-- C142 for all links together, with any rounding: the average utilisation in the records, the bandwidth of all links and the time give at
least the data times the links that they pass (with the same allowances as `C142_rounded_partial`). -/
theorem C142_all_rounded_partial (fp : FP) (dev : Device) (cpt : Nat) (ho : HashOrder) (hord : ∀ l, (ho.links l).Perm l) (wl : Workload)
    (s : Sim) (st : Stats) (dm : DevStats) (H : AccountedRounded fp dev cpt ho wl s st dm) (hbw : 0 < dev.linkBw) :
    hopBytes s.ts ≤ rounded ((carriedAll (dev.linkBw * dev.linkTable.length) dm.steps +
      requestedAll dm.steps / 16777216) * (1 + 1 / 127) + extraRounded fp dev cpt s.ts fun t => t.route.length) := by
  obtain ⟨s0, c, h0, hs, hlive, hq, hrec⟩ := H.records
  have hr : RatesOk (simConfig fp dev cpt wl.golden true).rates := computeRates_ok fp dev true
  have hinv := init_inv h0
  obtain ⟨hist, hst, hsz, _⟩ := run_statsInv H.device H.positive H.chips h0 hs
  have hids : ∀ t ∈ s.ts, ∀ i ∈ t.route, 0 ≤ i ∧ i < dev.linkTable.length := by
    intro t ht i hi
    obtain ⟨k, hk⟩ := List.mem_iff_getElem?.mp ht
    obtain ⟨t0, b1, _, b3, _⟩ := hs.static_get hr hinv hk
    obtain ⟨a, a1, a2, _⟩ := route_noc H.device hord ((initSim_ok h0).1.slots k t0 b1).2.1 i (by rw [b3]; exact hi)
    have := dev.linkIdx_lt a a1
    rw [dev.linkTable_length]
    omega
  have hcount : ∀ (w : TState → ℚ), ((List.range dev.linkTable.length).map fun (l : Nat) =>
      (s.ts.map fun t => (t.route.count (l : Int) : ℚ) * w t).sum).sum = (s.ts.map fun t => (t.route.length : ℚ) * w t).sum := by
    intro w
    rw [sum_swap]
    congr 1
    apply List.map_congr_left
    intro t ht
    rw [List.sum_map_mul_right, count_links (hids t ht)]
  have e1 : hopBytes s.ts = ((List.range dev.linkTable.length).map fun (l : Nat) => linkBytes s.ts l).sum :=
    (hcount fun t => t.params.totalBytes).symm
  have e2 : (extraRounded fp dev cpt s.ts fun t => t.route.length) = ((List.range dev.linkTable.length).map fun (l : Nat) =>
      extraRounded fp dev cpt s.ts fun t => t.route.count (l : Int)).sum :=
    (hcount fun t => aloneBw fp dev t.params * extraCredit cpt t).symm
  have e3 : carriedAll (dev.linkBw * dev.linkTable.length) dm.steps =
      ((List.range dev.linkTable.length).map fun (l : Nat) => carried dev.linkBw dm.steps l).sum := by
    unfold carriedAll carried
    rw [sum_swap]
    congr 1
    apply List.map_congr_left
    intro r hr'
    rw [List.sum_map_mul_right]
    congr 1
    rcases hrec hist hst with ⟨m, hm⟩ | ⟨hm, _⟩
    · rw [hm] at hr'
      rcases List.mem_append.mp hr' with hr' | hr'
      · obtain ⟨k, _, rfl⟩ := List.mem_map.mp hr'
        exact record_util H.device hbw hsz _
      · rw [(List.mem_replicate.mp hr').2]
        simp [hbw.le]
    · rw [hm] at hr'
      simp at hr'
  have e4 : requestedAll dm.steps =
      ((List.range dev.linkTable.length).map fun (l : Nat) => requested dm.steps l).sum := by
    unfold requestedAll requested
    rw [sum_swap]
    congr 1
    apply List.map_congr_left
    intro r hr'
    rw [List.sum_map_mul_right]
    congr 1
    rcases hrec hist hst with ⟨m, hm⟩ | ⟨hm, _⟩
    · rw [hm] at hr'
      rcases List.mem_append.mp hr' with hr' | hr'
      · obtain ⟨k, _, rfl⟩ := List.mem_map.mp hr'
        have e : (record dev hist (-1) (k * cpt, (k + 1) * cpt)).linkGrid = (hist ((k + 1) * cpt)).1.link := rfl
        have hsum := sum_index (hist ((k + 1) * cpt)).1.link (fun x => x)
          (fun l => (hist ((k + 1) * cpt)).1.link.getD l 0) (fun l x hx => by rw [List.getD_eq_getElem?_getD, hx]; rfl)
        rw [(hsz _).2.1, List.map_id'] at hsum
        rw [e, hsum]
        simp only [Int.toNat_natCast]
      · rw [(List.mem_replicate.mp hr').2]
        simp
    · rw [hm] at hr'
      simp at hr'
  rw [e1, e2, e3, e4]
  unfold rounded
  rw [div_eq_mul_inv, ← List.sum_map_mul_right, ← List.sum_map_add, ← List.sum_map_mul_right, ← List.sum_map_add,
    ← List.sum_map_mul_right]
  apply sum_le_sum'
  intro l hl
  have hlt := List.mem_range.mp hl
  have hg := List.getElem?_eq_getElem hlt
  obtain ⟨a1, a2⟩ := (dev.linkTable_get l _).mp hg
  have := C142_rounded_partial fp dev cpt ho wl s st dm H dev.linkTable[l] l ?_
  · unfold rounded at this
    rw [div_eq_mul_inv] at this
    exact this
  rw [dev.getLinkID_eq H.device.ids _ a1]
  congr 1
  exact_mod_cast a2.symm


/-- C142 for the summary, with any rounding: the same with the average utilisation that the run reports for the mesh. -/
theorem C142_summary_rounded_partial (fp : FP) (dev : Device) (cpt : Nat) (ho : HashOrder) (hord : ∀ l, (ho.links l).Perm l) (wl : Workload)
    (s : Sim) (st : Stats) (dm : DevStats) (H : AccountedRounded fp dev cpt ho wl s st dm) (hbw : 0 < dev.linkBw) (sm : Summary)
    (hsm : computeSummary dev wl (-1) dm = .ok sm) (u : ℚ) (hu : sm.avgLinkUtil = .num u) :
    hopBytes s.ts ≤ rounded ((u / 100 * (dev.linkBw * dev.linkTable.length) * ((dm.steps.length * cpt : Nat) : ℚ) +
      requestedAll dm.steps / 16777216) * (1 + 1 / 127) + extraRounded fp dev cpt s.ts fun t => t.route.length) := by
  have hall := C142_all_rounded_partial fp dev cpt ho hord wl s st dm H hbw
  obtain ⟨s0, c, h0, hs, hlive, hq, hrec⟩ := H.records
  obtain ⟨hist, hst, hsz, _⟩ := run_statsInv H.device H.positive H.chips h0 hs
  unfold computeSummary at hsm
  obtain ⟨bytes, _, h2⟩ := Out.bind_eq_ok.mp hsm
  obtain ⟨eth, _, h2⟩ := Out.bind_eq_ok.mp h2
  simp only [Out.pure_eq, Out.ok.injEq] at h2
  rw [← h2] at hu
  simp only at hu
  have hne : dm.steps ≠ [] := by
    intro hc
    rw [hc] at hu
    unfold avgOver fdiv at hu
    simp at hu
  rw [avgOver_num hne] at hu
  have hu : (dm.steps.map (·.avgLinkUtil)).sum / dm.steps.length = u := by injection hu
  have hlen : (dm.steps.length : ℚ) ≠ 0 := by
    have : dm.steps.length ≠ 0 := fun hc => hne (List.length_eq_zero_iff.mp hc)
    exact_mod_cast this
  have e : carriedAll (dev.linkBw * dev.linkTable.length) dm.steps =
      u / 100 * (dev.linkBw * dev.linkTable.length) * ((dm.steps.length * cpt : Nat) : ℚ) := by
    unfold carriedAll
    have : (dm.steps.map fun r => r.avgLinkUtil / 100 * (dev.linkBw * dev.linkTable.length) * ((r.endc : ℚ) - r.startc)) =
        dm.steps.map fun r => r.avgLinkUtil * ((dev.linkBw * dev.linkTable.length) * cpt / 100) := by
      apply List.map_congr_left
      intro r hr'
      rcases hrec hist hst with ⟨m, hm⟩ | ⟨hm, _⟩
      · rw [hm] at hr'
        rcases List.mem_append.mp hr' with hr' | hr'
        · obtain ⟨k, _, rfl⟩ := List.mem_map.mp hr'
          simp only [record_start, record_end]
          push_cast
          ring
        · rw [(List.mem_replicate.mp hr').2]
          simp
      · exact absurd hm hne
    rw [this, List.sum_map_mul_right, ← hu]
    push_cast
    field_simp
  rw [e] at hall
  exact hall

/-- The books of a run in single precision: the data over the link from core (0,1) to core (1,1), those according to the
records, those that the records ask for on this link and on all links, the number of transfers and whether no route
passes a link twice. -/
def floatBooks (ts : List Transfer) : Option (ℚ × ℚ × ℚ × ℚ × Nat × Bool) :=
  match runSingle .ieee floatDev ⟨id, id⟩ 128 true (windowed 0 ts) with
  | .ok (.inl (s, st)) => (st.find? fun e => decide (e.1 = -1)).map fun e =>
    (linkBytes s.ts 5, carried floatDev.linkBw e.2.steps 5, requested e.2.steps 5, requestedAll e.2.steps, s.ts.length,
      s.ts.all fun t => decide t.route.Nodup)
  | _ => none

/-- Also in single precision the records lack the data of a transfer that waits for another (639 bytes are sent, 576 are
recorded), so that C142 is violated there too and the allowance is needed; without dependencies they agree. -/
theorem C142_rounded_violated :
    floatBooks [Sample.tr 85 0, Sample.tr 42 64, Sample.tr 512 64] = some (639, 576, 576, 576, 3, true) ∧
    floatBooks (twoSenders 512 0) = some (14336, 14336, 14336, 21504, 2, true) := by
  constructor <;> decide +kernel

/-- The hypotheses of the rounded theorem hold for the second run, so that the bound is true of it. -/
example : ∃ s st dm, AccountedRounded .ieee floatDev 128 ⟨id, id⟩ (windowed 0 (twoSenders 512 0)) s st dm ∧
    linkBytes s.ts 5 = 14336 ∧ carried floatDev.linkBw dm.steps 5 = 14336 ∧
    linkBytes s.ts 5 ≤ rounded ((14336 + 14336 / 16777216) * (1 + 1 / 127) +
      extraRounded .ieee floatDev 128 s.ts fun t => t.route.count 5) := by
  have h := C142_rounded_violated.2
  unfold floatBooks at h
  split at h
  · rename_i s st hrun
    obtain ⟨⟨d, dm⟩, he, hx⟩ := Option.map_eq_some_iff.mp h
    have hd : d = -1 := by simpa using List.find?_some he
    subst hd
    obtain ⟨h1, hx⟩ := Prod.mk.inj hx
    obtain ⟨h2, hx⟩ := Prod.mk.inj hx
    obtain ⟨h3, hx⟩ := Prod.mk.inj hx
    obtain ⟨_, hx⟩ := Prod.mk.inj hx
    obtain ⟨h4, h5⟩ := Prod.mk.inj hx
    have hmem : ∀ t ∈ (windowed 0 (twoSenders 512 0)).transfers, t.src.dev = 0 ∧ t.dst = .unicast ⟨0, 1, 1⟩ ∧
        t.injectionRate = 14 ∧ t.offset = 0 := by
      intro t ht
      have := List.all_eq_true.mp (show ((windowed 0 (twoSenders 512 0)).transfers.all fun t => decide (t.src.dev = 0 ∧
        t.dst = .unicast ⟨0, 1, 1⟩ ∧ t.injectionRate = 14 ∧ t.offset = 0)) = true by decide +kernel) t ht
      simpa using this
    have hrep : FP.ieee.f32.Rep 14 := by
      have := FP.ieee.f32.fl_nat (n := 14) (by norm_num)
      simpa [Rounding.Rep] using this
    have H : AccountedRounded .ieee floatDev 128 ⟨id, id⟩ (windowed 0 (twoSenders 512 0)) s st dm := by
      refine ⟨⟨by decide, by decide, by decide, by decide, fun _ => rfl⟩, wormhole_table .ieee false 1,
        ⟨by decide +kernel, ?_, ?_⟩, by decide, by decide, ?_, ?_, ?_, by have : s.ts.length = 2 := h4; omega,
        fun t ht => by simpa using List.all_eq_true.mp h5 t ht, hrun, List.mem_of_find?_eq_some he, ⟨1000, rfl, ?_⟩⟩
      · intro c; cases c <;> decide +kernel
      · intro c; cases c <;> decide +kernel
      · intro t ht
        rw [(hmem t ht).1]
        decide
      · intro t ht
        exact ⟨by rw [(hmem t ht).2.2.1]; norm_num, by rw [(hmem t ht).2.2.1]; exact hrep⟩
      · intro t ht
        unfold RectsOk
        rw [(hmem t ht).2.1]
        intro gs h
        cases h
      · intro t ht
        rw [(hmem t ht).2.2.2]
        decide
    refine ⟨s, st, dm, H, h1, h2, ?_⟩
    have := C142_rounded_partial _ _ _ _ _ s st dm H ⟨⟨0, 0, 1⟩, .noc0South⟩ 5 (by decide +kernel)
    rw [show carried floatDev.linkBw dm.steps 5 = 14336 from h2, show requested dm.steps 5 = 14336 from h3] at this
    exact this
  · simp at h

end NPE.Props
