import Verif.Proofs.Total

/-
Conditions under which the rates of a timestep can be computed.
-/

namespace NPE
open Spec (Reach DeviceOk TableOk Peak Capacities Sane)

theorem tableBw_total {fp : FP} {dev : Device} (h : TableOk fp dev.tbt) {t : TState}
    (hps : 0 < t.params.packetSize) (hn : 0 < t.params.numPackets) :
    ∃ b, tableBw fp dev t = .ok b ∧ (0 < t.params.injectionRate → 0 < b) := by
  obtain ⟨x, hx⟩ : ∃ x : Nat × ℚ, Peak dev.tbt x.1 x.2 := by
    obtain ⟨b, l, e⟩ := h.first
    have hne : dev.tbt ≠ [] := by rw [e]; simp
    exact ⟨dev.tbt.getLast hne, List.getLast?_eq_getLast_of_ne_nil hne⟩
  obtain ⟨_, _, hpos, hst, _, he⟩ := interpolateBW_eq h hx hps hn
  unfold tableBw
  rw [he, Out.bind_ok]
  refine ⟨_, rfl, fun hi => lt_min hi ?_⟩
  split
  · exact blended_pos fp hn hpos hst
  · exact hpos

/-- Parameters for which the interpolation and the book-keeping are defined. -/
structure Movable (golden : GoldenMap) (t : TState) : Prop where
  packets : 0 < t.params.numPackets
  size : 0 < t.params.packetSize
  inj : 0 ≤ t.params.injectionRate
  golden : ∃ g, golden.at t.params.src.dev = .ok g

/-- What the congestion model needs in addition. -/
structure Placed (fp : FP) (dev : Device) (t : TState) : Prop where
  rep : fp.f32.Rep t.params.injectionRate
  range : InRange dev (initGrids dev) t
  sink : ∀ d, t.params.dst = .unicast d → ∃ a, dev.getSinkAbsorptionRate d = .ok a

/-- The conditions for one transfer. -/
structure Runnable (fp : FP) (dev : Device) (golden : GoldenMap) (en : Bool) (t : TState) : Prop where
  movable : Movable golden t
  zero : t.params.totalBytes = 0 → 0 < t.params.injectionRate ∧ en = false
  placed : en = true → Placed fp dev t

theorem Runnable.congr {fp : FP} {dev : Device} {golden : GoldenMap} {en : Bool} {t t' : TState}
    (h : stat t' = stat t) (hr : Runnable fp dev golden en t) : Runnable fp dev golden en t' := by
  have hp : t'.params = t.params := congrArg (·.1) h
  have hro : t'.route = t.route := congrArg (·.2.1) h
  refine ⟨⟨?_, ?_, ?_, ?_⟩, ?_, fun he => ⟨?_, ?_, ?_⟩⟩
  · rw [hp]; exact hr.movable.packets
  · rw [hp]; exact hr.movable.size
  · rw [hp]; exact hr.movable.inj
  · rw [hp]; exact hr.movable.golden
  · rw [hp]; exact hr.zero
  · rw [hp]; exact (hr.placed he).rep
  · have := (hr.placed he).range
    unfold InRange mcastRoute at *
    rw [hp, hro]; exact this
  · rw [hp]; exact (hr.placed he).sink

theorem foldlM_read_total {f : ℚ → ℚ → ℚ} {g : List ℚ} : ∀ (l : List Int) (m : ℚ),
    (∀ i ∈ l, 0 ≤ i ∧ i < g.length) →
    ∃ m', Out.foldlM (fun m i => readAt g i >>= fun x => .ok (f m x)) m l = .ok m' := by
  intro l
  induction l with
  | nil => intro m _; exact ⟨m, rfl⟩
  | cons i l ih =>
    intro m h
    obtain ⟨h0, hl⟩ := h i (by simp)
    have hlt : i.toNat < g.length := by omega
    obtain ⟨m', hm⟩ := ih (f m g[i.toNat]) fun j hj => h j (List.mem_cons_of_mem _ hj)
    refine ⟨m', ?_⟩
    rw [Out.foldlM_cons, readAt_ok.mpr ⟨h0, List.getElem?_eq_getElem hlt⟩, Out.bind_ok, Out.bind_ok]
    exact hm

theorem overallDerate_total {fp : FP} {dev : Device} {g : Grids} {t : TState} (hr : InRange dev g t)
    (hs : ∀ d, t.params.dst = .unicast d → ∃ a, dev.getSinkAbsorptionRate d = .ok a) :
    ∃ d, overallDerate fp dev g t = .ok d := by
  obtain ⟨⟨l, hl, hn⟩, hlk, _⟩ := hr
  unfold loads at hl
  obtain ⟨src, hsrc, hl⟩ := Out.bind_eq_ok.mp hl
  obtain ⟨sinks, hsk, hl⟩ := Out.bind_eq_ok.mp hl
  have e := Out.ok.inj hl
  subst e
  have rd : ∀ i ∈ src :: sinks, ∃ x, readAt g.niu i = .ok x := by
    intro i hi
    obtain ⟨h0, h1⟩ := hn i hi
    exact ⟨_, readAt_ok.mpr ⟨h0, List.getElem?_eq_getElem (by omega)⟩⟩
  obtain ⟨m, hm⟩ := foldlM_read_total (f := max) (g := g.link) t.route 0 hlk
  obtain ⟨sd, hsd⟩ := rd src (by simp)
  have hsink : ∃ d, sinkDerate fp dev g t.params = .ok d := by
    unfold sinkDerate
    cases hdst : t.params.dst with
    | unicast d =>
      simp only
      have hsk' := hsk
      unfold sinkIds at hsk'
      rw [hdst] at hsk'
      simp only at hsk'
      obtain ⟨i, hi, h2⟩ := Out.bind_eq_ok.mp hsk'
      obtain ⟨x, hx⟩ := rd i (by rw [← Out.ok.inj h2]; simp)
      obtain ⟨a, ha⟩ := hs d hdst
      rw [hi, Out.bind_ok, hx, Out.bind_ok, ha, Out.bind_ok]
      exact ⟨_, rfl⟩
    | mcast gs =>
      simp only
      obtain ⟨m, hm⟩ := foldlM_read_total (f := min) (g := g.niu) sinks 0
        fun i hi => hn i (List.mem_cons_of_mem _ hi)
      rw [hsk, Out.bind_ok, hm, Out.bind_ok]
      exact ⟨_, rfl⟩
  obtain ⟨sk, hsk2⟩ := hsink
  unfold overallDerate maxLinkDemand
  rw [hm, Out.bind_ok, hsrc, Out.bind_ok, hsd, Out.bind_ok, hsk2, Out.bind_ok]
  exact ⟨_, rfl⟩

theorem computeRates_ok_of {fp : FP} {dev : Device} (hT : TableOk fp dev.tbt) {golden : GoldenMap}
    {en : Bool} {sot curr : Nat} {g : Grids} {ts : List TState} {live : List Nat} (hn : live.Nodup)
    (h : ∀ i ∈ live, ∃ t, ts[i]? = some t ∧ Runnable fp dev golden en t ∧ t.start ≤ curr) :
    ∃ ts' g', computeRates fp dev en sot curr g ts live = .ok (ts', g') := by
  have hu : ∃ ts1, updateTransferBandwidth fp dev ts live = .ok ts1 := by
    obtain ⟨ts1, h1⟩ := foldlM_setBw_ok (g := tableBw fp dev) live ts hn (by
      intro i hi
      obtain ⟨t, ht, hr, _⟩ := h i hi
      obtain ⟨b, hb, _⟩ := tableBw_total hT hr.movable.size hr.movable.packets
      exact ⟨t, b, ht, hb⟩)
    refine ⟨ts1, ?_⟩
    rw [← h1]
    unfold updateTransferBandwidth
    exact foldlM_congr' _ _ fun i _ s => updateBwOne_eq fp dev s i
  obtain ⟨ts1, h1⟩ := hu
  have w1 := updateTransferBandwidth_written hn h1
  unfold computeRates
  rw [h1, Out.bind_ok]
  cases en with
  | false => exact ⟨ts1, g, rfl⟩
  | true =>
    simp only [if_true]
    have hp : ∀ i ∈ live, ∃ t, ts1[i]? = some t ∧ Placed fp dev t := by
      intro i hi
      obtain ⟨t, ht, hr, _⟩ := h i hi
      obtain ⟨t2, b, a1, _, a3⟩ := w1.2.2 i hi
      rw [ht] at a1
      have e := Option.some.inj a1
      subst e
      exact ⟨_, a3, (Runnable.congr (t := t) (t' := { t with bw := b }) rfl hr).placed rfl⟩
    unfold modelCongestion
    obtain ⟨g1, hg1⟩ := foldlM_demand_ok (fp := fp) (dev := dev) (sot := sot) (curr := curr) (ts := ts1)
      live (initGrids dev) (fun i hi => by
        obtain ⟨t, ht, hP⟩ := hp i hi
        exact ⟨t, ht, hP.range⟩)
    have hacc := (foldlM_demand _ _ _ hg1).2
    obtain ⟨ts2, h2⟩ := foldlM_setBw_ok (g := deratedBw fp dev g1) live ts1 hn (by
      intro i hi
      obtain ⟨t, ht, hP⟩ := hp i hi
      obtain ⟨d, hd⟩ := overallDerate_total (fp := fp)
        (hP.range.congr (g' := g1) hacc.1 hacc.2.1 hacc.2.2.1) hP.sink
      refine ⟨t, applyDerate fp dev t.bw d, ht, ?_⟩
      unfold deratedBw
      rw [hd]
      rfl)
    have h3 : Out.foldlM (derateOne fp dev g1) ts1 live = .ok ts2 := by
      rw [← h2]
      exact foldlM_congr' _ _ fun i _ s => derateOne_eq fp dev g1 s i
    unfold demands
    rw [hg1, Out.bind_ok, h3, Out.bind_ok]
    exact ⟨_, _, rfl⟩

theorem ratesTotal {fp : FP} {dev : Device} (hT : TableOk fp dev.tbt) (hc : Capacities dev)
    (hmax : dev.maxBw ≤ 524288) (golden : GoldenMap) (en : Bool) :
    RatesTotal (computeRates fp dev en) dev golden (Runnable fp dev golden en) := by
  intro sot curr g ts live hlt h32 hn hsz h
  obtain ⟨ts', g', hr⟩ := computeRates_ok_of (sot := sot) (curr := curr) (g := g) hT hn h
  refine ⟨ts', g', hr, sized_rates hn hsz hr, ?_⟩
  intro i hi t' ht' hm
  have hR := h i hi
  obtain ⟨t, ht, hP, hst⟩ := hR
  have hr0 := hr
  obtain ⟨_, _, _, r2⟩ := computeRates_bw hn hr
  obtain ⟨t2, b, d, a1, a2, a3, a4⟩ := r2 i hi
  rw [ht] at a1
  have e := Option.some.inj a1
  subst e
  rw [ht'] at a3
  have e := Option.some.inj a3
  subst e
  obtain ⟨b1, b2, b3, b4⟩ := tableBw_ok hT a2
  have hb0 := b1 hP.movable.inj
  have hb4 : b ≤ bwLimit := by
    unfold bwLimit
    nlinarith
  cases en with
  | false =>
    rw [a4 rfl] at hm ⊢
    refine ⟨hb0, hb4, ?_, hP.movable.golden⟩
    rcases hm with hm | hm
    · exact Or.inl hm
    · right
      obtain ⟨b', hb', hpos⟩ := tableBw_total hT hP.movable.size hP.movable.packets
      rw [a2] at hb'
      rw [← Out.ok.inj hb'] at hpos
      exact hpos (hP.zero hm).1
  | true =>
    have hrep := b2 (hP.placed rfl).rep
    have hnn : 0 ≤ applyDerate fp dev b d := by
      unfold computeRates at hr0
      obtain ⟨tsm, hm1, hr0⟩ := Out.bind_eq_ok.mp hr0
      simp only [if_true] at hr0
      have w := updateTransferBandwidth_written hn hm1
      have hsane : Sane curr tsm live := by
        refine ⟨hn, fun j hj u hu => ?_⟩
        obtain ⟨tj, htj, hPj, hsj⟩ := h j hj
        obtain ⟨t3, b3, c1, c2, c3⟩ := w.2.2 j hj
        rw [htj] at c1
        have e := Option.some.inj c1
        subst e
        rw [hu] at c3
        rw [Option.some.inj c3]
        exact ⟨hsj, (tableBw_ok hT c2).1 hPj.movable.inj, hPj.movable.inj⟩
      obtain ⟨_, _, h3⟩ := derated hc hlt.le hsane hr0
      obtain ⟨u, d', c1, c2, _, c4, _⟩ := h3 i hi
      obtain ⟨t3, b3, e1, e2, e3⟩ := w.2.2 i hi
      rw [ht] at e1
      have e := Option.some.inj e1
      subst e
      rw [a2] at e2
      have e := Out.ok.inj e2
      subst e
      rw [c1] at e3
      have e := Option.some.inj e3
      subst e
      rw [ht'] at c2
      have e := congrArg TState.bw (Option.some.inj c2)
      simp only at e
      rw [e]
      exact (applyDerate_le (dev := dev) hb0 hrep c4.nonneg).1
    refine ⟨hnn, le_trans (applyDerate_le' hb0 hrep) hb4, ?_, hP.movable.golden⟩
    rcases hm with hm | hm
    · exact Or.inl hm
    · exact absurd (hP.zero hm).2 (by simp)

end NPE
