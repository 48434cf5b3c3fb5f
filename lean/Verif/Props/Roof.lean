import Verif.Proofs.Roof
import Verif.Props.Account

/-
Property C144: the estimate leaves the busiest link, source and sink the time that their data need.
-/

namespace NPE.Props
open NPE NPE.Spec NPE.Spec.Fluid

/-- The data that the transfers with a property send. -/
def sentBytes (use : Transfer → Prop) [DecidablePred use] (ts : List TState) : ℚ :=
  (ts.map fun t => if use t.params then (t.params.totalBytes : ℚ) else 0).sum

/-- The hypotheses of C144: a run with congestion and an entry of its result. -/
structure Roofed (dev : Device) (cpt : Nat) (ho : HashOrder) (wl : Workload) (s : Sim) (st : Stats) (d : Int)
    (ds : DevStats) (g : Nat × Nat) : Prop where
  device : DeviceOk dev
  table : TableOk .exact dev.tbt
  caps : Capacities dev
  pos : 0 < cpt
  length : cpt ≤ 1000000000
  chips : OnChips dev wl.transfers
  rates : ∀ t ∈ wl.transfers, 0 ≤ t.injectionRate
  rects : ∀ t ∈ wl.transfers, RectsOk t
  run : runSingle .exact dev ho cpt true wl = .ok (.inl (s, st))
  entry : (d, ds) ∈ st
  window : wl.golden.at d = .ok g

/-- For every weight that the rates respect. -/
theorem Roofed.weight {dev : Device} {cpt : Nat} {ho : HashOrder} {wl : Workload} {s : Sim} {st : Stats} {d : Int}
    {ds : DevStats} {g : Nat × Nat} (H : Roofed dev cpt ho wl s st d ds g) {w : TState → Nat}
    (hw : ∀ t t' : TState, t.params = t'.params → t.route = t'.route → w t = w t') {R : ℚ} (hR : 0 ≤ R)
    (hflow : ∀ c g ts ts' live g', c + cpt < 4294967296 → live.Nodup →
      (∀ i ∈ live, ∀ t, ts[i]? = some t → t.start ≤ c + cpt ∧ t.params ∈ wl.transfers) →
      computeRates .exact dev true c (c + cpt) g ts live = .ok (ts', g') → offered w c (c + cpt) ts' live ≤ R)
    (hrel : ∀ t ∈ s.ts, w t ≠ 0 → Relevant d g t.params) :
    (s.ts.map fun t => (w t : ℚ) * t.params.totalBytes).sum ≤
      R * ((ds.estimated + g.1 % cpt : Nat) : ℚ) + extraBytes dev cpt s.ts w := by
  obtain ⟨s0, c, h0, _, _, hs, hl, hq, hf⟩ := runSingle_ok H.run
  obtain ⟨gs, ge, m, e1, e2, _, e4, e5, _⟩ :=
    C35_estimated .exact dev H.device cpt H.pos true ho wl H.chips s st H.run d ds H.entry
  rw [H.window] at e1
  have e1 := Out.ok.inj e1
  subst e1
  simp only at e4 e5 hrel ⊢
  have hr : RatesOk (simConfig .exact dev cpt wl.golden true).rates := computeRates_ok .exact dev true
  have hinv := init_inv h0
  have hi := hs.inv hr hinv
  have hget0 : ∀ (i : Nat) t, s.ts[i]? = some t → weightOf w s0 i = w t := by
    intro i t ht
    obtain ⟨t0, b1, b2, b3, _⟩ := hs.static_get hr hinv ht
    unfold weightOf
    rw [b1]
    simp only
    rw [hw t0 t b2 b3]
  obtain ⟨A, hA, _, hend⟩ := hs.roof H.device H.table H.caps H.pos H.length H.rates H.rects h0 hw hR hflow
    (o := cpt * (gs / cpt)) (Dvd.intro _ rfl) (by
      intro t0 ht0 hwt
      obtain ⟨i, hi0⟩ := List.mem_iff_getElem?.mp ht0
      obtain ⟨t, b1, b2, b3, _⟩ := hs.static_get' hr hinv hi0
      have h1 := (hrel t (List.mem_of_getElem? b1) (by rw [hw t t0 b2 b3]; exact hwt)).2.1
      rw [b2] at h1
      exact le_trans (Nat.mul_div_le gs cpt) h1)
  have hE := hend (ds.estimated + gs) (by
    intro i t ht hwt
    refine ⟨by rw [hq]; simp, by rw [hl]; simp, ?_⟩
    have := e2.1 t (List.mem_of_getElem? ht) (hrel t (List.mem_of_getElem? ht) hwt)
    rcases le_total gs m with h | h
    · rw [e4 h]; exact this
    · omega)
  have hsub : ds.estimated + gs - cpt * (gs / cpt) = ds.estimated + gs % cpt := by
    have := Nat.div_add_mod gs cpt
    omega
  rw [hsub] at hE
  have hlen : s.ts.length = s0.ts.length := by
    apply le_antisymm
    · by_contra hcon
      obtain ⟨t0, b1, _⟩ := hs.static_get hr hinv (List.getElem?_eq_getElem (show s0.ts.length < s.ts.length by omega))
      exact absurd (List.getElem?_eq_some_iff.mp b1).1 (by omega)
    · by_contra hcon
      obtain ⟨t0, b1, _⟩ := hs.static_get' hr hinv (List.getElem?_eq_getElem (show s.ts.length < s0.ts.length by omega))
      exact absurd (List.getElem?_eq_some_iff.mp b1).1 (by omega)
  have h1 : (s.ts.map fun t => (w t : ℚ) * t.params.totalBytes).sum ≤
      ((List.range s0.ts.length).map fun i => weightOf w s0 i * A i).sum + extraBytes dev cpt s.ts w := by
    unfold extraBytes
    rw [sum_index s.ts (fun t => (w t : ℚ) * t.params.totalBytes) (fun i => match s.ts[i]? with
        | some t => (w t : ℚ) * t.params.totalBytes
        | none => 0) (fun i t ht => by rw [ht]),
      sum_index s.ts (fun t => (w t : ℚ) * (aloneBw .exact dev t.params * extraCredit cpt t))
        (fun i => match s.ts[i]? with
        | some t => (w t : ℚ) * (aloneBw .exact dev t.params * extraCredit cpt t)
        | none => 0) (fun i t ht => by rw [ht])]
    rw [hlen, ← List.sum_map_add]
    apply sum_le_sum'
    intro i hi'
    have hlt : i < s.ts.length := by rw [hlen]; exact List.mem_range.mp hi'
    have ht := List.getElem?_eq_getElem hlt
    rw [ht]
    simp only
    rw [hget0 i _ ht, ← mul_add]
    refine mul_le_mul_of_nonneg_left ?_ (by positivity)
    have := (hA i _ ht).2.2 (by rw [hq]; simp)
    have hfin := (hi.finished i _ ht (by rw [hq]; simp) (by rw [hl]; simp))
    rw [hfin] at this
    exact this
  linarith

/-- The rates of a timestep: what holds after the congestion model holds for the rates. -/
theorem rates_model {dev : Device} (hT : TableOk .exact dev.tbt) {sot curr : Nat} {g g' : Grids} {ts ts' : List TState}
    {live : List Nat} (hn : live.Nodup)
    (hs : ∀ i ∈ live, ∀ t, ts[i]? = some t → t.start ≤ curr ∧ 0 ≤ t.params.injectionRate)
    (h : computeRates .exact dev true sot curr g ts live = .ok (ts', g')) :
    ∃ ts1, Sane curr ts1 live ∧ modelCongestion .exact dev sot curr ts1 live = .ok (ts', g') ∧
      ∀ i ∈ live, ∀ u, ts1[i]? = some u → ∃ t, ts[i]? = some t ∧ u.params = t.params := by
  unfold computeRates at h
  obtain ⟨ts1, h1, h⟩ := Out.bind_eq_ok.mp h
  simp only [if_true] at h
  have w1 := updateTransferBandwidth_written hn h1
  refine ⟨ts1, ⟨hn, ?_⟩, h, ?_⟩
  · intro j hj u hu
    obtain ⟨t, b, a1, a2, a3⟩ := w1.2.2 j hj
    rw [hu] at a3
    obtain ⟨s1, s2⟩ := hs j hj t a1
    rw [Option.some.inj a3]
    exact ⟨s1, (tableBw_ok hT a2).1 s2, s2⟩
  · intro j hj u hu
    obtain ⟨t, b, a1, a2, a3⟩ := w1.2.2 j hj
    rw [hu] at a3
    exact ⟨t, a1, by rw [Option.some.inj a3]⟩

theorem offered_use (use : TState → Prop) [DecidablePred use] (sot curr : Nat) (ts : List TState) (live : List Nat) :
    offered (fun t => if use t then 1 else 0) sot curr ts live = loadOf use sot curr ts live := by
  unfold offered loadOf
  congr 1
  apply List.map_congr_left
  intro i _
  cases ts[i]? with
  | none => rfl
  | some t =>
    simp only
    split <;> simp

theorem sentBytes_weight (use : Transfer → Prop) [DecidablePred use] (ts : List TState) :
    sentBytes use ts = (ts.map fun t => ((if use t.params then 1 else 0 : Nat) : ℚ) * t.params.totalBytes).sum := by
  unfold sentBytes
  congr 1
  apply List.map_congr_left
  intro t _
  split <;> simp

/-- Full statement of C144 for links: in exact arithmetic and with congestion, the estimated cycles of a device, counted
from the start of the timestep in which its window begins, are enough for the data that the transfers in the window send
over a link at the bandwidth of the link.

It fails because a transfer may be credited a timestep more than it was active (C59, `C144_violated`).  This theorem
allows for one timestep at full speed for every transfer with a dependency. -/
theorem C144_links_partial (dev : Device) (cpt : Nat) (ho : HashOrder) (wl : Workload) (s : Sim) (st : Stats) (d : Int)
    (ds : DevStats) (g : Nat × Nat) (H : Roofed dev cpt ho wl s st d ds g) (a : LinkAttr) (l : Int)
    (hl : dev.getLinkID a = .ok l) (hrel : ∀ t ∈ s.ts, l ∈ t.route → Relevant d g t.params) :
    linkBytes s.ts l ≤ dev.linkBw * ((ds.estimated + g.1 % cpt : Nat) : ℚ) +
      extraBytes dev cpt s.ts fun t => t.route.count l := by
  refine H.weight (w := fun t => t.route.count l) (fun t t' _ h => by rw [h]) H.caps.1 ?_ ?_
  · intro c g ts ts' live g' h32 hn hs h
    have := (rates_flow H.device H.table H.caps (Nat.le_add_right c cpt) h32 hn
      (fun i hi t ht => ⟨(hs i hi t ht).1, H.rates _ (hs i hi t ht).2, H.rects _ (hs i hi t ht).2⟩) h).2 a l hl
    exact this.trans (min_le_right _ _)
  · intro t ht hw
    refine hrel t ht ?_
    by_contra hc
    exact hw (List.count_eq_zero.mpr hc)

/-- C144 for sources: the same for the data that leave a core on a NoC, if none of the transfers has an injection rate
above `R`. -/
theorem C144_sources_partial (dev : Device) (cpt : Nat) (ho : HashOrder) (wl : Workload) (s : Sim) (st : Stats) (d : Int)
    (ds : DevStats) (g : Nat × Nat) (H : Roofed dev cpt ho wl s st d ds g) (noc : Noc) (c : Coord) (R : ℚ) (hR : 0 ≤ R)
    (hrate : ∀ t ∈ wl.transfers, t.noc = noc → t.src = c → t.injectionRate ≤ R)
    (hrel : ∀ t ∈ s.ts, t.params.noc = noc → t.params.src = c → Relevant d g t.params) :
    sentBytes (fun t => t.noc = noc ∧ t.src = c) s.ts ≤ R * ((ds.estimated + g.1 % cpt : Nat) : ℚ) +
      extraBytes dev cpt s.ts fun t => if t.params.noc = noc ∧ t.params.src = c then 1 else 0 := by
  rw [sentBytes_weight]
  refine H.weight (w := fun t => if t.params.noc = noc ∧ t.params.src = c then 1 else 0)
    (fun t t' h _ => by rw [h]) hR ?_ ?_
  · intro c' g ts ts' live g' h32 hn hs h
    obtain ⟨ts1, h1, h2, h3⟩ := rates_model H.table hn
      (fun i hi t ht => ⟨(hs i hi t ht).1, H.rates _ (hs i hi t ht).2⟩) h
    rw [offered_use (fun t => t.params.noc = noc ∧ t.params.src = c)]
    refine C28_sources dev H.caps c' (c' + cpt) (by have := H.pos; omega) h32 ts1 ts' live g' h1 h2 noc c R hR ?_
    intro i hi u hu e1 e2
    obtain ⟨t, a1, a2⟩ := h3 i hi u hu
    have := (hs i hi t a1).2
    rw [← a2] at this
    exact hrate _ this e1 e2
  · intro t ht hw
    by_cases hc : t.params.noc = noc ∧ t.params.src = c
    · exact hrel t ht hc.1 hc.2
    · simp [hc] at hw

/-- C144 for sinks: the same for the unicast data that reach a core on a NoC, at the absorption rate of the core.
(Multicast data are not limited by the sinks, see `C28_violated`.) -/
theorem C144_sinks_partial (dev : Device) (cpt : Nat) (ho : HashOrder) (wl : Workload) (s : Sim) (st : Stats) (d : Int)
    (ds : DevStats) (g : Nat × Nat) (H : Roofed dev cpt ho wl s st d ds g) (noc : Noc) (c : Coord) (R : ℚ)
    (hR : dev.getSinkAbsorptionRate c = .ok R)
    (hrel : ∀ t ∈ s.ts, t.params.noc = noc → t.params.dst = .unicast c → Relevant d g t.params) :
    sentBytes (fun t => t.noc = noc ∧ t.dst = .unicast c) s.ts ≤ R * ((ds.estimated + g.1 % cpt : Nat) : ℚ) +
      extraBytes dev cpt s.ts fun t => if t.params.noc = noc ∧ t.params.dst = .unicast c then 1 else 0 := by
  have hR0 : 0 ≤ R := by
    unfold Device.getSinkAbsorptionRate at hR
    obtain ⟨ct, _, ha⟩ := Out.bind_eq_ok.mp hR
    rw [← Out.ok.inj ha]
    exact H.caps.2.2 _
  rw [sentBytes_weight]
  refine H.weight (w := fun t => if t.params.noc = noc ∧ t.params.dst = .unicast c then 1 else 0)
    (fun t t' h _ => by rw [h]) hR0 ?_ ?_
  · intro c' g ts ts' live g' h32 hn hs h
    obtain ⟨ts1, h1, h2, h3⟩ := rates_model H.table hn
      (fun i hi t ht => ⟨(hs i hi t ht).1, H.rates _ (hs i hi t ht).2⟩) h
    rw [offered_use (fun t => t.params.noc = noc ∧ t.params.dst = .unicast c)]
    exact C28_sinks_partial dev H.caps c' (c' + cpt) (by have := H.pos; omega) h32 ts1 ts' live g' h1 h2 noc c R hR
  · intro t ht hw
    by_cases hc : t.params.noc = noc ∧ t.params.dst = .unicast c
    · exact hrel t ht hc.1 hc.2
    · simp [hc] at hw

theorem extraBytes_independent {dev : Device} {cpt : Nat} {ts : List TState} {w : TState → Nat}
    (h : ∀ t ∈ ts, w t ≠ 0 → t.dependsOn = -1) : extraBytes dev cpt ts w = 0 := by
  unfold extraBytes
  apply List.sum_eq_zero
  intro x hx
  obtain ⟨t, ht, rfl⟩ := List.mem_map.mp hx
  by_cases hz : w t = 0
  · rw [hz]; simp
  · unfold extraCredit
    rw [if_pos (h t ht hz)]; simp

/-- C144 without dependencies: links, sources and sinks. -/
theorem C144_independent (dev : Device) (cpt : Nat) (ho : HashOrder) (wl : Workload) (s : Sim) (st : Stats) (d : Int)
    (ds : DevStats) (g : Nat × Nat) (H : Roofed dev cpt ho wl s st d ds g) :
    (∀ a l, dev.getLinkID a = .ok l → (∀ t ∈ s.ts, l ∈ t.route → Relevant d g t.params ∧ t.dependsOn = -1) →
      linkBytes s.ts l ≤ dev.linkBw * ((ds.estimated + g.1 % cpt : Nat) : ℚ)) ∧
    (∀ noc c R, 0 ≤ R → (∀ t ∈ wl.transfers, t.noc = noc → t.src = c → t.injectionRate ≤ R) →
      (∀ t ∈ s.ts, t.params.noc = noc → t.params.src = c → Relevant d g t.params ∧ t.dependsOn = -1) →
      sentBytes (fun t => t.noc = noc ∧ t.src = c) s.ts ≤ R * ((ds.estimated + g.1 % cpt : Nat) : ℚ)) ∧
    (∀ noc c R, dev.getSinkAbsorptionRate c = .ok R →
      (∀ t ∈ s.ts, t.params.noc = noc → t.params.dst = .unicast c → Relevant d g t.params ∧ t.dependsOn = -1) →
      sentBytes (fun t => t.noc = noc ∧ t.dst = .unicast c) s.ts ≤ R * ((ds.estimated + g.1 % cpt : Nat) : ℚ)) := by
  refine ⟨?_, ?_, ?_⟩
  · intro a l hl h
    have := C144_links_partial dev cpt ho wl s st d ds g H a l hl fun t ht hm => (h t ht hm).1
    rwa [extraBytes_independent (fun t ht hw => (h t ht (by
      by_contra hc; exact hw (List.count_eq_zero.mpr hc))).2), add_zero] at this
  · intro noc c R hR hrate h
    have := C144_sources_partial dev cpt ho wl s st d ds g H noc c R hR hrate fun t ht e1 e2 => (h t ht e1 e2).1
    rwa [extraBytes_independent (fun t ht hw => by
      by_cases hc : t.params.noc = noc ∧ t.params.src = c
      · exact (h t ht hc.1 hc.2).2
      · simp [hc] at hw), add_zero] at this
  · intro noc c R hR h
    have := C144_sinks_partial dev cpt ho wl s st d ds g H noc c R hR fun t ht e1 e2 => (h t ht e1 e2).1
    rwa [extraBytes_independent (fun t ht hw => by
      by_cases hc : t.params.noc = noc ∧ t.params.dst = .unicast c
      · exact (h t ht hc.1 hc.2).2
      · simp [hc] at hw), add_zero] at this

/-- The figures of a run of the sample device: the estimates for the entries of the result, the data over the link from
core (0,1) to core (1,1), from core (0,0) and to core (1,1). -/
def loads (ts : List Transfer) : Option (List (Int × Nat) × ℚ × ℚ × ℚ) :=
  match runSingle .exact Sample.dev ⟨id, id⟩ 128 true (windowed 0 ts) with
  | .ok (.inl (s, st)) => some (st.map fun e => (e.1, e.2.estimated), linkBytes s.ts 5,
      sentBytes (fun t => t.noc = .noc0 ∧ t.src = ⟨0, 0, 0⟩) s.ts,
      sentBytes (fun t => t.noc = .noc0 ∧ t.dst = .unicast ⟨0, 1, 1⟩) s.ts)
  | _ => none

/-- A transfer from each of the cores (0,0) and (0,1) to core (1,1), with 14 bytes per cycle. -/
def twoSenders (n offset : Nat) : List Transfer :=
  [⟨0, 0, 0⟩, ⟨0, 0, 1⟩].map fun c => Transfer.make (14 * n) 1 c (.unicast ⟨0, 1, 1⟩) 14 offset .noc0

/-- C144 is violated for links, sources and sinks: in the 512 cycles of the estimate the link carries 17892 bytes, though
it has 30 bytes per cycle; the core (0,0) sends 8946 bytes, though no transfer has more than 14 bytes per cycle; and the
core (1,1) receives 17892 bytes, though it absorbs 28.1 bytes per cycle. -/
theorem C144_violated :
    loads (twoSenders 85 0 ++ twoSenders 42 64 ++ twoSenders 512 64) = some ([(0, 512), (-1, 512)], 17892, 8946, 17892) ∧
    Sample.dev.linkBw * 512 = 15360 ∧ (14 : ℚ) * 512 = 7168 ∧
    Sample.dev.getSinkAbsorptionRate ⟨0, 1, 1⟩ = .ok (281 / 10) ∧ (281 / 10 : ℚ) * 512 = 71936 / 5 ∧
    Sample.dev.getLinkID ⟨⟨0, 0, 1⟩, .noc0South⟩ = .ok 5 := by decide +kernel

/-- Without dependencies the estimates are large enough: the data of core (0,0) need 512 and 700 cycles. -/
theorem C144_close : loads (twoSenders 512 0) = some ([(0, 512), (-1, 512)], 14336, 7168, 14336) ∧
    loads (twoSenders 400 0 ++ twoSenders 300 200) = some ([(0, 710), (-1, 710)], 19600, 9800, 19600) := by decide +kernel

/-- The hypotheses hold for these runs and for that of the violation. -/
theorem loads_roofed {ts : List Transfer} {x : List (Int × Nat) × ℚ × ℚ × ℚ} (h : loads ts = some x)
    (hts : (windowed 0 ts).transfers.all fun t => decide (t.src.dev = 0) && decide (t.dst = .unicast ⟨0, 1, 1⟩) &&
      decide (0 ≤ t.injectionRate) && decide (t.offset ≤ 1000)) :
    ∃ s st, x.1 = st.map (fun e => (e.1, e.2.estimated)) ∧ x.2.1 = linkBytes s.ts 5 ∧
      (∀ d ds, (d, ds) ∈ st → d = 0 ∨ d = -1 → Roofed Sample.dev 128 ⟨id, id⟩ (windowed 0 ts) s st d ds (0, 1000)) ∧
      ∀ t ∈ s.ts, ∀ d, d = 0 ∨ d = -1 → Relevant d (0, 1000) t.params := by
  unfold loads at h
  split at h
  · rename_i s st hrun
    have hx := Option.some.inj h
    have hmem : ∀ t ∈ (windowed 0 ts).transfers, t.src.dev = 0 ∧ t.dst = .unicast ⟨0, 1, 1⟩ ∧ 0 ≤ t.injectionRate ∧
        t.offset ≤ 1000 := by
      intro t ht
      have := List.all_eq_true.mp hts t ht
      simp only [Bool.and_eq_true, decide_eq_true_eq] at this
      exact ⟨this.1.1.1, this.1.1.2, this.1.2, this.2⟩
    refine ⟨s, st, by rw [← hx], by rw [← hx], ?_, ?_⟩
    · intro d ds he hd
      refine ⟨⟨by decide, by decide, by decide, by decide, fun _ => rfl⟩, wormhole_table .exact false 1,
        ⟨by decide +kernel, ?_, ?_⟩, by decide, by decide, ?_, fun t ht => (hmem t ht).2.2.1, ?_, hrun, he, ?_⟩
      · intro c; cases c <;> decide +kernel
      · intro c; cases c <;> decide +kernel
      · intro t ht
        rw [(hmem t ht).1]
        decide
      · intro t ht
        unfold RectsOk
        rw [(hmem t ht).2.1]
        intro gs h
        cases h
      · rcases hd with rfl | rfl <;> rfl
    · intro t ht d hd
      obtain ⟨s0, c, h0, _, _, hs, _⟩ := runSingle_ok hrun
      obtain ⟨i, hi⟩ := List.mem_iff_getElem?.mp ht
      obtain ⟨t0, b1, b2, _⟩ := hs.static_get (computeRates_ok .exact Sample.dev true) (init_inv h0) hi
      have := hmem _ ((initSim_ok h0).1.slots i t0 b1).1
      rw [b2] at this
      refine ⟨?_, Nat.zero_le _, this.2.2.2⟩
      rcases hd with rfl | rfl
      · exact Or.inr this.1
      · exact Or.inl rfl
  · simp at h

/-- So the missing 2532 bytes of the violation are within the allowance of `C144_links_partial`. -/
example : ∃ (st : Stats) (s : Sim), st.map (fun e => (e.1, e.2.estimated)) = [(0, 512), (-1, 512)] ∧ linkBytes s.ts 5 = 17892 ∧
    (17892 : ℚ) - 15360 ≤ extraBytes Sample.dev 128 s.ts fun t => t.route.count 5 := by
  obtain ⟨s, st, h1, h2, h3, h4⟩ := loads_roofed C144_violated.1 (by decide +kernel)
  simp only at h1 h2
  refine ⟨st, s, h1.symm, h2.symm, ?_⟩
  have hm : (-1, 512) ∈ st.map (fun e => (e.1, e.2.estimated)) := by rw [← h1]; simp
  obtain ⟨⟨d, ds⟩, hm1, hm2⟩ := List.mem_map.mp hm
  obtain ⟨rfl, hm3⟩ := Prod.mk.inj hm2
  have := C144_links_partial _ _ _ _ s st (-1) ds (0, 1000) (h3 _ ds hm1 (Or.inr rfl)) _ 5 C144_violated.2.2.2.2.2
    fun t ht _ => h4 t ht _ (Or.inr rfl)
  rw [← h2] at this
  simp only at hm3
  rw [hm3, show Sample.dev.linkBw = 30 from rfl] at this
  norm_num at this ⊢
  linarith

end NPE.Props
