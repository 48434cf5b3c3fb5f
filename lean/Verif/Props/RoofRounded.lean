import Verif.Proofs.RoofRounded
import Verif.Props.Roof

/-
Property C144 for any rounding.
-/

namespace NPE.Props
open NPE NPE.Spec NPE.Spec.Fluid

/-- The data that may be moved in the extra timestep of every transfer with a dependency. -/
def extraRounded (fp : FP) (dev : Device) (cpt : Nat) (ts : List TState) (w : TState → Nat) : ℚ :=
  (ts.map fun t => (w t : ℚ) * (aloneBw fp dev t.params * extraCredit cpt t)).sum

/-- A capacity up to the rounding of the demands of at most 65536 transfers, none of which has an injection rate above
`M`. -/
def roundedCap (M R : ℚ) : ℚ := (R + M / 128) * (1 + 1 / 128)

/-- The hypotheses of C144 for any rounding. -/
structure RoofedRounded (fp : FP) (dev : Device) (cpt : Nat) (ho : HashOrder) (wl : Workload) (s : Sim) (st : Stats)
    (d : Int) (ds : DevStats) (g : Nat × Nat) (M : ℚ) : Prop where
  device : DeviceOk dev
  table : TableOk fp dev.tbt
  caps : Capacities dev
  pos : 0 < cpt
  length : cpt ≤ 25000000
  chips : OnChips dev wl.transfers
  rates : ∀ t ∈ wl.transfers, SaneRate fp t ∧ t.injectionRate ≤ M
  rects : ∀ t ∈ wl.transfers, RectsOk t
  few : s.ts.length ≤ 65536
  most : 0 ≤ M
  run : runSingle fp dev ho cpt true wl = .ok (.inl (s, st))
  entry : (d, ds) ∈ st
  window : wl.golden.at d = .ok g

/-- For every weight that the rates respect. -/
theorem RoofedRounded.weight {fp : FP} {dev : Device} {cpt : Nat} {ho : HashOrder} {wl : Workload} {s : Sim} {st : Stats}
    {d : Int} {ds : DevStats} {g : Nat × Nat} {M : ℚ} (H : RoofedRounded fp dev cpt ho wl s st d ds g M) {w : TState → Nat}
    (hw : ∀ t t' : TState, t.params = t'.params → t.route = t'.route → w t = w t') {R : ℚ} (hR : 0 ≤ R)
    (hflow : ∀ c g ts ts' live g', c + cpt < 4294967296 → live.Nodup → live.length ≤ 65536 →
      (∀ i ∈ live, ∀ t, ts[i]? = some t → t.start ≤ c + cpt ∧ t.params ∈ wl.transfers ∧
        ∃ t0 ∈ s.ts, t0.params = t.params ∧ t0.route = t.route) →
      computeRates fp dev true c (c + cpt) g ts live = .ok (ts', g') → offered w c (c + cpt) ts' live ≤ R)
    (hrel : ∀ t ∈ s.ts, w t ≠ 0 → Relevant d g t.params) :
    (s.ts.map fun t => (w t : ℚ) * t.params.totalBytes).sum ≤
      rounded (R * ((ds.estimated + g.1 % cpt + 24 : Nat) : ℚ) + extraRounded fp dev cpt s.ts w) := by
  obtain ⟨s0, c, h0, _, _, hs, hl, hq, hf⟩ := runSingle_ok H.run
  obtain ⟨gs, ge, m, e1, e2, _, e4, e5, _⟩ :=
    C35_estimated fp dev H.device cpt H.pos true ho wl H.chips s st H.run d ds H.entry
  rw [H.window] at e1
  have e1 := Out.ok.inj e1
  subst e1
  simp only at e4 e5 hrel ⊢
  have hr : RatesOk (simConfig fp dev cpt wl.golden true).rates := computeRates_ok fp dev true
  have hinv := init_inv h0
  have hi := hs.inv hr hinv
  have hget0 : ∀ (i : Nat) t, s.ts[i]? = some t → weightOf w s0 i = w t := by
    intro i t ht
    obtain ⟨t0, b1, b2, b3, _⟩ := hs.static_get hr hinv ht
    unfold weightOf
    rw [b1]
    simp only
    rw [hw t0 t b2 b3]
  have hlen : s.ts.length = s0.ts.length := by
    apply le_antisymm
    · by_contra hcon
      obtain ⟨t0, b1, _⟩ := hs.static_get hr hinv (List.getElem?_eq_getElem (show s0.ts.length < s.ts.length by omega))
      exact absurd (List.getElem?_eq_some_iff.mp b1).1 (by omega)
    · by_contra hcon
      obtain ⟨t0, b1, _⟩ := hs.static_get' hr hinv (List.getElem?_eq_getElem (show s.ts.length < s0.ts.length by omega))
      exact absurd (List.getElem?_eq_some_iff.mp b1).1 (by omega)
  obtain ⟨A, hA, _, hend⟩ := hs.roof_rounded H.table H.caps H.pos H.length (fun t ht => (H.rates t ht).1) h0 hw hR
    (fun c g ts ts' live g' a1 a2 a3 a4 a5 => hflow c g ts ts' live g' a1 a2 (by have := H.few; omega)
      (fun i hi t ht => by
        obtain ⟨b1, b2, t0, b3, b4, b5⟩ := a4 i hi t ht
        obtain ⟨j, hj⟩ := List.mem_iff_getElem?.mp b3
        obtain ⟨t', c1, c2, c3, _⟩ := hs.static_get' hr hinv hj
        exact ⟨b1, b2, t', List.mem_of_getElem? c1, c2.trans b4, c3.trans b5⟩) a5)
    (o := cpt * (gs / cpt)) (Dvd.intro _ rfl) (by
      intro t0 ht0 hwt
      obtain ⟨i, hi0⟩ := List.mem_iff_getElem?.mp ht0
      obtain ⟨t, b1, b2, b3, _⟩ := hs.static_get' hr hinv hi0
      have h1 := (hrel t (List.mem_of_getElem? b1) (by rw [hw t t0 b2 b3]; exact hwt)).2.1
      rw [b2] at h1
      exact le_trans (Nat.mul_div_le gs cpt) h1)
  have hE := hend (ds.estimated + gs + 24) (by
    intro i t ht hwt
    refine ⟨by rw [hq]; simp, by rw [hl]; simp, ?_⟩
    have := e2.1 t (List.mem_of_getElem? ht) (hrel t (List.mem_of_getElem? ht) hwt)
    rcases le_total gs m with h | h
    · rw [e4 h]; omega
    · omega)
  have hsub : ds.estimated + gs + 24 - cpt * (gs / cpt) = ds.estimated + gs % cpt + 24 := by
    have := Nat.div_add_mod gs cpt
    omega
  rw [hsub] at hE
  have h1 : (s.ts.map fun t => (w t : ℚ) * t.params.totalBytes).sum ≤
      rounded (((List.range s0.ts.length).map fun i => weightOf w s0 i * A i).sum + extraRounded fp dev cpt s.ts w) := by
    unfold extraRounded rounded
    rw [sum_index s.ts (fun t => (w t : ℚ) * t.params.totalBytes) (fun i => match s.ts[i]? with
        | some t => (w t : ℚ) * t.params.totalBytes
        | none => 0) (fun i t ht => by rw [ht]),
      sum_index s.ts (fun t => (w t : ℚ) * (aloneBw fp dev t.params * extraCredit cpt t))
        (fun i => match s.ts[i]? with
        | some t => (w t : ℚ) * (aloneBw fp dev t.params * extraCredit cpt t)
        | none => 0) (fun i t ht => by rw [ht])]
    rw [hlen, ← List.sum_map_add, ← List.sum_map_mul_right]
    apply sum_le_sum'
    intro i hi'
    have hlt : i < s.ts.length := by rw [hlen]; exact List.mem_range.mp hi'
    have ht := List.getElem?_eq_getElem hlt
    rw [ht]
    simp only
    rw [hget0 i _ ht, ← mul_add, mul_assoc]
    refine mul_le_mul_of_nonneg_left ?_ (by positivity)
    have := (hA i _ ht).2.2 (by rw [hq]; simp)
    have hfin := (hi.finished i _ ht (by rw [hq]; simp) (by rw [hl]; simp))
    rw [hfin] at this
    exact this
  exact h1.trans (rounded_mono (by linarith))

/-- The rates of a timestep: what holds after the congestion model holds for the rates. -/
theorem rates_model_rounded {fp : FP} {dev : Device} (hT : TableOk fp dev.tbt) {sot curr : Nat} {g g' : Grids}
    {ts ts' : List TState} {live : List Nat} (hn : live.Nodup)
    (hs : ∀ i ∈ live, ∀ t, ts[i]? = some t → t.start ≤ curr ∧ SaneRate fp t.params)
    (h : computeRates fp dev true sot curr g ts live = .ok (ts', g')) :
    ∃ ts1, Sane curr ts1 live ∧ modelCongestion fp dev sot curr ts1 live = .ok (ts', g') ∧
      ∀ i ∈ live, ∀ u, ts1[i]? = some u → fp.f32.Rep u.bw ∧ u.bw ≤ u.params.injectionRate ∧
        ∃ t, ts[i]? = some t ∧ u.params = t.params ∧ u.route = t.route := by
  unfold computeRates at h
  obtain ⟨ts1, h1, h⟩ := Out.bind_eq_ok.mp h
  simp only [if_true] at h
  have w1 := updateTransferBandwidth_written hn h1
  refine ⟨ts1, ⟨hn, ?_⟩, h, ?_⟩
  · intro j hj u hu
    obtain ⟨t, b, a1, a2, a3⟩ := w1.2.2 j hj
    rw [hu] at a3
    obtain ⟨s1, s2⟩ := hs j hj t a1
    rw [Option.some.inj a3]
    exact ⟨s1, (tableBw_ok hT a2).1 s2.1, s2.1⟩
  · intro j hj u hu
    obtain ⟨t, b, a1, a2, a3⟩ := w1.2.2 j hj
    rw [hu] at a3
    obtain ⟨_, s2⟩ := hs j hj t a1
    rw [Option.some.inj a3]
    exact ⟨(tableBw_ok hT a2).2.1 s2.2, (tableBw_ok hT a2).2.2.1, t, a1, rfl, rfl⟩

theorem share_le_one {sot curr : Nat} (h : sot < curr) (t : TState) : share sot curr t ≤ 1 := by
  unfold share
  have hq : (0 : ℚ) < (curr : ℚ) - sot := by
    have : (sot : ℚ) < curr := by exact_mod_cast h
    linarith
  rw [div_le_one hq]
  have : (sot : ℚ) ≤ (max sot t.start : Nat) := by exact_mod_cast le_max_left _ _
  linarith

/-- The demands of a few transfers. -/
theorem offered_few {w : TState → Nat} {sot curr : Nat} (hlt : sot < curr) {ts : List TState} {M : ℚ} :
    ∀ (live : List Nat), (∀ i ∈ live, ∀ t, ts[i]? = some t → w t ≤ 1 ∧ t.start ≤ curr ∧ 0 ≤ t.bw ∧ t.bw ≤ M) → 0 ≤ M →
    uses w ts live ≤ live.length ∧ offered w sot curr ts live ≤ live.length * M := by
  intro live
  induction live with
  | nil => intro _ _; simp [uses, offered]
  | cons i l ih =>
    intro h hM
    obtain ⟨h1, h2⟩ := ih (fun j hj => h j (List.mem_cons_of_mem _ hj)) hM
    unfold uses at h1
    unfold offered at h2
    unfold uses offered
    simp only [List.map_cons, List.sum_cons, List.length_cons]
    push_cast
    cases e : ts[i]? with
    | none =>
      simp only
      exact ⟨by omega, by linarith⟩
    | some t =>
      simp only
      obtain ⟨a1, a2, a3, a4⟩ := h i List.mem_cons_self t e
      refine ⟨by omega, ?_⟩
      have b1 : (w t : ℚ) ≤ 1 := by exact_mod_cast a1
      have b2 : share sot curr t ≤ 1 := share_le_one hlt t
      have b3 : 0 ≤ share sot curr t := share_nonneg hlt.le a2
      have b4 : share sot curr t * t.bw ≤ 1 * t.bw := mul_le_mul_of_nonneg_right b2 a3
      have b5 : (w t : ℚ) * (share sot curr t * t.bw) ≤ 1 * (share sot curr t * t.bw) :=
        mul_le_mul_of_nonneg_right b1 (mul_nonneg b3 a3)
      linarith

theorem linkLoad_offered {l : Int} {sot curr : Nat} {ts : List TState} : ∀ {live : List Nat},
    (∀ i ∈ live, ∀ t, ts[i]? = some t → t.route.Nodup) →
    offered (fun t => t.route.count l) sot curr ts live = linkLoad l sot curr ts live := by
  intro live h
  unfold offered linkLoad loadOf
  congr 1
  apply List.map_congr_left
  intro i hi
  cases e : ts[i]? with
  | none => rfl
  | some t =>
    simp only
    by_cases hm : l ∈ t.route
    · rw [if_pos hm, List.count_eq_one_of_mem (h i hi t e) hm]; simp
    · rw [if_neg hm, List.count_eq_zero.mpr hm]; simp

/-- C144 for links with any rounding: the partial statement with allowances for the rounding. -/
theorem C144_links_rounded_partial (fp : FP) (dev : Device) (cpt : Nat) (ho : HashOrder) (wl : Workload) (s : Sim)
    (st : Stats) (d : Int) (ds : DevStats) (g : Nat × Nat) (M : ℚ) (H : RoofedRounded fp dev cpt ho wl s st d ds g M)
    (hroute : ∀ t ∈ s.ts, t.route.Nodup) (a : LinkAttr) (l : Int)
    (hl : dev.getLinkID a = .ok l) (hrel : ∀ t ∈ s.ts, l ∈ t.route → Relevant d g t.params) :
    linkBytes s.ts l ≤ rounded (roundedCap M dev.linkBw * ((ds.estimated + g.1 % cpt + 24 : Nat) : ℚ) +
      extraRounded fp dev cpt s.ts fun t => t.route.count l) := by
  have hM := H.most
  refine H.weight (w := fun t => t.route.count l) (fun t t' _ h => by rw [h])
    (by have := H.caps.1; unfold roundedCap; positivity) ?_ ?_
  · intro c g ts ts' live g' h32 hn hlen hs h
    have hpos := H.pos
    obtain ⟨ts1, h1, h2, h3⟩ := rates_model_rounded H.table hn
      (fun i hi t ht => ⟨(hs i hi t ht).1, (H.rates _ (hs i hi t ht).2.1).1⟩) h
    have hof : ∀ i ∈ live, ∀ u, ts1[i]? = some u → u.route.Nodup ∧ u.params ∈ wl.transfers := by
      intro i hi u hu
      obtain ⟨_, _, t, b1, b2, b3⟩ := h3 i hi u hu
      obtain ⟨_, d1, t0, d2, d3, d4⟩ := hs i hi t b1
      rw [b3, ← d4, b2]
      exact ⟨hroute t0 d2, d1⟩
    have hfew := offered_few (w := fun t => t.route.count l) (show c < c + cpt by omega) (ts := ts1) (M := M) live
      (fun i hi u hu => ⟨List.nodup_iff_count_le_one.mp (hof i hi u hu).1 _, (h1.2 i hi u hu).1, (h1.2 i hi u hu).2.1,
        (h3 i hi u hu).2.1.trans (H.rates _ (hof i hi u hu).2).2⟩) hM
    have hroute' : ∀ i ∈ live, ∀ u, ts'[i]? = some u → u.route.Nodup := by
      intro i hi u hu
      obtain ⟨_, _, _, r⟩ := computeRates_bw hn h
      obtain ⟨t, b, e, b1, _, b2, _⟩ := r i hi
      obtain ⟨_, _, t0, d2, _, d4⟩ := hs i hi t b1
      rw [hu] at b2
      rw [Option.some.inj b2]
      show t.route.Nodup
      rw [← d4]
      exact hroute t0 d2
    rw [linkLoad_offered hroute']
    rcases C27_link_capacity_rounded fp dev H.caps c (c + cpt) (by omega) h32 ts1 ts' live g' h1
      (fun i hi u hu => (h3 i hi u hu).1) (fun i hi u hu => (hof i hi u hu).1) hlen h2 l with hz | ⟨X, hX, hle⟩
    · refine hz.trans ?_
      have := H.caps.1
      unfold roundedCap
      positivity
    · obtain ⟨Y, hY, hYle⟩ := (C66_demands_rounded fp dev H.device c (c + cpt) (by omega) h32 ts1 ts' live g' hn
        (fun i hi u hu => ⟨(h1.2 i hi u hu).1, (h1.2 i hi u hu).2.1, H.rects _ (hof i hi u hu).2⟩) h2).1 a l hl
        (hfew.1.trans hlen)
      rw [hX] at hY
      have hY := Option.some.inj hY
      subst hY
      have h5 := (abs_le.mp hYle).2
      have h6 : (live.length : ℚ) * M ≤ 65536 * M := mul_le_mul_of_nonneg_right (by exact_mod_cast hlen) hM
      refine hle.trans ?_
      unfold roundedCap
      have h7 := hfew.2
      nlinarith
  · intro t ht hw
    refine hrel t ht ?_
    by_contra hc
    exact hw (List.count_eq_zero.mpr hc)

/-- C144 for sources with any rounding. -/
theorem C144_sources_rounded_partial (fp : FP) (dev : Device) (cpt : Nat) (ho : HashOrder) (wl : Workload) (s : Sim)
    (st : Stats) (d : Int) (ds : DevStats) (g : Nat × Nat) (M : ℚ) (H : RoofedRounded fp dev cpt ho wl s st d ds g M)
    (noc : Noc) (c : Coord) (R : ℚ) (hR : 0 ≤ R)
    (hrate : ∀ t ∈ wl.transfers, t.noc = noc → t.src = c → t.injectionRate ≤ R)
    (hrel : ∀ t ∈ s.ts, t.params.noc = noc → t.params.src = c → Relevant d g t.params) :
    sentBytes (fun t => t.noc = noc ∧ t.src = c) s.ts ≤
      rounded (roundedCap M R * ((ds.estimated + g.1 % cpt + 24 : Nat) : ℚ) +
        extraRounded fp dev cpt s.ts fun t => if t.params.noc = noc ∧ t.params.src = c then 1 else 0) := by
  have hM := H.most
  rw [sentBytes_weight]
  refine H.weight (w := fun t => if t.params.noc = noc ∧ t.params.src = c then 1 else 0)
    (fun t t' h _ => by rw [h]) (by unfold roundedCap; positivity) ?_ ?_
  · intro c' g ts ts' live g' h32 hn hlen hs h
    have hpos := H.pos
    obtain ⟨ts1, h1, h2, h3⟩ := rates_model_rounded H.table hn
      (fun i hi t ht => ⟨(hs i hi t ht).1, (H.rates _ (hs i hi t ht).2.1).1⟩) h
    have hof : ∀ i ∈ live, ∀ u, ts1[i]? = some u → u.params ∈ wl.transfers := by
      intro i hi u hu
      obtain ⟨_, _, t, b1, b2, _⟩ := h3 i hi u hu
      rw [b2]
      exact (hs i hi t b1).2.1
    have hfew := offered_few (w := leaves dev noc c) (show c' < c' + cpt by omega) (ts := ts1) (M := M) live
      (fun i hi u hu => ⟨by unfold leaves; split <;> omega, (h1.2 i hi u hu).1, (h1.2 i hi u hu).2.1,
        (h3 i hi u hu).2.1.trans (H.rates _ (hof i hi u hu)).2⟩) hM
    rw [offered_use (fun t => t.params.noc = noc ∧ t.params.src = c)]
    refine (C28_sources_rounded fp dev H.device H.caps c' (c' + cpt) (by omega) h32 ts1 ts' live g' h1
      (fun i hi u hu => ⟨(h3 i hi u hu).1, H.rects _ (hof i hi u hu)⟩) h2 noc c (hfew.1.trans hlen) R hR
      (fun i hi u hu e1 e2 => hrate _ (hof i hi u hu) e1 e2)).trans ?_
    have h6 : (live.length : ℚ) * M ≤ 65536 * M := mul_le_mul_of_nonneg_right (by exact_mod_cast hlen) hM
    have h7 := hfew.2
    unfold roundedCap
    refine mul_le_mul_of_nonneg_right ?_ (by norm_num)
    linarith
  · intro t ht hw
    by_cases hc : t.params.noc = noc ∧ t.params.src = c
    · exact hrel t ht hc.1 hc.2
    · simp [hc] at hw

/-- C144 for sinks with any rounding, if no multicast has two rectangles with the core. -/
theorem C144_sinks_rounded_partial (fp : FP) (dev : Device) (cpt : Nat) (ho : HashOrder) (wl : Workload) (s : Sim)
    (st : Stats) (d : Int) (ds : DevStats) (g : Nat × Nat) (M : ℚ) (H : RoofedRounded fp dev cpt ho wl s st d ds g M)
    (noc : Noc) (c : Coord) (honce : ∀ t ∈ s.ts, reaches dev noc c t ≤ 1) (R : ℚ)
    (hR : dev.getSinkAbsorptionRate c = .ok R)
    (hrel : ∀ t ∈ s.ts, t.params.noc = noc → t.params.dst = .unicast c → Relevant d g t.params) :
    sentBytes (fun t => t.noc = noc ∧ t.dst = .unicast c) s.ts ≤
      rounded (roundedCap M R * ((ds.estimated + g.1 % cpt + 24 : Nat) : ℚ) +
        extraRounded fp dev cpt s.ts fun t => if t.params.noc = noc ∧ t.params.dst = .unicast c then 1 else 0) := by
  have hM := H.most
  have hR0 : 0 ≤ R := by
    unfold Device.getSinkAbsorptionRate at hR
    obtain ⟨ct, _, ha⟩ := Out.bind_eq_ok.mp hR
    rw [← Out.ok.inj ha]
    exact H.caps.2.2 _
  rw [sentBytes_weight]
  refine H.weight (w := fun t => if t.params.noc = noc ∧ t.params.dst = .unicast c then 1 else 0)
    (fun t t' h _ => by rw [h]) (by unfold roundedCap; positivity) ?_ ?_
  · intro c' g ts ts' live g' h32 hn hlen hs h
    have hpos := H.pos
    obtain ⟨ts1, h1, h2, h3⟩ := rates_model_rounded H.table hn
      (fun i hi t ht => ⟨(hs i hi t ht).1, (H.rates _ (hs i hi t ht).2.1).1⟩) h
    have hof : ∀ i ∈ live, ∀ u, ts1[i]? = some u → u.params ∈ wl.transfers ∧ reaches dev noc c u ≤ 1 := by
      intro i hi u hu
      obtain ⟨_, _, t, b1, b2, _⟩ := h3 i hi u hu
      obtain ⟨_, d1, t0, d2, d3, _⟩ := hs i hi t b1
      have := honce t0 d2
      unfold reaches at this ⊢
      rw [d3] at this
      rw [b2]
      exact ⟨d1, this⟩
    have hfew := offered_few (w := reaches dev noc c) (show c' < c' + cpt by omega) (ts := ts1) (M := M) live
      (fun i hi u hu => ⟨(hof i hi u hu).2, (h1.2 i hi u hu).1, (h1.2 i hi u hu).2.1,
        (h3 i hi u hu).2.1.trans (H.rates _ (hof i hi u hu).1).2⟩) hM
    rw [offered_use (fun t => t.params.noc = noc ∧ t.params.dst = .unicast c)]
    refine (C28_sinks_rounded_partial fp dev H.device H.caps c' (c' + cpt) (by omega) h32 ts1 ts' live g' h1
      (fun i hi u hu => ⟨(h3 i hi u hu).1, H.rects _ (hof i hi u hu).1⟩) h2 noc c (hfew.1.trans hlen) R hR).trans ?_
    have h6 : (live.length : ℚ) * M ≤ 65536 * M := mul_le_mul_of_nonneg_right (by exact_mod_cast hlen) hM
    have h7 := hfew.2
    unfold roundedCap
    refine mul_le_mul_of_nonneg_right ?_ (by norm_num)
    linarith
  · intro t ht hw
    by_cases hc : t.params.noc = noc ∧ t.params.dst = .unicast c
    · exact hrel t ht hc.1 hc.2
    · simp [hc] at hw

/-- The sample device with table and rates in single precision. -/
def floatDev : Device := { wormhole .ieee false 1 with rows := 2, cols := 2 }

/-- The estimates for the entries of the result of a run in single precision, the data over the link from core (0,1) to
core (1,1), and the number of transfers. -/
def floatLoads (ts : List Transfer) : Option (List (Int × Nat) × ℚ × Nat × Bool) :=
  match runSingle .ieee floatDev ⟨id, id⟩ 128 true (windowed 0 ts) with
  | .ok (.inl (s, st)) => some (st.map fun e => (e.1, e.2.estimated), linkBytes s.ts 5, s.ts.length,
      s.ts.all fun t => decide t.route.Nodup)
  | _ => none

/-- In single precision: 14336 bytes in 512 cycles without dependencies, and 17892 with them. -/
theorem C144_close_rounded :
    floatLoads (twoSenders 512 0) = some ([(0, 512), (-1, 512)], 14336, 2, true) ∧
    floatLoads (twoSenders 85 0 ++ twoSenders 42 64 ++ twoSenders 512 64) =
      some ([(0, 512), (-1, 512)], 17892, 6, true) := by decide +kernel

/-- The hypotheses of the rounded theorem hold for this run, so that the bound is true of it. -/
example : ∃ s st ds, (-1, ds) ∈ st ∧ ds.estimated = 512 ∧ linkBytes s.ts 5 = 14336 ∧
    RoofedRounded .ieee floatDev 128 ⟨id, id⟩ (windowed 0 (twoSenders 512 0)) s st (-1) ds (0, 1000) 14 ∧
    linkBytes s.ts 5 ≤ rounded (roundedCap 14 30 * 536 + extraRounded .ieee floatDev 128 s.ts fun t => t.route.count 5) := by
  have h := C144_close_rounded.1
  unfold floatLoads at h
  split at h
  · rename_i s st hrun
    have hx := Option.some.inj h
    obtain ⟨h1, hx⟩ := Prod.mk.inj hx
    obtain ⟨h2, hx⟩ := Prod.mk.inj hx
    obtain ⟨h3, h4⟩ := Prod.mk.inj hx
    have hm : (-1, 512) ∈ st.map (fun e => (e.1, e.2.estimated)) := by rw [h1]; simp
    obtain ⟨⟨d, ds⟩, hm1, hm2⟩ := List.mem_map.mp hm
    obtain ⟨rfl, hm3⟩ := Prod.mk.inj hm2
    simp only at hm3
    have hmem : ∀ t ∈ (windowed 0 (twoSenders 512 0)).transfers, t.src.dev = 0 ∧ t.dst = .unicast ⟨0, 1, 1⟩ ∧
        t.injectionRate = 14 ∧ t.offset = 0 := by
      intro t ht
      have := List.all_eq_true.mp (show ((windowed 0 (twoSenders 512 0)).transfers.all fun t => decide (t.src.dev = 0 ∧
        t.dst = .unicast ⟨0, 1, 1⟩ ∧ t.injectionRate = 14 ∧ t.offset = 0)) = true by decide +kernel) t ht
      simpa using this
    have hrep : FP.ieee.f32.Rep 14 := by
      have := FP.ieee.f32.fl_nat (n := 14) (by norm_num)
      simpa [Rounding.Rep] using this
    have H : RoofedRounded .ieee floatDev 128 ⟨id, id⟩ (windowed 0 (twoSenders 512 0)) s st (-1) ds (0, 1000) 14 := by
      refine ⟨⟨by decide, by decide, by decide, by decide, fun _ => rfl⟩, wormhole_table .ieee false 1,
        ⟨by decide +kernel, ?_, ?_⟩, by decide, by decide, ?_, ?_, ?_, by omega, by norm_num, hrun, hm1, rfl⟩
      · intro c; cases c <;> decide +kernel
      · intro c; cases c <;> decide +kernel
      · intro t ht
        rw [(hmem t ht).1]
        decide
      · intro t ht
        rw [(hmem t ht).2.2.1]
        exact ⟨⟨by rw [(hmem t ht).2.2.1]; norm_num, by rw [(hmem t ht).2.2.1]; exact hrep⟩, le_refl _⟩
      · intro t ht
        unfold RectsOk
        rw [(hmem t ht).2.1]
        intro gs h
        cases h
    refine ⟨s, st, ds, hm1, hm3, h2, H, ?_⟩
    have := C144_links_rounded_partial _ _ _ _ _ s st (-1) ds (0, 1000) 14 H
      (fun t ht => by simpa using List.all_eq_true.mp h4 t ht) ⟨⟨0, 0, 1⟩, .noc0South⟩ 5 (by decide +kernel) (by
        intro t ht _
        obtain ⟨s0, c, h0, _, _, hs, _⟩ := runSingle_ok hrun
        obtain ⟨i, hi⟩ := List.mem_iff_getElem?.mp ht
        obtain ⟨t0, b1, b2, _⟩ := hs.static_get (computeRates_ok .ieee floatDev true) (init_inv h0) hi
        have := hmem _ ((initSim_ok h0).1.slots i t0 b1).1
        rw [b2] at this
        exact ⟨Or.inl rfl, Nat.zero_le _, by rw [this.2.2.2]; decide⟩)
    rw [hm3] at this
    exact this
  · simp at h

end NPE.Props
