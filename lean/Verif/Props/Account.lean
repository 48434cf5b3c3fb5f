import Verif.Proofs.Account
import Verif.Proofs.Separate
import Verif.Spec.Account

/-
Property C142: the recorded utilisation of the links accounts for the data that were sent.
-/

namespace NPE.Props
open NPE NPE.Spec NPE.Spec.Fluid

/-- What the dependencies can add: one timestep at the bandwidth that the transfer has when it is alone (see C59), for
every occurrence of the link. -/
def extraBytes (dev : Device) (cpt : Nat) (ts : List TState) (w : TState → Nat) : ℚ :=
  (ts.map fun t => (w t : ℚ) * (aloneBw .exact dev t.params * extraCredit cpt t)).sum

/-- The hypotheses of C142: a run with congestion whose transfers lie in the window of the mesh, which starts at
cycle 0. -/
structure Accounted (dev : Device) (cpt : Nat) (ho : HashOrder) (wl : Workload) (s : Sim) (st : Stats)
    (dm : DevStats) : Prop where
  device : DeviceOk dev
  table : TableOk .exact dev.tbt
  caps : Capacities dev
  pos : 0 < cpt
  length : cpt ≤ 1000000000
  chips : OnChips dev wl.transfers
  rates : ∀ t ∈ wl.transfers, 0 ≤ t.injectionRate
  rects : ∀ t ∈ wl.transfers, RectsOk t
  run : runSingle .exact dev ho cpt true wl = .ok (.inl (s, st))
  mesh : (-1, dm) ∈ st
  window : ∃ last, wl.golden.at (-1) = .ok (0, last) ∧ ∀ t ∈ wl.transfers, t.offset ≤ last

/-- The books of a run of the sample device: for every link with data the data that were sent and the data according to
the records; and both for all links together. -/
def books (ts : List Transfer) : Option (List (Nat × ℚ × ℚ) × ℚ × ℚ) :=
  match runSingle .exact Sample.dev ⟨id, id⟩ 128 true (windowed 0 ts) with
  | .ok (.inl (s, st)) => (st.find? fun e => decide (e.1 = -1)).map fun e =>
    (((List.range 16).map fun (l : Nat) => (l, linkBytes s.ts l, carried Sample.dev.linkBw e.2.steps l)).filter
        fun x => decide (x.2.1 ≠ 0 ∨ x.2.2 ≠ 0),
      hopBytes s.ts, carriedAll (Sample.dev.linkBw * 16) e.2.steps)
  | _ => none

/-- A sum over a list as a sum over its indices. -/
theorem sum_index {α : Type} (l : List α) (f : α → ℚ) (g : Nat → ℚ) (h : ∀ (i : Nat) a, l[i]? = some a → g i = f a) :
    (l.map f).sum = ((List.range l.length).map g).sum := by
  congr 1
  apply List.ext_getElem?
  intro i
  rw [List.getElem?_map, List.getElem?_map]
  rcases lt_or_ge i l.length with hi | hi
  · rw [List.getElem?_eq_getElem hi, List.getElem?_range hi, Option.map_some, Option.map_some,
      h i _ (List.getElem?_eq_getElem hi)]
  · rw [List.getElem?_eq_none hi, List.getElem?_eq_none (by simpa using hi)]
    rfl

/-- The records of such a run: all timesteps and records without content. -/
theorem Accounted.records {dev : Device} {cpt : Nat} {ho : HashOrder} {wl : Workload} {s : Sim} {st : Stats}
    {dm : DevStats} (H : Accounted dev cpt ho wl s st dm) :
    ∃ s0 c, initSim .exact dev ho wl = .ok s0 ∧ Reach (simConfig .exact dev cpt wl.golden true) s0 c s ∧
      s.live = [] ∧ s.queue = [] ∧
      ∀ hist, StatsInv (simConfig .exact dev cpt wl.golden true) hist c s →
        (∃ m, dm.steps = ((List.range (c / cpt)).map fun k => record dev hist (-1) (k * cpt, (k + 1) * cpt)) ++
          List.replicate m ({} : TimestepStats)) ∨ (dm.steps = [] ∧ ∀ t ∈ s.ts, t.params.totalBytes = 0) := by
  obtain ⟨s0, c, h0, _, hcc, hs, hl, hq, hf⟩ := runSingle_ok H.run
  have hr : RatesOk (simConfig .exact dev cpt wl.golden true).rates := computeRates_ok .exact dev true
  have hinv := init_inv h0
  obtain ⟨last, hgold, hoff⟩ := H.window
  have hrel : ∀ t ∈ s.ts, Relevant (-1) (0, last) t.params := by
    intro t ht
    obtain ⟨i, hi⟩ := List.mem_iff_getElem?.mp ht
    obtain ⟨t0, b1, b2, _⟩ := hs.static_get hr hinv hi
    refine ⟨Or.inl rfl, Nat.zero_le _, ?_⟩
    rw [← b2]
    exact hoff _ ((initSim_ok h0).1.slots i t0 b1).1
  obtain ⟨c0, hc0, hdv, h1, h2⟩ := hs.last H.pos H.length h0 (by have := H.pos; omega) hl hq
  refine ⟨s0, c, h0, hs, hl, hq, ?_⟩
  intro hist hst
  obtain ⟨⟨d', ds0⟩, he, hk, g', hg', _, _, _, _, h5⟩ := forall2_mem (finish_ok hf) H.mesh
  have hk' : -1 = d' := hk
  subst hk'
  simp only at hg' h5
  rw [hgold] at hg'
  have e := Out.ok.inj hg'
  subst e
  have hw := hst.worst (-1, ds0) he (0, last) hgold
  have hsteps := hst.steps (-1, ds0) he (0, last) hgold
  simp only at hw hsteps
  obtain ⟨w1, w2⟩ := lastEnd_spec s.ts (-1) (0, last)
  rw [← hw] at w1 w2
  simp only at h5
  have hint : intervals cpt c 0 = (List.range (c / cpt)).map fun (k : Nat) => (k * cpt, (k + 1) * cpt) := by
    unfold intervals
    rw [List.filter_eq_self]
    intro i _
    simp
  rw [show (simConfig .exact dev cpt wl.golden true).cpt = cpt from rfl, hint, List.map_map] at hsteps
  by_cases hz : ds0.worst ≤ 0
  · right
    rw [if_pos hz] at h5
    refine ⟨h5, ?_⟩
    rcases h1 with h1 | ⟨i, t, a1, a2⟩
    · intro t ht; rw [h1] at ht; simp at ht
    · have hm := w1 t (List.mem_of_getElem? a1) (hrel t (List.mem_of_getElem? a1))
      intro u hu
      obtain ⟨j, hj⟩ := List.mem_iff_getElem?.mp hu
      have hm2 := w1 u hu (hrel u hu)
      exact h2 (by omega) j u hj (by omega)
  · left
    rw [if_neg hz] at h5
    have hle : c0 ≤ ds0.worst := by
      rcases h1 with h1 | ⟨i, t, a1, a2⟩
      · rw [h1] at hw
        exact absurd (le_of_eq hw) hz
      · exact le_trans a2 (w1 t (List.mem_of_getElem? a1) (hrel t (List.mem_of_getElem? a1)))
    have hn : ds0.steps.length ≤ (ds0.worst + cpt - 1) / cpt - 0 / cpt + 1 := by
      rw [hsteps, List.length_map, List.length_range, Nat.zero_div, Nat.sub_zero, hc0, Nat.add_div_right _ H.pos]
      apply Nat.succ_le_succ
      exact Nat.div_le_div_right (by have := H.pos; omega)
    unfold Stats.resize at h5
    rw [List.take_of_length_le hn, hsteps] at h5
    exact ⟨_, h5⟩

/-- Full statement of C142: in exact arithmetic and with congestion, what a link has carried according to the records of
the mesh is at least what the transfers have sent over it.

It fails because a transfer may be credited a timestep more than it was active (C59, `C142_violated`).  This theorem
allows for one timestep at full speed for every transfer with a dependency. -/
theorem C142_partial (dev : Device) (cpt : Nat) (ho : HashOrder) (wl : Workload) (s : Sim) (st : Stats) (dm : DevStats)
    (H : Accounted dev cpt ho wl s st dm) (a : LinkAttr) (l : Int) (hl : dev.getLinkID a = .ok l) :
    linkBytes s.ts l ≤ carried dev.linkBw dm.steps l + extraBytes dev cpt s.ts fun t => t.route.count l := by
  obtain ⟨s0, c, h0, hs, hlive, hq, hrec⟩ := H.records
  have hr : RatesOk (simConfig .exact dev cpt wl.golden true).rates := computeRates_ok .exact dev true
  have hinv := init_inv h0
  have hi := hs.inv hr hinv
  obtain ⟨hist, A, hst, _, hsz, hA, hsum⟩ := hs.account H.device H.table H.caps H.pos H.length H.chips H.rates H.rects h0 hl
  have hbw : 0 ≤ dev.linkBw := H.caps.1
  have hK : ∀ t ∈ s.ts, 0 ≤ aloneBw .exact dev t.params := by
    intro t ht
    obtain ⟨i, hi⟩ := List.mem_iff_getElem?.mp ht
    obtain ⟨t0, b1, b2, _⟩ := hs.static_get hr hinv hi
    refine aloneBw_nonneg H.table _ ⟨?_, rfl⟩
    rw [← b2]; exact H.rates _ ((initSim_ok h0).1.slots i t0 b1).1
  have hcp : (0 : ℚ) < cpt := by exact_mod_cast H.pos
  rcases hrec hist hst with ⟨m, hm⟩ | ⟨hm, hz⟩
  · have hcar : carried dev.linkBw dm.steps l = recorded dev cpt hist l c := by
      unfold carried recorded
      rw [hm, List.map_append, List.sum_append, List.map_map, List.map_replicate, List.sum_replicate]
      have : min (({} : TimestepStats).linkGrid.getD l.toNat 0) dev.linkBw = 0 := by
        simp [hbw]
      rw [this, zero_mul, nsmul_zero, add_zero]
      congr 1
      apply List.map_congr_left
      intro k _
      simp only [Function.comp, record_start, record_end]
      have e : (record dev hist (-1) (k * cpt, (k + 1) * cpt)).linkGrid = (hist ((k + 1) * cpt)).1.link := rfl
      rw [e, List.getD_eq_getElem?_getD]
      push_cast
      ring
    rw [hcar]
    have hlen : s.ts.length = s0.ts.length := by
      have h1 := hs.static hr hinv
      apply le_antisymm
      · by_contra hcon
        obtain ⟨t0, b1, _⟩ := hs.static_get hr hinv (List.getElem?_eq_getElem (show s0.ts.length < s.ts.length by omega))
        exact absurd (List.getElem?_eq_some_iff.mp b1).1 (by omega)
      · by_contra hcon
        obtain ⟨t0, b1, _⟩ := hs.static_get' hr hinv (List.getElem?_eq_getElem (show s.ts.length < s0.ts.length by omega))
        exact absurd (List.getElem?_eq_some_iff.mp b1).1 (by omega)
    have hoc : ∀ (i : Nat) t, s.ts[i]? = some t → occurs s0 l i = (t.route.count l : ℚ) := by
      intro i t ht
      obtain ⟨t0, b1, _, b3, _⟩ := hs.static_get hr hinv ht
      unfold occurs
      rw [b1]
      simp only
      rw [b3]
    have h1 : linkBytes s.ts l ≤ ((List.range s0.ts.length).map fun i => occurs s0 l i * A i).sum +
        extraBytes dev cpt s.ts fun t => t.route.count l := by
      unfold linkBytes extraBytes
      rw [sum_index s.ts (fun t => (t.route.count l : ℚ) * t.params.totalBytes) (fun i => match s.ts[i]? with
          | some t => (t.route.count l : ℚ) * t.params.totalBytes
          | none => 0) (fun i t ht => by rw [ht]),
        sum_index s.ts (fun t => (t.route.count l : ℚ) * (aloneBw .exact dev t.params * extraCredit cpt t))
          (fun i => match s.ts[i]? with
          | some t => (t.route.count l : ℚ) * (aloneBw .exact dev t.params * extraCredit cpt t)
          | none => 0) (fun i t ht => by rw [ht])]
      rw [hlen, ← List.sum_map_add]
      apply sum_le_sum'
      intro i hi'
      have hlt : i < s.ts.length := by rw [hlen]; exact List.mem_range.mp hi'
      have ht := List.getElem?_eq_getElem hlt
      rw [ht]
      simp only
      rw [hoc i _ ht, ← mul_add]
      refine mul_le_mul_of_nonneg_left ?_ (by positivity)
      have := (hA i _ ht).2.2 (by rw [hq]; simp)
      have hfin := (hi.finished i _ ht (by rw [hq]; simp) (by rw [hlive]; simp))
      rw [hfin] at this
      exact this
    linarith
  · have e1 : linkBytes s.ts l = 0 := by
      unfold linkBytes
      apply List.sum_eq_zero
      intro x hx
      obtain ⟨t, ht, rfl⟩ := List.mem_map.mp hx
      rw [hz t ht]; simp
    have e2 : carried dev.linkBw dm.steps l = 0 := by rw [hm]; rfl
    have e3 : 0 ≤ extraBytes dev cpt s.ts fun t => t.route.count l := by
      unfold extraBytes
      apply List.sum_nonneg
      intro x hx
      obtain ⟨t, ht, rfl⟩ := List.mem_map.mp hx
      have : 0 ≤ extraCredit cpt t := by unfold extraCredit; split <;> positivity
      exact mul_nonneg (by positivity) (mul_nonneg (hK t ht) this)
    rw [e1, e2]; linarith

/-- C142 without dependencies. -/
theorem C142_independent (dev : Device) (cpt : Nat) (ho : HashOrder) (wl : Workload) (s : Sim) (st : Stats) (dm : DevStats)
    (H : Accounted dev cpt ho wl s st dm) (hind : ∀ t ∈ s.ts, t.dependsOn = -1) (a : LinkAttr) (l : Int)
    (hl : dev.getLinkID a = .ok l) : linkBytes s.ts l ≤ carried dev.linkBw dm.steps l := by
  have h := C142_partial dev cpt ho wl s st dm H a l hl
  have e : (extraBytes dev cpt s.ts fun t => t.route.count l) = 0 := by
    unfold extraBytes
    apply List.sum_eq_zero
    intro x hx
    obtain ⟨t, ht, rfl⟩ := List.mem_map.mp hx
    unfold extraCredit
    rw [if_pos (hind t ht)]; simp
  rw [e, add_zero] at h
  exact h

/-! ### All links -/

theorem count_links {n : Nat} {route : List Int} (h : ∀ i ∈ route, 0 ≤ i ∧ i < n) :
    ((List.range n).map fun (l : Nat) => (route.count (l : Int) : ℚ)).sum = route.length := by
  induction route with
  | nil => simp
  | cons i route ih =>
    have h1 := ih fun j hj => h j (by simp [hj])
    obtain ⟨h2, h3⟩ := h i (by simp)
    have : (fun (l : Nat) => ((i :: route).count (l : Int) : ℚ)) =
        fun (l : Nat) => (if l = i.toNat then 1 else 0) + (route.count (l : Int) : ℚ) := by
      funext l
      rw [List.count_cons]
      by_cases hl : i = l
      · rw [if_pos (by simpa using hl), if_pos (by omega)]; push_cast; ring
      · rw [if_neg (by simpa using hl), if_neg (by omega)]; push_cast; ring
    rw [this, List.sum_map_add, sum_range_ite, if_pos (by omega), h1, List.length_cons]
    push_cast; ring

theorem sum_swap {α : Type} (n : Nat) (l : List α) (f : α → Nat → ℚ) :
    ((List.range n).map fun k => (l.map fun a => f a k).sum).sum =
      (l.map fun a => ((List.range n).map fun k => f a k).sum).sum := by
  induction l with
  | nil => simp
  | cons a l ih =>
    have : (fun k => ((a :: l).map fun a => f a k).sum) = fun k => f a k + (l.map fun a => f a k).sum := by
      funext k; simp
    rw [this, List.sum_map_add, ih, List.map_cons, List.sum_cons]

/-- The average utilisation in a record of the mesh. -/
theorem record_util {dev : Device} {hist : Nat → Grids × List Nat} (hd : DeviceOk dev) (hbw : 0 < dev.linkBw)
    (h : ∀ k, Sized dev (hist k).1) (i : Nat × Nat) :
    (record dev hist (-1) i).avgLinkUtil / 100 * (dev.linkBw * dev.linkTable.length) =
      ((List.range dev.linkTable.length).map fun (l : Nat) =>
        min ((record dev hist (-1) i).linkGrid.getD ((l : Int).toNat) 0) dev.linkBw).sum := by
  have hsz := h i.2
  set g := (hist i.2).1 with hg
  have e1 : (record dev hist (-1) i).avgLinkUtil =
      (0 + (((linksOf dev g).filter fun e => Stats.counted (-1) e.1.coord).map fun e => min e.2.1 dev.linkBw).sum) *
        (100 / (dev.linkBw * g.link.length)) := rfl
  have e2 : (record dev hist (-1) i).linkGrid = g.link := rfl
  have e3 : ((linksOf dev g).filter fun e => Stats.counted (-1) e.1.coord) = linksOf dev g := by
    rw [List.filter_eq_self]
    intro e _
    rfl
  have e4 : ((linksOf dev g).map fun e => min e.2.1 dev.linkBw) = g.link.map fun x => min x dev.linkBw := by
    have : (fun e : LinkAttr × ℚ × ℚ => min e.2.1 dev.linkBw) =
        (fun x => min x dev.linkBw) ∘ Prod.fst ∘ Prod.snd := rfl
    rw [this, ← List.map_map, ← List.map_map]
    unfold linksOf
    rw [List.map_snd_zip (by rw [List.length_zip, hsz.2.1, hsz.2.2]; simp), List.map_fst_zip (by rw [hsz.2.1, hsz.2.2])]
  have hne : (dev.linkTable.length : ℚ) ≠ 0 := by
    rw [dev.linkTable_length]
    have h1 := hd.chips_pos
    have h2 := hd.rows_pos
    have h3 := hd.cols_pos
    have : 0 < dev.nLinks := by
      unfold Device.nLinks
      positivity
    exact_mod_cast this.ne'
  rw [e1, e2, e3, e4, hsz.2.1, zero_add, sum_index g.link (fun x => min x dev.linkBw)
    (fun l => min (g.link.getD l 0) dev.linkBw) (fun l x hx => by rw [List.getD_eq_getElem?_getD, hx]; rfl), hsz.2.1]
  have : dev.linkBw ≠ 0 := hbw.ne'
  simp only [Int.toNat_natCast]
  field_simp

/-- C142 for all links together: the average utilisation in the records, the bandwidth of all links and the time give at
least the data times the links that they pass (with the same allowance as `C142_partial`). -/
theorem C142_all_partial (dev : Device) (cpt : Nat) (ho : HashOrder) (hord : ∀ l, (ho.links l).Perm l) (wl : Workload)
    (s : Sim) (st : Stats) (dm : DevStats) (H : Accounted dev cpt ho wl s st dm) (hbw : 0 < dev.linkBw) :
    hopBytes s.ts ≤ carriedAll (dev.linkBw * dev.linkTable.length) dm.steps +
      extraBytes dev cpt s.ts fun t => t.route.length := by
  obtain ⟨s0, c, h0, hs, hlive, hq, hrec⟩ := H.records
  have hr : RatesOk (simConfig .exact dev cpt wl.golden true).rates := computeRates_ok .exact dev true
  have hinv := init_inv h0
  obtain ⟨hist, hst, hsz, _⟩ := run_statsInv H.device H.pos H.chips h0 hs
  have hids : ∀ t ∈ s.ts, ∀ i ∈ t.route, 0 ≤ i ∧ i < dev.linkTable.length := by
    intro t ht i hi
    obtain ⟨k, hk⟩ := List.mem_iff_getElem?.mp ht
    obtain ⟨t0, b1, _, b3, _⟩ := hs.static_get hr hinv hk
    obtain ⟨a, a1, a2, _⟩ := route_noc H.device hord ((initSim_ok h0).1.slots k t0 b1).2.1 i (by rw [b3]; exact hi)
    have := dev.linkIdx_lt a a1
    rw [dev.linkTable_length]
    omega
  have hcount : ∀ (w : TState → ℚ), ((List.range dev.linkTable.length).map fun (l : Nat) =>
      (s.ts.map fun t => (t.route.count (l : Int) : ℚ) * w t).sum).sum = (s.ts.map fun t => (t.route.length : ℚ) * w t).sum := by
    intro w
    rw [sum_swap]
    congr 1
    apply List.map_congr_left
    intro t ht
    rw [List.sum_map_mul_right, count_links (hids t ht)]
  have e1 : hopBytes s.ts = ((List.range dev.linkTable.length).map fun (l : Nat) => linkBytes s.ts l).sum :=
    (hcount fun t => t.params.totalBytes).symm
  have e2 : (extraBytes dev cpt s.ts fun t => t.route.length) = ((List.range dev.linkTable.length).map fun (l : Nat) =>
      extraBytes dev cpt s.ts fun t => t.route.count (l : Int)).sum :=
    (hcount fun t => aloneBw .exact dev t.params * extraCredit cpt t).symm
  have e3 : carriedAll (dev.linkBw * dev.linkTable.length) dm.steps =
      ((List.range dev.linkTable.length).map fun (l : Nat) => carried dev.linkBw dm.steps l).sum := by
    unfold carriedAll carried
    rw [sum_swap]
    congr 1
    apply List.map_congr_left
    intro r hr'
    rw [List.sum_map_mul_right]
    congr 1
    rcases hrec hist hst with ⟨m, hm⟩ | ⟨hm, _⟩
    · rw [hm] at hr'
      rcases List.mem_append.mp hr' with hr' | hr'
      · obtain ⟨k, _, rfl⟩ := List.mem_map.mp hr'
        exact record_util H.device hbw hsz _
      · rw [(List.mem_replicate.mp hr').2]
        simp [hbw.le]
    · rw [hm] at hr'
      simp at hr'
  rw [e1, e2, e3, ← List.sum_map_add]
  apply sum_le_sum'
  intro l hl
  have hlt := List.mem_range.mp hl
  have hg := List.getElem?_eq_getElem hlt
  obtain ⟨a1, a2⟩ := (dev.linkTable_get l _).mp hg
  refine C142_partial dev cpt ho wl s st dm H dev.linkTable[l] l ?_
  rw [dev.getLinkID_eq H.device.ids _ a1]
  congr 1
  exact_mod_cast a2.symm

/-- C142 for the summary: the same with the average utilisation that the run reports for the mesh. -/
theorem C142_summary_partial (dev : Device) (cpt : Nat) (ho : HashOrder) (hord : ∀ l, (ho.links l).Perm l) (wl : Workload)
    (s : Sim) (st : Stats) (dm : DevStats) (H : Accounted dev cpt ho wl s st dm) (hbw : 0 < dev.linkBw) (sm : Summary)
    (hsm : computeSummary dev wl (-1) dm = .ok sm) (u : ℚ) (hu : sm.avgLinkUtil = .num u) :
    hopBytes s.ts ≤ u / 100 * (dev.linkBw * dev.linkTable.length) * ((dm.steps.length * cpt : Nat) : ℚ) +
      extraBytes dev cpt s.ts fun t => t.route.length := by
  have hall := C142_all_partial dev cpt ho hord wl s st dm H hbw
  obtain ⟨s0, c, h0, hs, hlive, hq, hrec⟩ := H.records
  obtain ⟨hist, hst, hsz, _⟩ := run_statsInv H.device H.pos H.chips h0 hs
  unfold computeSummary at hsm
  obtain ⟨bytes, _, h2⟩ := Out.bind_eq_ok.mp hsm
  obtain ⟨eth, _, h2⟩ := Out.bind_eq_ok.mp h2
  simp only [Out.pure_eq, Out.ok.injEq] at h2
  rw [← h2] at hu
  simp only at hu
  have hne : dm.steps ≠ [] := by
    intro hc
    rw [hc] at hu
    unfold avgOver fdiv at hu
    simp at hu
  rw [avgOver_num hne] at hu
  have hu : (dm.steps.map (·.avgLinkUtil)).sum / dm.steps.length = u := by injection hu
  have hlen : (dm.steps.length : ℚ) ≠ 0 := by
    have : dm.steps.length ≠ 0 := fun hc => hne (List.length_eq_zero_iff.mp hc)
    exact_mod_cast this
  have e : carriedAll (dev.linkBw * dev.linkTable.length) dm.steps =
      u / 100 * (dev.linkBw * dev.linkTable.length) * ((dm.steps.length * cpt : Nat) : ℚ) := by
    unfold carriedAll
    have : (dm.steps.map fun r => r.avgLinkUtil / 100 * (dev.linkBw * dev.linkTable.length) * ((r.endc : ℚ) - r.startc)) =
        dm.steps.map fun r => r.avgLinkUtil * ((dev.linkBw * dev.linkTable.length) * cpt / 100) := by
      apply List.map_congr_left
      intro r hr'
      rcases hrec hist hst with ⟨m, hm⟩ | ⟨hm, _⟩
      · rw [hm] at hr'
        rcases List.mem_append.mp hr' with hr' | hr'
        · obtain ⟨k, _, rfl⟩ := List.mem_map.mp hr'
          simp only [record_start, record_end]
          push_cast
          ring
        · rw [(List.mem_replicate.mp hr').2]
          simp
      · exact absurd hm hne
    rw [this, List.sum_map_mul_right, ← hu]
    push_cast
    field_simp
  rw [e] at hall
  exact hall

/-- C142 is violated: 639 bytes are sent over a link that has carried 576 bytes according to the records. -/
theorem C142_violated : books [Sample.tr 85 0, Sample.tr 42 64, Sample.tr 512 64] = some ([(5, 639, 576)], 639, 576) := by
  decide +kernel

/-- Without dependencies, the records account for all data; and with one they may as well. -/
example : books [Sample.tr 300 0, Sample.tr 200 150] = some ([(5, 500, 1002)], 500, 1002) ∧
    books [Sample.tr 128 0, Sample.tr 1 0, Sample.tr 512 0] = some ([(5, 641, 896)], 641, 896) := by decide +kernel

/-- The hypotheses hold for the run of the violation, so its missing 63 bytes are within the allowance. -/
example : ∃ s st dm, Accounted Sample.dev 128 ⟨id, id⟩ (windowed 0 [Sample.tr 85 0, Sample.tr 42 64, Sample.tr 512 64])
    s st dm := by
  have hb := C142_violated
  unfold books at hb
  split at hb
  · rename_i s st hrun
    obtain ⟨⟨d, dm⟩, he, _⟩ := Option.map_eq_some_iff.mp hb
    have hd : d = -1 := by simpa using List.find?_some he
    subst hd
    have hts : (windowed 0 [Sample.tr 85 0, Sample.tr 42 64, Sample.tr 512 64]).transfers.map (fun t => (t.src.dev, t.dst)) =
        List.replicate 3 (0, .unicast ⟨0, 1, 1⟩) := by decide +kernel
    have hmem : ∀ t ∈ (windowed 0 [Sample.tr 85 0, Sample.tr 42 64, Sample.tr 512 64]).transfers,
        t.src.dev = 0 ∧ t.dst = .unicast ⟨0, 1, 1⟩ := by
      intro t ht
      have := List.mem_map_of_mem (f := fun t : Transfer => (t.src.dev, t.dst)) ht
      rw [hts] at this
      exact Prod.mk.inj (List.mem_replicate.mp this).2
    refine ⟨s, st, dm, ⟨by decide, by decide, by decide, by decide, fun _ => rfl⟩, wormhole_table .exact false 1,
      ⟨by decide +kernel, ?_, ?_⟩, by decide, by decide, ?_, by decide +kernel, ?_, hrun,
      List.mem_of_find?_eq_some he, 1000, by decide +kernel, by decide +kernel⟩
    · intro c; cases c <;> decide +kernel
    · intro c; cases c <;> decide +kernel
    · intro t ht
      rw [(hmem t ht).1]
      decide
    · intro t ht
      unfold RectsOk
      rw [(hmem t ht).2]
      intro gs h
      cases h
  · simp at hb

end NPE.Props
