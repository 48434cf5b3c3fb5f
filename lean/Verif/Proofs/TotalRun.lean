import Verif.Proofs.TotalRates
import Verif.Proofs.NoExit
import Verif.Proofs.Multicast
import Verif.Spec.Api

/-
Conditions under which a whole run, its set-up and its report succeed.
-/

namespace NPE
open Spec (Reach DeviceOk TableOk Capacities OnChips IsCore RectOk Executable Reachable OnGrid)

/-! ### The loop -/

/-- Every device and the mesh have a golden window. -/
def GoldenAll (dev : Device) (golden : GoldenMap) : Prop :=
  ∀ d ∈ dev.deviceIDs ++ [MESH_DEVICE], ∃ g, golden.at d = .ok g

theorem sized_of_initial {fp : FP} {dev : Device} {ho : HashOrder} {wl : Workload} {s0 : Sim}
    (h0 : initSim fp dev ho wl = .ok s0) : Sized dev s0.grids := by
  rw [(initSim_ok h0).1.grids]; exact sized_init dev

theorem simLoop_total {fp : FP} {dev : Device} (hd : DeviceOk dev) (hT : TableOk fp dev.tbt)
    (hc : Capacities dev) (hmax : dev.maxBw ≤ 524288) {cpt : Nat} (hpos : 0 < cpt)
    (h32 : cpt < 4294967296) {golden : GoldenMap} (hg : GoldenAll dev golden) {en : Bool}
    {ho : HashOrder} {wl : Workload} (hon : OnChips dev wl.transfers) {s0 : Sim}
    (h0 : initSim fp dev ho wl = .ok s0) (hR : ∀ t ∈ s0.ts, Runnable fp dev golden en t) :
    ∀ (n c : Nat) (s : Sim), Reach (simConfig fp dev cpt golden en) s0 c s → Sized dev s.grids →
      (c = 0 ∨ (c ≤ 50000000 ∧ ¬ (s.live = [] ∧ s.queue = []))) →
      50000000 < c + cpt + n * cpt →
      ∃ e, simLoop (simConfig fp dev cpt golden en) (n + 1) (c + cpt) s = .ok e := by
  have hro : RatesOk (simConfig fp dev cpt golden en).rates := computeRates_ok fp dev en
  have hI := init_inv h0
  have hl0 := (initSim_ok h0).1.live
  have hstep : ∀ (c : Nat) (s : Sim), Reach (simConfig fp dev cpt golden en) s0 c s → Sized dev s.grids →
      (c = 0 ∨ (c ≤ 50000000 ∧ ¬ (s.live = [] ∧ s.queue = []))) →
      ∃ s', stepSim (simConfig fp dev cpt golden en) (c + cpt) s = .ok s' ∧ Sized dev s'.grids := by
    intro c s hs hsz hcc
    obtain ⟨h, hSI, _⟩ := run_statsInv hd hpos hon h0 hs
    have hdv : cpt ∣ c := hs.dvd
    have hsmall : 0 < c → cpt ≤ 50000000 := by
      intro h1
      have := Nat.le_of_dvd h1 hdv
      omega
    refine step_total (cfg := simConfig fp dev cpt golden en) hd hro (ratesTotal hT hc hmax golden en)
      (fun t t' he hp => Runnable.congr (t := t) (t' := t') he hp) (hs.inv hro hI) hpos ?_ ?_
      (hg _ (by simp)) ?_ hsz ?_ ?_
    · show c + cpt < 4294967296
      rcases Nat.eq_zero_or_pos c with h1 | h1
      · omega
      · have := hsmall h1; omega
    · intro h1
      show 2 * cpt < 4294967296
      have := hsmall h1; omega
    · intro e he
      refine hg _ ?_
      rw [← show s.stats.map (·.1) = dev.deviceIDs ++ [MESH_DEVICE] from hSI.keys]
      exact List.mem_map_of_mem he
    · intro t ht
      obtain ⟨i, hi⟩ := List.mem_iff_getElem?.mp ht
      have hst := hs.stat hro hI
      have h1 : (s.ts.map stat)[i]? = some (stat t) := by rw [List.getElem?_map, hi]; rfl
      rw [hst, List.getElem?_map] at h1
      obtain ⟨t0, ht0, he⟩ := Option.map_eq_some_iff.mp h1
      exact Runnable.congr (t := t0) (t' := t) he.symm (hR t0 (List.mem_of_getElem? ht0))
    · intro i hi t ht
      exact hs.live_lt hro hI hl0 hi ht
  intro n
  induction n with
  | zero =>
    intro c s hs hsz hcc hn
    obtain ⟨s', h1, _⟩ := hstep c s hs hsz hcc
    rw [simLoop, h1, Out.bind_ok]
    split
    · exact ⟨_, rfl⟩
    · rw [if_pos (by unfold MAX_CYCLE_LIMIT; omega)]
      exact ⟨_, rfl⟩
  | succ n ih =>
    intro c s hs hsz hcc hn
    obtain ⟨s', h1, hsz'⟩ := hstep c s hs hsz hcc
    rw [simLoop, h1, Out.bind_ok]
    split
    · exact ⟨_, rfl⟩
    · rename_i hfin
      split
      · exact ⟨_, rfl⟩
      · rename_i hlim
        refine ih (c + cpt) s' (.step hs hcc h1) hsz' (Or.inr ⟨?_, hfin⟩) ?_
        · unfold MAX_CYCLE_LIMIT at hlim; omega
        · rw [Nat.add_mul] at hn; omega

theorem runLoop_total {fp : FP} {dev : Device} (hd : DeviceOk dev) (hT : TableOk fp dev.tbt)
    (hc : Capacities dev) (hmax : dev.maxBw ≤ 524288) {cpt : Nat} (hpos : 0 < cpt)
    (h32 : cpt < 4294967296) {golden : GoldenMap} (hg : GoldenAll dev golden) {en : Bool}
    {ho : HashOrder} {wl : Workload} (hon : OnChips dev wl.transfers) {s0 : Sim}
    (h0 : initSim fp dev ho wl = .ok s0) (hR : ∀ t ∈ s0.ts, Runnable fp dev golden en t) :
    ∃ e, runLoop (simConfig fp dev cpt golden en) ho wl = .ok e := by
  have h := simLoop_total hd hT hc hmax hpos h32 hg hon h0 hR (MAX_CYCLE_LIMIT + 1) 0 s0 .start
    (sized_of_initial h0) (Or.inl rfl) (by
      unfold MAX_CYCLE_LIMIT
      have : 50000001 * 1 ≤ 50000001 * cpt := Nat.mul_le_mul_left _ hpos
      omega)
  rw [Nat.zero_add] at h
  unfold runLoop
  rw [show initSim (simConfig fp dev cpt golden en).fp (simConfig fp dev cpt golden en).dev ho wl = .ok s0
    from h0, Out.bind_ok]
  exact h

theorem finish_total {golden : GoldenMap} {cpt : Nat} (hpos : 0 < cpt) {st : Stats}
    (h : ∀ e ∈ st, ∃ g, golden.at e.1 = .ok g) : ∃ st', st.finish golden cpt = .ok st' := by
  unfold Stats.finish
  refine Out.mapM_total fun e he => ?_
  obtain ⟨g, hg⟩ := h e he
  unfold Stats.finishOne
  rw [hg, Out.bind_ok]
  simp only
  split
  · exact ⟨_, rfl⟩
  · rw [if_neg (by omega)]; exact ⟨_, rfl⟩

/-! ### Set-up -/

theorem foldlM_initOne_total {dev : Device} {ord : List Int → List Int} {n : Nat} :
    ∀ (l : List Transfer) (slots : List (Option TState)), slots.length = n →
    (∀ t ∈ l, 0 ≤ t.id ∧ t.id < n ∧ ∃ r, dev.route ord t.noc t.src t.dst = .ok r) →
    ∃ slots', Out.foldlM (initOne dev ord n) slots l = .ok slots' ∧ slots'.length = n ∧
      ∀ i : Nat, i < n → ((∃ t, slots[i]? = some (some t)) ∨ ∃ t ∈ l, t.id = i) →
        ∃ t, slots'[i]? = some (some t) := by
  intro l
  induction l with
  | nil =>
    intro slots hl _
    exact ⟨slots, rfl, hl, fun i _ h => h.elim id fun ⟨t, ht, _⟩ => by simp at ht⟩
  | cons t l ih =>
    intro slots hl h
    obtain ⟨h0, h1, r, hr⟩ := h t (by simp)
    obtain ⟨slots', h2, h3, h4⟩ := ih (slots.set t.id.toNat
      (some { params := t, route := r, start := t.offset })) (by rw [List.length_set]; exact hl)
      fun u hu => h u (List.mem_cons_of_mem _ hu)
    refine ⟨slots', ?_, h3, ?_⟩
    · rw [Out.foldlM_cons]
      unfold initOne
      have hb : (decide (0 ≤ t.id) && decide (t.id < n)) = true := by simp [h0, h1]
      rw [hb, Out.assert_true, Out.bind_ok, hr, Out.bind_ok]
      exact h2
    · intro i hi hc
      refine h4 i hi ?_
      by_cases he : t.id.toNat = i
      · left
        refine ⟨{ params := t, route := r, start := t.offset }, ?_⟩
        rw [he, List.getElem?_set_self (by omega)]
      · rcases hc with ⟨u, hu⟩ | ⟨u, hu, hid⟩
        · left
          exact ⟨u, by rw [List.getElem?_set_ne he]; exact hu⟩
        · right
          rcases List.mem_cons.mp hu with e | hu
          · subst e; omega
          · exact ⟨u, hu, hid⟩

theorem dense_id {wl : Workload} (hw : wl.Dense) (i : Nat) (tr : Transfer)
    (hi : wl.transfers[i]? = some tr) : tr.id = i := by
  have h1 := hw.ids
  have h2 : (wl.transfers.map (·.id))[i]? = some tr.id := by simp [hi]
  rw [h1] at h2
  have hlt := (List.getElem?_eq_some_iff.mp hi).1
  rw [← hw.gbl] at hlt
  rw [List.getElem?_map, List.getElem?_range hlt] at h2
  simpa using h2.symm

theorem initTransferState_total {dev : Device} {ord : List Int → List Int} {wl : Workload} (hw : wl.Dense)
    (hr : ∀ t ∈ wl.transfers, ∃ r, dev.route ord t.noc t.src t.dst = .ok r) :
    ∃ ts, initTransferState dev ord wl = .ok ts := by
  obtain ⟨slots, h1, h2, h3⟩ := foldlM_initOne_total (dev := dev) (ord := ord) (n := wl.transfers.length)
    wl.transfers (List.replicate wl.transfers.length none) (by simp) (by
      intro t ht
      obtain ⟨i, hi⟩ := List.mem_iff_getElem?.mp ht
      have := dense_id hw i t hi
      have hlt := (List.getElem?_eq_some_iff.mp hi).1
      exact ⟨by omega, by omega, hr t ht⟩)
  unfold initTransferState
  simp only
  rw [h1, Out.bind_ok]
  refine Out.mapM_total fun o ho => ?_
  obtain ⟨i, hi⟩ := List.mem_iff_getElem?.mp ho
  have hlt : i < wl.transfers.length := by rw [← h2]; exact (List.getElem?_eq_some_iff.mp hi).1
  obtain ⟨t, ht⟩ := h3 i hlt (Or.inr ⟨wl.transfers[i], List.getElem_mem hlt,
    dense_id hw i _ (List.getElem?_eq_getElem hlt)⟩)
  rw [hi] at ht
  rw [Option.some.inj ht]
  exact ⟨t, rfl⟩

theorem groupDelay_total {fp : FP} {dev : Device} {t : Transfer} {pd : Int} (ha : dev.arch = .wormholeB0)
    {e : Coord} (he : t.dst = .unicast e) (hp : t.packetSize < 4294967296) :
    ∃ d, groupDelay fp dev t pd = .ok d := by
  unfold groupDelay
  simp only [he, ha, Out.bind_ok]
  split
  · rw [writeLatency_eq]
    obtain ⟨b1, b2⟩ := hops_bounds t.noc t.src e
    set lat := toU32 (40 + 10 * Spec.hops 12 10 t.noc t.src e) with hlat
    have hl : lat ≤ 240 := by
      have : ((toU32 (40 + 10 * Spec.hops 12 10 t.noc t.src e) : Nat) : Int) =
          40 + 10 * Spec.hops 12 10 t.noc t.src e := by
        unfold toU32; omega
      omega
    unfold addEthDelay ethDelayPerByte
    simp only
    rw [fp.f32.fl_nat (show lat ≤ 16777216 by omega)]
    have hp0 : (0 : ℚ) ≤ t.packetSize := by positivity
    have hp1 : (t.packetSize : ℚ) ≤ 4294967296 := by exact_mod_cast hp.le
    have a1 := fp.f32.fl_le_err hp0
    have c1 := fp.f32.fl_le_err (x := 1055 / 10000) (by norm_num)
    set P := fp.f32.fl (t.packetSize : ℚ) with hP
    set K := fp.f32.fl (1055 / 10000) with hK
    have hPn : 0 ≤ P := fp.f32.fl_nonneg hp0
    have hKn : 0 ≤ K := fp.f32.fl_nonneg (by norm_num)
    have d1 := fp.f32.fl_le_err (mul_nonneg hKn hPn)
    set M := fp.f32.fl (K * P) with hM
    have hMn : 0 ≤ M := fp.f32.fl_nonneg (mul_nonneg hKn hPn)
    have e1 := fp.f32.fl_le_err (x := 600 + M) (by linarith)
    set H := fp.f32.fl (600 + M) with hH
    have hHn : 0 ≤ H := fp.f32.fl_nonneg (by linarith)
    have hln : (0 : ℚ) ≤ lat := by positivity
    have hlq : (lat : ℚ) ≤ 240 := by exact_mod_cast hl
    have f1 := fp.f32.fl_le_err (x := lat + H) (by linarith)
    set X := fp.f32.fl ((lat : ℚ) + H) with hX
    have hXn : 0 ≤ X := fp.f32.fl_nonneg (by linarith)
    have hK1 : K ≤ 1 / 4 := by norm_num at c1; linarith
    have hP1 : P ≤ 4294967297 * 2 := by linarith
    have g1 : K * P ≤ 1 / 4 * (4294967297 * 2) := mul_le_mul hK1 hP1 hPn (by norm_num)
    rw [if_pos ⟨by linarith, by linarith⟩]
    exact ⟨_, rfl⟩
  · exact ⟨_, rfl⟩

theorem parentOf_lt {ts : List TState} (hd : DenseTs ts) (h : 0 < ts.length) (t : Transfer) :
    parentOf (groupMap ts) t < ts.length := by
  unfold parentOf
  cases hl : (groupMap ts).lookup (t.groupId, t.groupParent) with
  | none => exact h
  | some p =>
    have hm : ((t.groupId, t.groupParent), p) ∈ groupMap ts := by
      have := List.lookup_eq_some_iff.mp hl
      obtain ⟨a, b, e, _⟩ := this
      rw [e]; simp
    unfold groupMap at hm
    rw [List.mem_reverse] at hm
    obtain ⟨u, hu, e⟩ := List.mem_map.mp hm
    have := hd.lt (List.mem_of_mem_filter hu)
    simp only [Prod.mk.injEq] at e
    rw [← e.2]; exact this

theorem foldlM_group_total {fp : FP} {dev : Device} {ts : List TState} (hd : DenseTs ts) :
    ∀ (l : List Transfer) (E : List Edge), (∀ t ∈ l, t.id.toNat < ts.length) →
    (∀ t ∈ l, HasParent t → ∀ pd, ∃ d, groupDelay fp dev t pd = .ok d) →
    ∃ st, Out.foldlM (groupOne fp dev (groupMap ts)) (tsOf ts E, tkOf E) l = .ok st := by
  intro l
  induction l with
  | nil => intro E _ _; exact ⟨_, rfl⟩
  | cons t l ih =>
    intro E hl hg
    have hlt := hl t (by simp)
    have hone : ∃ st, groupOne fp dev (groupMap ts) (tsOf ts E, tkOf E) t = .ok st := by
      unfold groupOne
      split
      · rename_i hp
        simp only
        have hpl : parentOf (groupMap ts) t < (tsOf ts E).length := by
          rw [tsOf_length]; exact parentOf_lt hd (by omega) t
        rw [show (List.lookup (t.groupId, t.groupParent) (groupMap ts)).getD 0 =
          parentOf (groupMap ts) t from rfl, List.getElem?_eq_getElem hpl]
        simp only
        obtain ⟨d, hd'⟩ := hg t (by simp) hp ((tsOf ts E)[parentOf (groupMap ts) t]).params.src.dev
        rw [hd', Out.bind_ok, addDep_eq ts E _ _ _ (by rw [tsOf_length] at hpl; exact hpl) hlt]
        exact ⟨_, rfl⟩
      · exact ⟨_, rfl⟩
    obtain ⟨st, h1⟩ := hone
    rw [Out.foldlM_cons, h1, Out.bind_ok]
    rcases groupOne_eq hlt h1 with ⟨_, e⟩ | ⟨_, e, _⟩
    · rw [e]
      exact ih E (fun u hu => hl u (List.mem_cons_of_mem _ hu)) fun u hu => hg u (List.mem_cons_of_mem _ hu)
    · rw [e]
      exact ih _ (fun u hu => hl u (List.mem_cons_of_mem _ hu)) fun u hu => hg u (List.mem_cons_of_mem _ hu)

theorem genDependencies_total {fp : FP} {dev : Device} {bord : List BucketKey → List BucketKey}
    {ts : List TState} (hf : Fresh ts) (hd : DenseTs ts) (hk : ∀ t ∈ ts, ∃ k, bucketKey dev t = .ok k)
    (hg : ∀ t ∈ ts, HasParent t.params → ∀ pd, ∃ d, groupDelay fp dev t.params pd = .ok d) :
    ∃ r, genDependencies fp dev bord ts = .ok r := by
  have hids : ∀ t ∈ ts.map (·.params), t.id.toNat < ts.length := by
    intro t ht
    obtain ⟨t0, ht0, rfl⟩ := List.mem_map.mp ht
    exact hd.lt ht0
  unfold genDependencies
  rw [niuPass_eq hf hd hk, Out.bind_ok]
  obtain ⟨st, h2⟩ := foldlM_group_total (fp := fp) (dev := dev) hd (ts.map (·.params)) (niuEdges dev bord ts)
    hids (by
      intro t ht hp
      obtain ⟨t0, ht0, rfl⟩ := List.mem_map.mp ht
      exact hg t0 ht0 hp)
  rw [h2, Out.bind_ok]
  obtain ⟨e2, hgg⟩ := foldlM_group _ _ _ hids h2
  have hE : EdgesOk ts.length (niuEdges dev bord ts ++
      ((ts.map (·.params)).filter (fun t => HasParent t)).map (groupEdge fp dev ts)) := by
    intro e he
    rcases List.mem_append.mp he with he | he
    · exact niuEdges_ok hd e he
    · obtain ⟨t, ht, rfl⟩ := List.mem_map.mp he
      obtain ⟨ht, hp⟩ := List.mem_filter.mp ht
      exact ⟨(hgg t ht (by simpa using hp)).1, hids t ht⟩
  obtain ⟨tk1, h3, _⟩ := selfCheck_eq hE
  rw [e2]
  simp only
  rw [h3]
  exact ⟨_, rfl⟩

/-- Set-up succeeds whenever every transfer has a route over links of the device and every parent
delay is defined. -/
theorem initSim_total {fp : FP} {dev : Device} {ho : HashOrder} {wl : Workload} (hw : wl.Dense)
    (hr : ∀ t ∈ wl.transfers, ∃ r, dev.route ho.links t.noc t.src t.dst = .ok r ∧
      ∀ i ∈ r, ∃ a, dev.getLinkAttributes i = .ok a)
    (hg : ∀ t ∈ wl.transfers, HasParent t → ∀ pd, ∃ d, groupDelay fp dev t pd = .ok d) :
    ∃ s, initSim fp dev ho wl = .ok s := by
  obtain ⟨ts, h1⟩ := initTransferState_total hw fun t ht => (hr t ht).imp fun _ h => h.1
  obtain ⟨hf, hd⟩ := init_fresh h1
  have hs := (initTransferState_ok h1).2
  obtain ⟨r, h2⟩ := genDependencies_total (fp := fp) (dev := dev) (bord := ho.buckets) hf hd (by
    intro t ht
    obtain ⟨i, hi⟩ := List.mem_iff_getElem?.mp ht
    obtain ⟨hm, _, r, hr1, e⟩ := hs i t hi
    obtain ⟨r', hr2, hr3⟩ := hr _ hm
    rw [hr1] at hr2
    have e2 : t.route = r' := by rw [e, Out.ok.inj hr2]
    unfold bucketKey
    split
    · exact ⟨_, rfl⟩
    · rename_i l ls hl
      obtain ⟨a, ha⟩ := hr3 l (by rw [← e2, hl]; simp)
      rw [ha]; exact ⟨_, rfl⟩) (by
    intro t ht hp
    obtain ⟨i, hi⟩ := List.mem_iff_getElem?.mp ht
    exact hg _ (hs i t hi).1 hp)
  unfold initSim
  rw [h1, Out.bind_ok]
  simp only
  rw [h2, Out.bind_ok]
  exact ⟨_, rfl⟩

end NPE
