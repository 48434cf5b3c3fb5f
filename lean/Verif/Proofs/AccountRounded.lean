import Verif.Proofs.Account
import Verif.Props.RoofRounded

/-
The account of the data of a run (C142) with any rounding.
-/

namespace NPE
open NPE.Spec NPE.Spec.Fluid

/-- What the records up to cycle `c` say about a link, if a demand `x` stands for a load of `f x`. -/
def recordedBy (f : ℚ → ℚ) (cpt : Nat) (hist : Nat → Grids × List Nat) (l : Int) (c : Nat) : ℚ :=
  ((List.range (c / cpt)).map fun k =>
    (cpt : ℚ) * f (((hist ((k + 1) * cpt)).1.link[l.toNat]?).getD 0)).sum

/-- The account of a run with any rounding, for any bound of the load of the link by its recorded demand: every transfer has moved what it sent over its links, up to the extra credit of one timestep,
and the links have recorded what was sent over them. -/
theorem Spec.Reach.account_rounded {fp : FP} {dev : Device} (hd : DeviceOk dev) (hT : TableOk fp dev.tbt) (hc : Capacities dev)
    {cpt : Nat} (hpos : 0 < cpt) (hcpt : cpt ≤ 25000000) {golden : GoldenMap} {ho : HashOrder} {wl : Workload}
    (hon : OnChips dev wl.transfers) (hinj : ∀ t ∈ wl.transfers, Props.SaneRate fp t) {s0 : Sim} (h0 : initSim fp dev ho wl = .ok s0) {l : Int} {f : ℚ → ℚ}
    (hflow : ∀ c g ts ts' live g', c + cpt < 4294967296 → live.Nodup → live.length ≤ s0.ts.length →
      (∀ i ∈ live, ∀ t, ts[i]? = some t → t.start ≤ c + cpt ∧ t.params ∈ wl.transfers ∧
        ∃ t0 ∈ s0.ts, t0.params = t.params ∧ t0.route = t.route) →
      computeRates fp dev true c (c + cpt) g ts live = .ok (ts', g') →
      offered (fun t => t.route.count l) c (c + cpt) ts' live ≤ f ((g'.link[l.toNat]?).getD 0))
    {c : Nat} {s : Sim} (hs : Reach (simConfig fp dev cpt golden true) s0 c s) :
    ∃ (hist : Nat → Grids × List Nat) (A : Nat → ℚ), StatsInv (simConfig fp dev cpt golden true) hist c s ∧
      Sized dev s.grids ∧ (∀ k, Sized dev (hist k).1) ∧
      (∀ (i : Nat) t, s.ts[i]? = some t →
        (i ∈ s.queue.map (·.2) → A i = 0) ∧
        (i ∈ s.live → (t.moved : ℚ) ≤ rounded (A i + Props.aloneBw fp dev t.params * slack cpt c s.deps t)) ∧
        (i ∉ s.queue.map (·.2) → (t.moved : ℚ) ≤ rounded (A i + Props.aloneBw fp dev t.params *
          if t.dependsOn = -1 then 0 else (cpt : ℚ)))) ∧
      ((List.range s0.ts.length).map fun i => occurs s0 l i * A i).sum ≤ recordedBy f cpt hist l c := by
  have hr : RatesOk (simConfig fp dev cpt golden true).rates := computeRates_ok fp dev true
  have hinv := init_inv h0
  have I := (initSim_ok h0).1
  induction hs with
  | start =>
    refine ⟨fun _ => (initGrids dev, []), fun _ => 0, statsInv_init (cfg := simConfig fp dev cpt golden true) h0 _,
      ?_, fun _ => sized_init dev, ?_, ?_⟩
    · rw [I.grids]; exact sized_init dev
    · intro i t ht
      refine ⟨fun _ => rfl, ?_, ?_⟩
      · intro h; rw [I.live] at h; simp at h
      · intro h
        exact absurd (I.queue.symm.subset (List.mem_range.mpr (List.getElem?_eq_some_iff.mp ht).1)) h
    · simp [recordedBy]
  | @step c sa sb hsa hcl h ih =>
    obtain ⟨hist, A, hst, hgs, hsz, hA, hsum⟩ := ih
    have hia := hsa.inv hr hinv
    have hck := hsa.clock_le (show (simConfig fp dev cpt golden true).cpt ≤ 1000000000 by change cpt ≤ _; omega)
    change stepSim _ (c + cpt) sa = .ok sb at h
    obtain ⟨F⟩ := step_facts hr (Nat.le_add_right c cpt) hia h
    have ecpt : (simConfig fp dev cpt golden true).cpt = cpt := rfl
    have hn1 : F.P.s1.live.Nodup := (List.nodup_append.mp F.inv1.nodup).2.1
    have hrates : computeRates fp dev true c (c + cpt) F.P.s1.grids F.P.s1.ts F.P.s1.live = .ok (F.P.ts2, F.P.g2) := by
      have := F.P.rates
      rw [ecpt, Nat.add_sub_cancel] at this
      exact this
    have hsz2 : Sized dev F.P.g2 := sized_rates hn1 (by rw [F.grids1]; exact hgs) hrates
    have hlen1 : F.P.s1.ts.length = sa.ts.length := by rw [F.ts1, updIds_length]
    have hlena : sa.ts.length = s0.ts.length := by
      have := hsa.static hr hinv
      apply le_antisymm
      · by_contra hcon
        obtain ⟨t0, b1, _⟩ := hsa.static_get hr hinv (List.getElem?_eq_getElem (show s0.ts.length < sa.ts.length by omega))
        exact absurd (List.getElem?_eq_some_iff.mp b1).1 (by omega)
      · by_contra hcon
        obtain ⟨t0, b1, _⟩ := hsa.static_get' hr hinv (List.getElem?_eq_getElem (show sa.ts.length < s0.ts.length by omega))
        exact absurd (List.getElem?_eq_some_iff.mp b1).1 (by omega)
    have hlt1 : ∀ i ∈ F.P.s1.live, i < s0.ts.length := fun i hi => by
      have := F.inv1.lt i (List.mem_append_right _ hi)
      omega
    -- the active transfers
    have hlive : ∀ i ∈ F.P.s1.live, ∃ t0 ta t2 tb, s0.ts[i]? = some t0 ∧ F.P.ts2[i]? = some t2 ∧
        Member (simConfig fp dev cpt golden true) (c + cpt) sa sb i ta t2 tb ∧ t0.params = t2.params ∧
        t0.route = t2.route ∧ t2.params ∈ wl.transfers := by
      intro i hi
      obtain ⟨ta, t2, tb, h2, M⟩ := F.member_rates hi
      obtain ⟨t0, b1, b2, b3, _⟩ := hsa.static_get hr hinv M.before
      have e1 : t2.params = ta.params := by rw [M.same]
      have e2 : t2.route = ta.route := by rw [M.same]
      have hm := (I.slots i t0 b1).1
      exact ⟨t0, ta, t2, tb, b1, h2, M, by rw [b2, e1], by rw [b3, e2], by rw [e1, ← b2]; exact hm⟩
    have hpre : ∀ i ∈ F.P.s1.live, ∀ t1, F.P.s1.ts[i]? = some t1 → t1.start ≤ c + cpt ∧ t1.params ∈ wl.transfers ∧
        ∃ t0 ∈ s0.ts, t0.params = t1.params ∧ t0.route = t1.route := by
      intro i hi t1 h1
      obtain ⟨t0, ta, t2, tb, b1, b2, M, b3, b4, b5⟩ := hlive i hi
      have e := F.only2 i t1 t2 h1 b2
      have e1 : t2.start = t1.start := by rw [e]
      have e2 : t2.params = t1.params := by rw [e]
      have e3 : t2.route = t1.route := by rw [e]
      rw [← e1, ← e2, ← e3]
      exact ⟨M.started.start_le.2, b5, t0, List.mem_of_getElem? b1, b3, b4⟩
    have hbw0 : ∀ i ∈ F.P.s1.live, ∀ t2, F.P.ts2[i]? = some t2 → 0 ≤ t2.bw :=
      rates_nonneg hT hc (Nat.le_add_right c cpt) hn1
        (fun i hi t1 h1 => ⟨(hpre i hi t1 h1).1, hinj _ (hpre i hi t1 h1).2.1⟩) hrates
    have hll : F.P.s1.live.length ≤ s0.ts.length := by
      have : F.P.s1.live ⊆ List.range s0.ts.length := fun i hi => List.mem_range.mpr (hlt1 i hi)
      have := (hn1.subperm this).length_le
      rwa [List.length_range] at this
    have hfl := hflow c _ _ _ _ _ (by omega) hn1 hll hpre hrates
    refine ⟨setHist hist (c + cpt) (F.P.g2, F.P.s1.live), fun i => A i + if i ∈ F.P.s1.live then
      (match F.P.ts2[i]? with
        | some t => (cpt : ℚ) * (share c (c + cpt) t * t.bw)
        | none => 0) else 0, statsInv_step hd hpos hsa.dvd hst F ?_ hsz2, ?_, ?_, ?_, ?_⟩
    · intro i t hi
      obtain ⟨t0, b1, b2, _⟩ := hsa.static_get hr hinv hi
      rw [← b2]; exact init_onChips h0 hon i t0 b1
    · rw [F.P.res]; exact hsz2
    · intro k
      unfold setHist
      split
      · exact hsz2
      · exact hsz k
    · intro i t ht
      by_cases hil : i ∈ F.P.s1.live
      · obtain ⟨t0, ta, t2, tb, b1, b2, M, b3, b4, b6⟩ := hlive i hil
        have b5 := hinj _ b6
        have e := M.after
        rw [ht] at e
        have e := Option.some.inj e
        subst e
        have hK0 := Props.aloneBw_nonneg hT t2.params b5
        have hK := Props.within_alone hT true _ _ _ _ _ _ _ hn1 hrates i t2 hil b2 b5
        have hq := M.notWaiting
        simp only [hil, if_true, b2]
        obtain ⟨cyc, mx, h3, h4, h5⟩ := M.ended
        rw [ecpt, Nat.add_sub_cancel] at h3
        have hkey := cyc_le_share hpos h3 M.started.start_le.2 (by omega)
        have hm0 : t2.moved = ta.moved := by rw [M.same]
        have hd0 : t2.dependsOn = ta.dependsOn := by rw [M.same]
        have hp0 : t2.params = ta.params := by rw [M.same]
        have hpt : t.params = t2.params := by
          rcases h5 with ⟨_, _, e⟩ | ⟨_, _, _, _, e⟩ <;> rw [e]
        have hdt : t.dependsOn = t2.dependsOn := by
          rcases h5 with ⟨_, _, e⟩ | ⟨_, _, _, _, e⟩ <;> rw [e]
        set K := Props.aloneBw fp dev t2.params with hKd
        have hprev : (t2.moved : ℚ) ≤ rounded (A i + K * slack cpt c sa.deps t2) := by
          by_cases hla : i ∈ sa.live
          · have := (hA i ta M.before).2.1 hla
            rw [hm0, hKd, hp0]
            have hsl : slack cpt c sa.deps t2 = slack cpt c sa.deps ta := by unfold slack; rw [hd0]
            rw [hsl]; exact this
          · rcases (F.mem_live1 i).mp hil with hcc | ⟨o, hcc, _⟩
            · exact absurd hcc hla
            · rw [hm0, (hia.waiting _ hcc ta M.before).2.2, Nat.cast_zero,
                (hA i ta M.before).1 (List.mem_map_of_mem (f := (·.2)) hcc), zero_add]
              exact rounded_nonneg (mul_nonneg hK0 (slack_nonneg _ _ _ _))
        have hb2 := hbw0 i hil t2 b2
        have hbytes : ((min (t2.params.totalBytes - t2.moved) mx : Nat) : ℚ) ≤ rounded (cyc * t2.bw) := by
          have := mx_le_rounded h4 (min_le_right (t2.params.totalBytes - t2.moved) mx) le_rfl hb2
          unfold rounded at this ⊢
          linarith
        have hmoved : (t.moved : ℚ) = t2.moved + ((min (t2.params.totalBytes - t2.moved) mx : Nat) : ℚ) := by
          rcases h5 with ⟨_, _, e⟩ | ⟨htot, _, _, _, e⟩
          · rw [e]; push_cast; rfl
          · have : t.moved = t2.moved + min (t2.params.totalBytes - t2.moved) mx := by rw [e]; exact htot.symm
            rw [this]; push_cast; rfl
        have hmain : (t.moved : ℚ) ≤ rounded (A i + (cpt : ℚ) * (share c (c + cpt) t2 * t2.bw) +
            K * slack cpt (c + cpt) sa.deps t2) := by
          rw [hmoved]
          have hmo := slack_mono (cpt := cpt) (deps := sa.deps) (t := t2) (Nat.le_add_right c cpt)
          have x1 : (cyc : ℚ) * t2.bw ≤ (cpt * share c (c + cpt) t2 +
              (slack cpt (c + cpt) sa.deps t2 - slack cpt c sa.deps t2)) * t2.bw :=
            mul_le_mul_of_nonneg_right (by linarith) hb2
          have x2 : (slack cpt (c + cpt) sa.deps t2 - slack cpt c sa.deps t2) * t2.bw ≤
              (slack cpt (c + cpt) sa.deps t2 - slack cpt c sa.deps t2) * K :=
            mul_le_mul_of_nonneg_left hK (by linarith)
          have x3 := hbytes.trans (rounded_mono (show (cyc : ℚ) * t2.bw ≤ cpt * (share c (c + cpt) t2 * t2.bw) +
            K * (slack cpt (c + cpt) sa.deps t2 - slack cpt c sa.deps t2) by nlinarith))
          unfold rounded at hprev x3 ⊢
          linarith
        have hds := F.live_dep_same hil b2
        have hsl : slack cpt (c + cpt) sb.deps t = slack cpt (c + cpt) sa.deps t2 := by
          unfold slack
          rw [hdt, hds]
        refine ⟨fun hcq => absurd hcq hq, ?_, ?_⟩
        · intro _
          rw [hpt, ecpt, hsl]; exact hmain
        · intro _
          rw [hpt, hdt]
          have := mul_le_mul_of_nonneg_left (slack_le cpt (c + cpt) sa.deps t2) hK0
          exact hmain.trans (rounded_mono (by linarith))
      · simp only [hil, if_false, add_zero]
        have hilt : i < sa.ts.length := by
          rw [← F.len]; exact (List.getElem?_eq_some_iff.mp ht).1
        obtain ⟨t', h1, h2⟩ := F.inactive (List.getElem?_eq_getElem hilt) hil
        rw [ht] at h1
        have h1 := Option.some.inj h1
        subst h1
        obtain ⟨a1, a2, a3⟩ := hA i _ (List.getElem?_eq_getElem hilt)
        have hnl : i ∉ sa.live := fun hcc => hil ((F.mem_live1 i).mpr (Or.inl hcc))
        have hqq : i ∈ sb.queue.map (·.2) ↔ i ∈ sa.queue.map (·.2) := by
          constructor
          · intro hcc
            obtain ⟨⟨o, j⟩, hx, rfl⟩ := List.mem_map.mp hcc
            exact List.mem_map_of_mem (f := (·.2)) ((F.queue_eq (o, j)).mp hx).1
          · intro hcc
            obtain ⟨⟨o, j⟩, hx, rfl⟩ := List.mem_map.mp hcc
            refine List.mem_map_of_mem (f := (·.2)) ((F.queue_eq (o, j)).mpr ⟨hx, ?_⟩)
            by_contra hdd
            exact hil ((F.mem_live1 j).mpr (Or.inr ⟨o, hx, by simpa using hdd⟩))
        refine ⟨fun hcq => a1 (hqq.mp hcq), ?_, ?_⟩
        · intro hcc
          exfalso
          rw [congrArg Sim.live F.P.res] at hcc
          exact hil (List.mem_filter.mp hcc).1
        · intro hcq
          have := a3 (fun hx => hcq (hqq.mpr hx))
          rw [h2]
          exact this
    · have hdvd := hsa.dvd
      rw [ecpt] at hdvd
      have hk : (c + cpt) / cpt = c / cpt + 1 := Nat.add_div_right c hpos
      have hck2 : (c / cpt + 1) * cpt = c + cpt := by
        rw [Nat.add_mul, Nat.div_mul_cancel hdvd, Nat.one_mul]
      have hrec : recordedBy f cpt (setHist hist (c + cpt) (F.P.g2, F.P.s1.live)) l (c + cpt) =
          recordedBy f cpt hist l c + cpt * f ((F.P.g2.link[l.toNat]?).getD 0) := by
        unfold recordedBy
        rw [hk, List.range_succ, List.map_append, List.sum_append]
        congr 1
        · congr 1
          apply List.map_congr_left
          intro k hkm
          have hkm := List.mem_range.mp hkm
          have : (k + 1) * cpt ≠ c + cpt := by
            have : (k + 1) * cpt ≤ c / cpt * cpt := Nat.mul_le_mul_right _ hkm
            rw [Nat.div_mul_cancel hdvd] at this
            omega
          unfold setHist
          rw [if_neg this]
        · simp only [List.map_cons, List.map_nil, List.sum_cons, List.sum_nil, add_zero]
          rw [hck2]
          unfold setHist
          rw [if_pos rfl]
      rw [ecpt, hrec]
      have hsplit : ((List.range s0.ts.length).map fun i => occurs s0 l i * (A i + if i ∈ F.P.s1.live then
          (match F.P.ts2[i]? with
            | some t => (cpt : ℚ) * (share c (c + cpt) t * t.bw)
            | none => 0) else 0)).sum =
          ((List.range s0.ts.length).map fun i => occurs s0 l i * A i).sum +
          cpt * offered (fun t => t.route.count l) c (c + cpt) F.P.ts2 F.P.s1.live := by
        unfold offered
        rw [← List.sum_map_mul_left, sum_live (g := fun i => occurs s0 l i * if i ∈ F.P.s1.live then
          (match F.P.ts2[i]? with
            | some t => (cpt : ℚ) * (share c (c + cpt) t * t.bw)
            | none => 0) else 0) hn1 hlt1, ← List.sum_map_add]
        · congr 1
          apply List.map_congr_left
          intro i _
          ring
        · intro i hi
          obtain ⟨t0, ta, t2, tb, b1, b2, M, b3, b4, _⟩ := hlive i hi
          unfold occurs
          simp only [b1, b2, hi, if_true]
          rw [b4]
          ring
        · intro i _ hi
          simp [hi]
      rw [hsplit]
      have hq : (0 : ℚ) < cpt := by exact_mod_cast hpos
      have := mul_le_mul_of_nonneg_left hfl hq.le
      linarith

/-- A transfer that ends in cycle 0 has moved nothing in its last timestep. -/
theorem transferEnd_zero {fp : FP} {sot : Nat} {t : TState} {bytes : Nat}
    (h : transferEnd fp sot t bytes = .ok 0) (hbw : 0 ≤ t.bw) : bytes = 0 := by
  by_contra hb
  have hb1 : (1 : ℚ) ≤ bytes := by exact_mod_cast Nat.one_le_iff_ne_zero.mpr hb
  unfold transferEnd at h
  simp only at h
  split at h
  · simp at h
  next hne =>
    obtain ⟨_, _, he⟩ := toSize_ok h
    have hp : 0 < t.bw := lt_of_le_of_ne hbw (Ne.symm hne)
    have h1 : 1 ≤ fp.f32.fl (bytes : ℚ) := fp.f32.one_le_fl hb1
    have h2 : 0 < fp.f32.fl (bytes : ℚ) / t.bw := div_pos (by linarith) hp
    have h3 : 0 < fp.f32.fl (fp.f32.fl (bytes : ℚ) / t.bw) := by
      have := fp.f32.fl_ge_err h2.le
      nlinarith
    generalize fp.f32.fl (fp.f32.fl (bytes : ℚ) / t.bw) = x at h3 he
    have h4 : 1 ≤ x.ceil := by
      by_contra hcc
      have : x ≤ ((0 : Int) : ℚ) := Rat.ceil_le_iff.mp (by omega)
      push_cast at this
      linarith
    have h5 : (1 : ℚ) ≤ fp.f32.fl ((max t.start sot : Nat) : ℚ) + ((x.ceil : Int) : ℚ) := by
      have a1 : (1 : ℚ) ≤ ((x.ceil : Int) : ℚ) := by exact_mod_cast h4
      have a2 := fp.f32.fl_nonneg (x := ((max t.start sot : Nat) : ℚ)) (by positivity)
      linarith
    have h6 := fp.f32.one_le_fl h5
    have h7 : (1 : Int) ≤ (fp.f32.fl (fp.f32.fl ((max t.start sot : Nat) : ℚ) + ((x.ceil : Int) : ℚ))).floor :=
      Rat.le_floor_iff.mpr (by exact_mod_cast h6)
    omega

/-- The last timestep of a run: with any rounding, a transfer ends at most 24 cycles before it, if there are transfers; and if it is the first timestep as well,
transfers that end in cycle 0 carry no data. -/
theorem Spec.Reach.last_rounded {fp : FP} {dev : Device} (hT : TableOk fp dev.tbt) (hc : Capacities dev) {cpt : Nat} (hpos : 0 < cpt) (hcpt : cpt ≤ 25000000)
    {golden : GoldenMap} {ho : HashOrder} {wl : Workload} {s0 : Sim}
    (h0 : initSim fp dev ho wl = .ok s0) {c : Nat} {s : Sim}
    (hinj : ∀ t ∈ wl.transfers, Props.SaneRate fp t)
    (hs : Reach (simConfig fp dev cpt golden true) s0 c s) (hc0 : 0 < c) (hlive : s.live = []) (hqueue : s.queue = []) :
    ∃ c0, c = c0 + cpt ∧ cpt ∣ c0 ∧ (s.ts = [] ∨ ∃ (i : Nat) (t : TState), s.ts[i]? = some t ∧ c0 ≤ t.endc + 24) ∧
      (c0 = 0 → ∀ (i : Nat) t, s.ts[i]? = some t → t.endc = 0 → t.params.totalBytes = 0) := by
  have hr : RatesOk (simConfig fp dev cpt golden true).rates := computeRates_ok fp dev true
  have hinv := init_inv h0
  have I := (initSim_ok h0).1
  cases hs with
  | start => omega
  | @step c sa sb hsa hcl h =>
    have hia := hsa.inv hr hinv
    have hck := hsa.clock_le (show (simConfig fp dev cpt golden true).cpt ≤ 1000000000 by change cpt ≤ _; omega)
    have ecpt : (simConfig fp dev cpt golden true).cpt = cpt := rfl
    change stepSim _ (c + cpt) sa = .ok s at h
    obtain ⟨F⟩ := step_facts hr (Nat.le_add_right c cpt) hia h
    have hdq : ∀ x ∈ sa.queue, x.2 ∈ F.P.s1.live := by
      intro x hx
      by_contra hcc
      have : x ∈ s.queue := (F.queue_eq x).mpr ⟨hx, by
        by_contra hdd
        exact hcc ((F.mem_live1 x.2).mpr (Or.inr ⟨x.1, hx, by simpa using hdd⟩))⟩
      rw [hqueue] at this
      simp at this
    have hn1 : F.P.s1.live.Nodup := (List.nodup_append.mp F.inv1.nodup).2.1
    have hrates : computeRates fp dev true c (c + cpt) F.P.s1.grids F.P.s1.ts F.P.s1.live = .ok (F.P.ts2, F.P.g2) := by
      have := F.P.rates
      rw [ecpt, Nat.add_sub_cancel] at this
      exact this
    have hbw0 : ∀ i ∈ F.P.s1.live, ∀ t2, F.P.ts2[i]? = some t2 → 0 ≤ t2.bw := by
      refine rates_nonneg hT hc (Nat.le_add_right c cpt) hn1 (fun i hi t1 h1 => ?_) hrates
      obtain ⟨ta, t2, tb, h2, M⟩ := F.member_rates hi
      obtain ⟨t0, b1, b2, _⟩ := hsa.static_get hr hinv M.before
      have e := F.only2 i t1 t2 h1 h2
      have e1 : t2.start = t1.start := by rw [e]
      have e2 : t2.params = t1.params := by rw [e]
      have e3 : t2.params = ta.params := by rw [M.same]
      rw [← e1, ← e2, e3, ← b2]
      exact ⟨M.started.start_le.2, hinj _ (I.slots i t0 b1).1⟩
    have hone : ∀ i ∈ F.P.s1.live, ∃ ta t, sa.ts[i]? = some ta ∧ s.ts[i]? = some t ∧ c ≤ t.endc + 24 ∧
        t.params = ta.params ∧ (t.endc = 0 → ta.moved = t.params.totalBytes) := by
      intro i hi
      obtain ⟨ta, t2, t, h2, M⟩ := F.member_rates hi
      obtain ⟨cyc, mx, h3, h4, h5⟩ := M.ended
      rw [ecpt, Nat.add_sub_cancel] at h3 h5
      have hp0 : t2.params = ta.params := by rw [M.same]
      have hm0 : t2.moved = ta.moved := by rw [M.same]
      rcases h5 with ⟨_, hl, _⟩ | ⟨htot, _, e, he, ht⟩
      · rw [hlive] at hl; simp at hl
      · have hb2 := hbw0 i hi t2 h2
        have hcl := cyclesActive_le h3 M.started.start_le.2 rfl (by omega)
        have hee := transferEnd_near he h4 (min_le_right _ _) (by omega)
        have hge := transferEnd_ge he hb2 (by omega)
        have hmod : e % 4294967296 = e := Nat.mod_eq_of_lt (by omega)
        refine ⟨ta, t, M.before, M.after, ?_, by rw [ht]; exact hp0, ?_⟩
        · rw [ht]; simp only; rw [hmod]; omega
        · intro hz
          rw [ht] at hz ⊢
          simp only at hz ⊢
          rw [hmod] at hz
          rw [hz] at he
          rw [transferEnd_zero he hb2, Nat.add_zero] at htot
          rw [← hm0]; exact htot
    have hall : c = 0 → ∀ i, i < s.ts.length → i ∈ F.P.s1.live := by
      intro hc0 i hi
      have hz : sa = s0 := hsa.first hpos hc0
      have hi0 : i ∈ sa.queue.map (·.2) := by
        rw [hz]
        exact I.queue.symm.subset (List.mem_range.mpr (by rw [← hz, ← F.len]; exact hi))
      obtain ⟨x, hx, rfl⟩ := List.mem_map.mp hi0
      exact hdq x hx
    refine ⟨c, rfl, hsa.dvd, ?_, ?_⟩
    · by_cases hts : s.ts = []
      · exact Or.inl hts
      · right
        have hex : ∃ i, i ∈ F.P.s1.live := by
          by_cases hc0 : c = 0
          · exact ⟨0, hall hc0 0 (List.length_pos_iff.mpr hts)⟩
          · have hcl2 := (hcl.resolve_left hc0).2
            cases hll : sa.live with
            | cons i l => exact ⟨i, (F.mem_live1 i).mpr (Or.inl (by rw [hll]; simp))⟩
            | nil =>
              cases hqq : sa.queue with
              | nil => exact absurd ⟨hll, hqq⟩ hcl2
              | cons x q => exact ⟨x.2, hdq x (by rw [hqq]; simp)⟩
        obtain ⟨i, hi⟩ := hex
        obtain ⟨ta, t, _, b2, b3, _⟩ := hone i hi
        exact ⟨i, t, b2, b3⟩
    · intro hc0 i t ht hz
      obtain ⟨ta, t', b1, b2, _, b4, b5⟩ := hone i (hall hc0 i (List.getElem?_eq_some_iff.mp ht).1)
      rw [ht] at b2
      have e := Option.some.inj b2
      subst e
      have hz0 : sa = s0 := hsa.first hpos hc0
      rw [← b5 hz]
      rw [hz0] at b1
      exact (I.slots i ta b1).2.2.2.2.2

end NPE
