import Verif.Proofs.Bottleneck
import Verif.Proofs.FluidShared
import Verif.Proofs.Credit
import Verif.Proofs.Finish
import Verif.Props.Limit
import Mathlib.Algebra.BigOperators.Ring.List

/-
The recorded demand of a link against the data that pass it, in exact arithmetic.
-/

namespace NPE
open Spec Spec.Fluid

/-- What the active transfers send over a link in a timestep is at most the recorded demand and at most the bandwidth
of the link. -/
theorem rates_flow {dev : Device} (hd : DeviceOk dev) (hT : TableOk .exact dev.tbt) (hc : Capacities dev)
    {sot curr : Nat} (hle : sot ≤ curr) (hcurr : curr < 4294967296) {g g' : Grids} {ts ts' : List TState}
    {live : List Nat} (hn : live.Nodup)
    (hs : ∀ i ∈ live, ∀ t, ts[i]? = some t → t.start ≤ curr ∧ 0 ≤ t.params.injectionRate ∧ RectsOk t.params)
    (h : computeRates .exact dev true sot curr g ts live = .ok (ts', g')) :
    (∀ i ∈ live, ∀ t, ts'[i]? = some t → 0 ≤ t.bw) ∧
    ∀ a l, dev.getLinkID a = .ok l →
      offered (fun t => t.route.count l) sot curr ts' live ≤ min ((g'.link[l.toNat]?).getD 0) dev.linkBw := by
  unfold computeRates at h
  obtain ⟨ts1, h1, h⟩ := Out.bind_eq_ok.mp h
  simp only [if_true] at h
  have w1 := updateTransferBandwidth_written hn h1
  obtain ⟨p1, _, p3⟩ := modelCongestion_parts hn h
  have hone : ∀ j ∈ live, ∀ u, ts1[j]? = some u → u.start ≤ curr ∧ 0 ≤ u.bw ∧ 0 ≤ u.params.injectionRate ∧
      RectsOk u.params := by
    intro j hj u hu
    obtain ⟨t, b, a1, a2, a3⟩ := w1.2.2 j hj
    rw [hu] at a3
    obtain ⟨s1, s2, s3⟩ := hs j hj t a1
    rw [Option.some.inj a3]
    exact ⟨s1, (tableBw_ok hT a2).1 s2, s2, s3⟩
  have hsane : Sane curr ts1 live := ⟨hn, fun j hj u hu =>
    ⟨(hone j hj u hu).1, (hone j hj u hu).2.1, (hone j hj u hu).2.2.1⟩⟩
  have hrect : ∀ j ∈ live, ∀ u, ts1[j]? = some u → RectsOk u.params := fun j hj u hu => (hone j hj u hu).2.2.2
  have hoff : ∀ w, 0 ≤ offered w sot curr ts1 live := fun w =>
    offered_nonneg fun j hj u hu => mul_nonneg (share_nonneg hle (hone j hj u hu).1) (hone j hj u hu).2.1
  have hfac : ∀ j ∈ live, ∃ t q, ts1[j]? = some t ∧ ts'[j]? = some { t with bw := t.bw * q } ∧ 0 ≤ q ∧ q ≤ 1 ∧
      ∀ l ∈ t.route, q ≤ served dev.linkBw (offered (fun u => u.route.count l) sot curr ts1 live) := by
    intro j hj
    obtain ⟨t, b, a1, _, a3⟩ := p3.2.2 j hj
    obtain ⟨q, e1, e2, e3, e4⟩ := modelCongestion_least hd hc.1 hle hcurr hsane hrect h hj a1 a3
    refine ⟨t, q, a1, ?_, ?_, e2, fun l hl => e3 _ _ (.link l hl)⟩
    · rw [a3]
      simp only at e1
      rw [e1]
    · rcases e4 with e4 | ⟨cap, w, hp, e4⟩
      · rw [e4]; norm_num
      · rw [e4]
        have h0 : 0 ≤ cap := by
          cases hp with
          | link l _ => exact hc.1
          | source => exact (hone j hj t a1).2.2.1
          | sink d a _ ha =>
            unfold Device.getSinkAbsorptionRate at ha
            obtain ⟨ct, _, ha⟩ := Out.bind_eq_ok.mp ha
            rw [← Out.ok.inj ha]
            exact hc.2.2 _
        unfold served
        split
        · norm_num
        · exact div_nonneg h0 (hoff w)
  refine ⟨?_, ?_⟩
  · intro i hi t ht
    obtain ⟨u, q, a1, a2, a3, _⟩ := hfac i hi
    rw [ht] at a2
    rw [Option.some.inj a2]
    exact mul_nonneg (hone i hi u a1).2.1 a3
  · intro a l hl
    have hX := (Props.C66_demands dev hd sot curr hle hcurr ts1 ts' live g' hn
      (fun j hj u hu => ⟨(hone j hj u hu).1, hrect j hj u hu⟩) h).1 a l hl
    rw [hX, Option.getD_some]
    set X := offered (fun t => t.route.count l) sot curr ts1 live with hXd
    have hcmp : ∀ θ : ℚ, (∀ j ∈ live, ∀ t q, ts1[j]? = some t → ts'[j]? = some { t with bw := t.bw * q } →
        l ∈ t.route → q ≤ 1 → q ≤ served dev.linkBw X → q ≤ θ) →
        offered (fun t => t.route.count l) sot curr ts' live ≤ θ * X := by
      intro θ hθ
      rw [hXd]
      unfold offered
      rw [← List.sum_map_mul_left]
      refine List.sum_le_sum fun j hj => ?_
      obtain ⟨t, q, a1, a2, a3, a4, a5⟩ := hfac j hj
      simp only [a1, a2]
      have hsh : share sot curr { t with bw := t.bw * q } = share sot curr t := rfl
      rw [hsh]
      have hs0 := share_nonneg hle (hone j hj t a1).1
      have hb0 := (hone j hj t a1).2.1
      by_cases hm : l ∈ t.route
      · have hq := hθ j hj t q a1 a2 hm a4 (a5 l hm)
        have : 0 ≤ (t.route.count l : ℚ) * (share sot curr t * t.bw) := by positivity
        calc (t.route.count l : ℚ) * (share sot curr t * (t.bw * q)) =
            q * ((t.route.count l : ℚ) * (share sot curr t * t.bw)) := by ring
          _ ≤ _ := mul_le_mul_of_nonneg_right hq this
      · rw [List.count_eq_zero.mpr hm]; simp
    refine le_min ?_ ?_
    · have := hcmp 1 (fun _ _ _ _ _ _ _ h _ => h)
      rwa [one_mul] at this
    · by_cases h0 : X = 0
      · have := hcmp 1 (fun _ _ _ _ _ _ _ h _ => h)
        rw [h0, mul_zero] at this
        exact this.trans hc.1
      · have := hcmp (dev.linkBw / X) (fun _ _ _ _ _ _ _ _ h => by unfold served at h; rwa [if_neg h0] at h)
        rwa [div_mul_cancel₀ _ h0] at this

/-- How often a link occurs in the route of transfer `i`. -/
def occurs (s : Sim) (l : Int) (i : Nat) : ℚ :=
  match s.ts[i]? with
  | some t => (t.route.count l : ℚ)
  | none => 0

/-- What the records up to cycle `c` say about a link, in bytes. -/
def recorded (dev : Device) (cpt : Nat) (hist : Nat → Grids × List Nat) (l : Int) (c : Nat) : ℚ :=
  ((List.range (c / cpt)).map fun k =>
    (cpt : ℚ) * min (((hist ((k + 1) * cpt)).1.link[l.toNat]?).getD 0) dev.linkBw).sum

/-- A transfer that is not waiting has a dependency that does not change in the timestep. -/
theorem StepFacts.live_dep_same {cfg : SimCfg} {prev curr : Nat} {s s' : Sim}
    (F : StepFacts cfg prev curr s s') {i : Nat} {t2 : TState} (hl : i ∈ F.P.s1.live)
    (h2 : F.P.ts2[i]? = some t2) :
    s'.deps.get t2.dependsOn = s.deps.get t2.dependsOn := by
  have hnd := F.inv2.nodup
  by_cases hne : t2.dependsOn = -1
  · rw [hne]; rfl
  · have hq : i ∉ F.P.s1.queue.map (·.2) := fun hc => (List.nodup_append.mp hnd).2.2 i hc i hl rfl
    obtain ⟨p, tp, hp, hj, hpq, hpl⟩ := F.inv2.done_provider h2 hne (F.inv2.started i t2 h2 hq).2.1
    have hj0 := F.inv2.rbValid p _ hp _ hj
    rw [← F.deps1]
    apply Tracker.get_congr
    rw [congrArg Sim.deps F.P.res]
    show F.P.u.deps[t2.dependsOn.toNat]? = _
    refine foldUpd_deps_same _ _ _ F.P.fold ?_
    intro i' hi' t' ht' hc
    rw [Int.toNat_of_nonneg hj0] at hc
    have := provider_unique F.inv2.rbNodup hp ht' hj hc
    subst this
    exact hpl hi'

/-- The cycles that are credited in a timestep are those in which the transfer is active, up to the extra credit. -/
theorem cyc_le_share {cpt c cyc : Nat} {t : TState} {deps : Tracker} (hpos : 0 < cpt)
    (h : cyclesActive cpt (c + cpt) c t deps = .ok cyc) (hst : t.start ≤ c + cpt) (h32 : c + cpt < 4294967296) :
    (cyc : ℚ) + slack cpt c deps t ≤ cpt * share c (c + cpt) t + slack cpt (c + cpt) deps t := by
  have hq : (0 : ℚ) < cpt := by exact_mod_cast hpos
  have hsh : (cpt : ℚ) * share c (c + cpt) t = ((c + cpt : Nat) : ℚ) - (max c t.start : Nat) := by
    unfold share
    push_cast
    rw [add_sub_cancel_left]
    field_simp
  rw [hsh]
  rcases cyclesActive_cases h hst rfl h32 with e | ⟨cp, _, hcp, hlt, _, h7, h8, e⟩
  · have : cyc + max c t.start = c + cpt := by omega
    have h1 : (cyc : ℚ) + (max c t.start : Nat) = ((c + cpt : Nat) : ℚ) := by exact_mod_cast this
    have := slack_mono (cpt := cpt) (deps := deps) (t := t) (Nat.le_add_right c cpt)
    linarith
  · have e1 : slack cpt c deps t = 0 := by
      unfold slack; rw [hcp]; simp only; rw [if_pos (by omega)]
    have e2 : slack cpt (c + cpt) deps t = cpt := by
      unfold slack; rw [hcp]; simp only; rw [if_neg (by omega)]
    rw [e1, e2]
    have h1 : cyc + max c t.start ≤ c + cpt + cpt := by omega
    have h2 : (cyc : ℚ) + (max c t.start : Nat) ≤ ((c + cpt : Nat) : ℚ) + cpt := by exact_mod_cast h1
    linarith

/-- The account of a run: every transfer has moved what it sent over its links, up to the extra credit of one timestep,
and the links have recorded what was sent over them. -/
theorem Spec.Reach.account {dev : Device} (hd : DeviceOk dev) (hT : TableOk .exact dev.tbt) (hc : Capacities dev)
    {cpt : Nat} (hpos : 0 < cpt) (hcpt : cpt ≤ 1000000000) {golden : GoldenMap} {ho : HashOrder} {wl : Workload}
    (hon : OnChips dev wl.transfers) (hinj : ∀ t ∈ wl.transfers, 0 ≤ t.injectionRate)
    (hrect : ∀ t ∈ wl.transfers, RectsOk t) {s0 : Sim} (h0 : initSim .exact dev ho wl = .ok s0) {a : LinkAttr} {l : Int}
    (hl : dev.getLinkID a = .ok l) {c : Nat} {s : Sim} (hs : Reach (simConfig .exact dev cpt golden true) s0 c s) :
    ∃ (hist : Nat → Grids × List Nat) (A : Nat → ℚ), StatsInv (simConfig .exact dev cpt golden true) hist c s ∧
      Sized dev s.grids ∧ (∀ k, Sized dev (hist k).1) ∧
      (∀ (i : Nat) t, s.ts[i]? = some t →
        (i ∈ s.queue.map (·.2) → A i = 0) ∧
        (i ∈ s.live → (t.moved : ℚ) ≤ A i + Props.aloneBw .exact dev t.params * slack cpt c s.deps t) ∧
        (i ∉ s.queue.map (·.2) → (t.moved : ℚ) ≤ A i + Props.aloneBw .exact dev t.params *
          if t.dependsOn = -1 then 0 else (cpt : ℚ))) ∧
      ((List.range s0.ts.length).map fun i => occurs s0 l i * A i).sum ≤ recorded dev cpt hist l c := by
  have hr : RatesOk (simConfig .exact dev cpt golden true).rates := computeRates_ok .exact dev true
  have hinv := init_inv h0
  have I := (initSim_ok h0).1
  induction hs with
  | start =>
    refine ⟨fun _ => (initGrids dev, []), fun _ => 0, statsInv_init (cfg := simConfig .exact dev cpt golden true) h0 _,
      ?_, fun _ => sized_init dev, ?_, ?_⟩
    · rw [I.grids]; exact sized_init dev
    · intro i t ht
      refine ⟨fun _ => rfl, ?_, ?_⟩
      · intro h; rw [I.live] at h; simp at h
      · intro h
        exact absurd (I.queue.symm.subset (List.mem_range.mpr (List.getElem?_eq_some_iff.mp ht).1)) h
    · simp [recorded]
  | @step c sa sb hsa hcl h ih =>
    obtain ⟨hist, A, hst, hgs, hsz, hA, hsum⟩ := ih
    have hia := hsa.inv hr hinv
    have hck := hsa.clock_le hcpt
    change stepSim _ (c + cpt) sa = .ok sb at h
    obtain ⟨F⟩ := step_facts hr (Nat.le_add_right c cpt) hia h
    have ecpt : (simConfig .exact dev cpt golden true).cpt = cpt := rfl
    have hn1 : F.P.s1.live.Nodup := (List.nodup_append.mp F.inv1.nodup).2.1
    have hrates : computeRates .exact dev true c (c + cpt) F.P.s1.grids F.P.s1.ts F.P.s1.live = .ok (F.P.ts2, F.P.g2) := by
      have := F.P.rates
      rw [ecpt, Nat.add_sub_cancel] at this
      exact this
    have hsz2 : Sized dev F.P.g2 := sized_rates hn1 (by rw [F.grids1]; exact hgs) hrates
    have hlen1 : F.P.s1.ts.length = sa.ts.length := by rw [F.ts1, updIds_length]
    have hlena : sa.ts.length = s0.ts.length := by
      have := hsa.static hr hinv
      apply le_antisymm
      · by_contra hcon
        obtain ⟨t0, b1, _⟩ := hsa.static_get hr hinv (List.getElem?_eq_getElem (show s0.ts.length < sa.ts.length by omega))
        exact absurd (List.getElem?_eq_some_iff.mp b1).1 (by omega)
      · by_contra hcon
        obtain ⟨t0, b1, _⟩ := hsa.static_get' hr hinv (List.getElem?_eq_getElem (show sa.ts.length < s0.ts.length by omega))
        exact absurd (List.getElem?_eq_some_iff.mp b1).1 (by omega)
    have hlt1 : ∀ i ∈ F.P.s1.live, i < s0.ts.length := fun i hi => by
      have := F.inv1.lt i (List.mem_append_right _ hi)
      omega
    -- the active transfers
    have hlive : ∀ i ∈ F.P.s1.live, ∃ t0 ta t2 tb, s0.ts[i]? = some t0 ∧ F.P.ts2[i]? = some t2 ∧
        Member (simConfig .exact dev cpt golden true) (c + cpt) sa sb i ta t2 tb ∧ t0.params = t2.params ∧
        t0.route = t2.route ∧ 0 ≤ t2.params.injectionRate ∧ RectsOk t2.params := by
      intro i hi
      obtain ⟨ta, t2, tb, h2, M⟩ := F.member_rates hi
      obtain ⟨t0, b1, b2, b3, _⟩ := hsa.static_get hr hinv M.before
      have e1 : t2.params = ta.params := by rw [M.same]
      have e2 : t2.route = ta.route := by rw [M.same]
      have hm := (I.slots i t0 b1).1
      refine ⟨t0, ta, t2, tb, b1, h2, M, by rw [b2, e1], by rw [b3, e2], ?_, ?_⟩
      · rw [e1, ← b2]; exact hinj _ hm
      · rw [e1, ← b2]; exact hrect _ hm
    obtain ⟨hbw0, hflow⟩ := rates_flow hd hT hc (Nat.le_add_right c cpt) (by omega) hn1 (fun i hi t1 h1 => by
      obtain ⟨t0, ta, t2, tb, b1, b2, M, b3, b4, b5, b6⟩ := hlive i hi
      have e := F.only2 i t1 t2 h1 b2
      have e1 : t2.start = t1.start := by rw [e]
      have e2 : t2.params = t1.params := by rw [e]
      rw [← e1, ← e2]
      exact ⟨M.started.start_le.2, b5, b6⟩) hrates
    have hfl := hflow a l hl
    refine ⟨setHist hist (c + cpt) (F.P.g2, F.P.s1.live), fun i => A i + if i ∈ F.P.s1.live then
      (match F.P.ts2[i]? with
        | some t => (cpt : ℚ) * (share c (c + cpt) t * t.bw)
        | none => 0) else 0, statsInv_step hd hpos hsa.dvd hst F ?_ hsz2, ?_, ?_, ?_, ?_⟩
    · intro i t hi
      obtain ⟨t0, b1, b2, _⟩ := hsa.static_get hr hinv hi
      rw [← b2]; exact init_onChips h0 hon i t0 b1
    · rw [F.P.res]; exact hsz2
    · intro k
      unfold setHist
      split
      · exact hsz2
      · exact hsz k
    · intro i t ht
      by_cases hil : i ∈ F.P.s1.live
      · obtain ⟨t0, ta, t2, tb, b1, b2, M, b3, b4, b5, b6⟩ := hlive i hil
        have e := M.after
        rw [ht] at e
        have e := Option.some.inj e
        subst e
        have hK0 := Props.aloneBw_nonneg hT t2.params ⟨b5, rfl⟩
        have hK := Props.within_alone hT true _ _ _ _ _ _ _ hn1 hrates i t2 hil b2 ⟨b5, rfl⟩
        have hq := M.notWaiting
        simp only [hil, if_true, b2]
        obtain ⟨cyc, mx, h3, h4, h5⟩ := M.ended
        rw [ecpt, Nat.add_sub_cancel] at h3
        have hkey := cyc_le_share hpos h3 M.started.start_le.2 (by omega)
        have hm0 : t2.moved = ta.moved := by rw [M.same]
        have hd0 : t2.dependsOn = ta.dependsOn := by rw [M.same]
        have hp0 : t2.params = ta.params := by rw [M.same]
        have hpt : t.params = t2.params := by
          rcases h5 with ⟨_, _, e⟩ | ⟨_, _, _, _, e⟩ <;> rw [e]
        have hdt : t.dependsOn = t2.dependsOn := by
          rcases h5 with ⟨_, _, e⟩ | ⟨_, _, _, _, e⟩ <;> rw [e]
        set K := Props.aloneBw .exact dev t2.params with hKd
        have hprev : (t2.moved : ℚ) ≤ A i + K * slack cpt c sa.deps t2 := by
          by_cases hla : i ∈ sa.live
          · have := (hA i ta M.before).2.1 hla
            rw [hm0, hKd, hp0]
            have hsl : slack cpt c sa.deps t2 = slack cpt c sa.deps ta := by unfold slack; rw [hd0]
            rw [hsl]; exact this
          · rcases (F.mem_live1 i).mp hil with hcc | ⟨o, hcc, _⟩
            · exact absurd hcc hla
            · rw [hm0, (hia.waiting _ hcc ta M.before).2.2, Nat.cast_zero,
                (hA i ta M.before).1 (List.mem_map_of_mem (f := (·.2)) hcc), zero_add]
              exact mul_nonneg hK0 (slack_nonneg _ _ _ _)
        have hb2 := hbw0 i hil t2 b2
        have hbytes : ((min (t2.params.totalBytes - t2.moved) mx : Nat) : ℚ) ≤ cyc * t2.bw := by
          obtain ⟨_, _, hmx⟩ := toSize_ok h4
          have hx0 : (0 : ℚ) ≤ cyc * t2.bw := by positivity
          have h1 : (mx : ℚ) ≤ cyc * t2.bw := by rw [hmx]; exact toNat_floor_le hx0
          have h2 : ((min (t2.params.totalBytes - t2.moved) mx : Nat) : ℚ) ≤ mx := by exact_mod_cast min_le_right _ _
          linarith
        have hmoved : (t.moved : ℚ) = t2.moved + ((min (t2.params.totalBytes - t2.moved) mx : Nat) : ℚ) := by
          rcases h5 with ⟨_, _, e⟩ | ⟨htot, _, _, _, e⟩
          · rw [e]; push_cast; rfl
          · have : t.moved = t2.moved + min (t2.params.totalBytes - t2.moved) mx := by rw [e]; exact htot.symm
            rw [this]; push_cast; rfl
        have hmain : (t.moved : ℚ) ≤ A i + (cpt : ℚ) * (share c (c + cpt) t2 * t2.bw) +
            K * slack cpt (c + cpt) sa.deps t2 := by
          rw [hmoved]
          have hmo := slack_mono (cpt := cpt) (deps := sa.deps) (t := t2) (Nat.le_add_right c cpt)
          have x1 : (cyc : ℚ) * t2.bw ≤ (cpt * share c (c + cpt) t2 +
              (slack cpt (c + cpt) sa.deps t2 - slack cpt c sa.deps t2)) * t2.bw :=
            mul_le_mul_of_nonneg_right (by linarith) hb2
          have x2 : (slack cpt (c + cpt) sa.deps t2 - slack cpt c sa.deps t2) * t2.bw ≤
              (slack cpt (c + cpt) sa.deps t2 - slack cpt c sa.deps t2) * K :=
            mul_le_mul_of_nonneg_left hK (by linarith)
          nlinarith
        have hds := F.live_dep_same hil b2
        have hsl : slack cpt (c + cpt) sb.deps t = slack cpt (c + cpt) sa.deps t2 := by
          unfold slack
          rw [hdt, hds]
        refine ⟨fun hcq => absurd hcq hq, ?_, ?_⟩
        · intro _
          rw [hpt, ecpt, hsl]; exact hmain
        · intro _
          rw [hpt, hdt]
          have := mul_le_mul_of_nonneg_left (slack_le cpt (c + cpt) sa.deps t2) hK0
          linarith
      · simp only [hil, if_false, add_zero]
        have hilt : i < sa.ts.length := by
          rw [← F.len]; exact (List.getElem?_eq_some_iff.mp ht).1
        obtain ⟨t', h1, h2⟩ := F.inactive (List.getElem?_eq_getElem hilt) hil
        rw [ht] at h1
        have h1 := Option.some.inj h1
        subst h1
        obtain ⟨a1, a2, a3⟩ := hA i _ (List.getElem?_eq_getElem hilt)
        have hnl : i ∉ sa.live := fun hcc => hil ((F.mem_live1 i).mpr (Or.inl hcc))
        have hqq : i ∈ sb.queue.map (·.2) ↔ i ∈ sa.queue.map (·.2) := by
          constructor
          · intro hcc
            obtain ⟨⟨o, j⟩, hx, rfl⟩ := List.mem_map.mp hcc
            exact List.mem_map_of_mem (f := (·.2)) ((F.queue_eq (o, j)).mp hx).1
          · intro hcc
            obtain ⟨⟨o, j⟩, hx, rfl⟩ := List.mem_map.mp hcc
            refine List.mem_map_of_mem (f := (·.2)) ((F.queue_eq (o, j)).mpr ⟨hx, ?_⟩)
            by_contra hdd
            exact hil ((F.mem_live1 j).mpr (Or.inr ⟨o, hx, by simpa using hdd⟩))
        refine ⟨fun hcq => a1 (hqq.mp hcq), ?_, ?_⟩
        · intro hcc
          exfalso
          rw [congrArg Sim.live F.P.res] at hcc
          exact hil (List.mem_filter.mp hcc).1
        · intro hcq
          have := a3 (fun hx => hcq (hqq.mpr hx))
          rw [h2]
          exact this
    · have hdvd := hsa.dvd
      rw [ecpt] at hdvd
      have hk : (c + cpt) / cpt = c / cpt + 1 := Nat.add_div_right c hpos
      have hck2 : (c / cpt + 1) * cpt = c + cpt := by
        rw [Nat.add_mul, Nat.div_mul_cancel hdvd, Nat.one_mul]
      have hrec : recorded dev cpt (setHist hist (c + cpt) (F.P.g2, F.P.s1.live)) l (c + cpt) =
          recorded dev cpt hist l c + cpt * min ((F.P.g2.link[l.toNat]?).getD 0) dev.linkBw := by
        unfold recorded
        rw [hk, List.range_succ, List.map_append, List.sum_append]
        congr 1
        · congr 1
          apply List.map_congr_left
          intro k hkm
          have hkm := List.mem_range.mp hkm
          have : (k + 1) * cpt ≠ c + cpt := by
            have : (k + 1) * cpt ≤ c / cpt * cpt := Nat.mul_le_mul_right _ hkm
            rw [Nat.div_mul_cancel hdvd] at this
            omega
          unfold setHist
          rw [if_neg this]
        · simp only [List.map_cons, List.map_nil, List.sum_cons, List.sum_nil, add_zero]
          rw [hck2]
          unfold setHist
          rw [if_pos rfl]
      rw [ecpt, hrec]
      have hsplit : ((List.range s0.ts.length).map fun i => occurs s0 l i * (A i + if i ∈ F.P.s1.live then
          (match F.P.ts2[i]? with
            | some t => (cpt : ℚ) * (share c (c + cpt) t * t.bw)
            | none => 0) else 0)).sum =
          ((List.range s0.ts.length).map fun i => occurs s0 l i * A i).sum +
          cpt * offered (fun t => t.route.count l) c (c + cpt) F.P.ts2 F.P.s1.live := by
        unfold offered
        rw [← List.sum_map_mul_left, sum_live (g := fun i => occurs s0 l i * if i ∈ F.P.s1.live then
          (match F.P.ts2[i]? with
            | some t => (cpt : ℚ) * (share c (c + cpt) t * t.bw)
            | none => 0) else 0) hn1 hlt1, ← List.sum_map_add]
        · congr 1
          apply List.map_congr_left
          intro i _
          ring
        · intro i hi
          obtain ⟨t0, ta, t2, tb, b1, b2, M, b3, b4, _⟩ := hlive i hi
          unfold occurs
          simp only [b1, b2, hi, if_true]
          rw [b4]
          ring
        · intro i _ hi
          simp [hi]
      rw [hsplit]
      have hq : (0 : ℚ) < cpt := by exact_mod_cast hpos
      have := mul_le_mul_of_nonneg_left hfl hq.le
      linarith

theorem Spec.Reach.first {cfg : SimCfg} (hpos : 0 < cfg.cpt) {s0 : Sim} {c : Nat} {s : Sim} (hs : Reach cfg s0 c s)
    (hc : c = 0) : s = s0 := by
  cases hs with
  | start => rfl
  | step => omega

/-- The last timestep of a run: a transfer ends in it, if there are transfers; and if it is the first timestep as well,
transfers that end in cycle 0 carry no data. -/
theorem Spec.Reach.last {dev : Device} {cpt : Nat} (hpos : 0 < cpt) (hcpt : cpt ≤ 1000000000)
    {golden : GoldenMap} {en : Bool} {ho : HashOrder} {wl : Workload} {s0 : Sim}
    (h0 : initSim .exact dev ho wl = .ok s0) {c : Nat} {s : Sim}
    (hs : Reach (simConfig .exact dev cpt golden en) s0 c s) (hc : 0 < c) (hlive : s.live = []) (hqueue : s.queue = []) :
    ∃ c0, c = c0 + cpt ∧ cpt ∣ c0 ∧ (s.ts = [] ∨ ∃ (i : Nat) (t : TState), s.ts[i]? = some t ∧ c0 ≤ t.endc) ∧
      (c0 = 0 → ∀ (i : Nat) t, s.ts[i]? = some t → t.endc = 0 → t.params.totalBytes = 0) := by
  have hr : RatesOk (simConfig .exact dev cpt golden en).rates := computeRates_ok .exact dev en
  have hinv := init_inv h0
  have I := (initSim_ok h0).1
  cases hs with
  | start => omega
  | @step c sa sb hsa hcl h =>
    have hia := hsa.inv hr hinv
    have hck := hsa.clock_le hcpt
    have ecpt : (simConfig .exact dev cpt golden en).cpt = cpt := rfl
    change stepSim _ (c + cpt) sa = .ok s at h
    obtain ⟨F⟩ := step_facts hr (Nat.le_add_right c cpt) hia h
    have hdq : ∀ x ∈ sa.queue, x.2 ∈ F.P.s1.live := by
      intro x hx
      by_contra hcc
      have : x ∈ s.queue := (F.queue_eq x).mpr ⟨hx, by
        by_contra hdd
        exact hcc ((F.mem_live1 x.2).mpr (Or.inr ⟨x.1, hx, by simpa using hdd⟩))⟩
      rw [hqueue] at this
      simp at this
    have hone : ∀ i ∈ F.P.s1.live, ∃ ta t, sa.ts[i]? = some ta ∧ s.ts[i]? = some t ∧ c ≤ t.endc ∧
        t.params = ta.params ∧ (t.endc = 0 → ta.moved = t.params.totalBytes) := by
      intro i hi
      obtain ⟨ta, t2, t, h2, M⟩ := F.member_rates hi
      obtain ⟨cyc, mx, h3, h4, h5⟩ := M.ended
      rw [ecpt, Nat.add_sub_cancel] at h3 h5
      have hp0 : t2.params = ta.params := by rw [M.same]
      have hm0 : t2.moved = ta.moved := by rw [M.same]
      rcases h5 with ⟨_, hl, _⟩ | ⟨htot, _, e, he, ht⟩
      · rw [hlive] at hl; simp at hl
      · obtain ⟨hne, hce, hee, hle⟩ := transferEnd_exact (cyc := cyc) he h4 (min_le_right _ _)
        have hcl := cyclesActive_le h3 M.started.start_le.2 rfl (by omega)
        have hmod : e % 4294967296 = e := Nat.mod_eq_of_lt (by omega)
        refine ⟨ta, t, M.before, M.after, ?_, by rw [ht]; exact hp0, ?_⟩
        · rw [ht]; simp only; rw [hmod]; omega
        · intro hz
          rw [ht] at hz ⊢
          simp only at hz ⊢
          rw [hmod] at hz
          have hzero : (((min (t2.params.totalBytes - t2.moved) mx : Nat) : ℚ) / t2.bw).ceil = 0 := by omega
          have hb0 : (min (t2.params.totalBytes - t2.moved) mx : Nat) = 0 := by
            by_contra hb
            obtain ⟨_, _, hmx⟩ := toSize_ok h4
            have hx : (1 : ℚ) ≤ cyc * t2.bw := by
              have : (1 : Int) ≤ ((cyc : ℚ) * t2.bw).floor := by
                have hmx' : mx = ((cyc : ℚ) * t2.bw).floor.toNat := hmx
                omega
              have := Rat.le_floor_iff.mp this
              exact_mod_cast this
            have hpos : 0 < t2.bw := by
              by_contra hcc
              have : (cyc : ℚ) * t2.bw ≤ 0 := mul_nonpos_of_nonneg_of_nonpos (by positivity) (not_lt.mp hcc)
              linarith
            have h7 : 0 < ((min (t2.params.totalBytes - t2.moved) mx : Nat) : ℚ) / t2.bw :=
              div_pos (by exact_mod_cast Nat.pos_of_ne_zero hb) hpos
            have h8 : (((min (t2.params.totalBytes - t2.moved) mx : Nat) : ℚ) / t2.bw) ≤ ((0 : Int) : ℚ) :=
              Rat.ceil_le_iff.mp (le_of_eq hzero)
            push_cast at h8
            push_cast at h7
            linarith
          rw [hb0, Nat.add_zero] at htot
          rw [← hm0]; exact htot
    have hall : c = 0 → ∀ i, i < s.ts.length → i ∈ F.P.s1.live := by
      intro hc0 i hi
      have hz : sa = s0 := hsa.first hpos hc0
      have hi0 : i ∈ sa.queue.map (·.2) := by
        rw [hz]
        exact I.queue.symm.subset (List.mem_range.mpr (by rw [← hz, ← F.len]; exact hi))
      obtain ⟨x, hx, rfl⟩ := List.mem_map.mp hi0
      exact hdq x hx
    refine ⟨c, rfl, hsa.dvd, ?_, ?_⟩
    · by_cases hts : s.ts = []
      · exact Or.inl hts
      · right
        have hex : ∃ i, i ∈ F.P.s1.live := by
          by_cases hc0 : c = 0
          · exact ⟨0, hall hc0 0 (List.length_pos_iff.mpr hts)⟩
          · have hcl2 := (hcl.resolve_left hc0).2
            cases hll : sa.live with
            | cons i l => exact ⟨i, (F.mem_live1 i).mpr (Or.inl (by rw [hll]; simp))⟩
            | nil =>
              cases hqq : sa.queue with
              | nil => exact absurd ⟨hll, hqq⟩ hcl2
              | cons x q => exact ⟨x.2, hdq x (by rw [hqq]; simp)⟩
        obtain ⟨i, hi⟩ := hex
        obtain ⟨ta, t, _, b2, b3, _⟩ := hone i hi
        exact ⟨i, t, b2, b3⟩
    · intro hc0 i t ht hz
      obtain ⟨ta, t', b1, b2, _, b4, b5⟩ := hone i (hall hc0 i (List.getElem?_eq_some_iff.mp ht).1)
      rw [ht] at b2
      have e := Option.some.inj b2
      subst e
      have hz0 : sa = s0 := hsa.first hpos hc0
      rw [← b5 hz]
      rw [hz0] at b1
      exact (I.slots i ta b1).2.2.2.2.2

end NPE
