import Verif.Proofs.Roof
import Verif.Proofs.Credit
import Verif.Props.Congestion

/-
The data that the transfers send through a link or a core against the time that they take, with any rounding.
-/

namespace NPE
open Spec Spec.Fluid

/-- A transfer does not end more than 24 cycles before it is active, up to 100,000,000 cycles. -/
theorem transferEnd_ge {fp : FP} {sot : Nat} {t : TState} {bytes e : Nat}
    (h : transferEnd fp sot t bytes = .ok e) (hbw : 0 ≤ t.bw) (hlim : max t.start sot ≤ 100000000) :
    max t.start sot ≤ e + 24 := by
  unfold transferEnd at h
  simp only at h
  split at h
  · simp at h
  obtain ⟨_, _, he⟩ := toSize_ok h
  set R := fp.f32
  set m : ℚ := ((max t.start sot : Nat) : ℚ) with hmdef
  have hm0 : 0 ≤ m := by positivity
  have hl : m ≤ 100000000 := by rw [hmdef]; exact_mod_cast hlim
  set x := R.fl (R.fl bytes / t.bw) with hx
  have hx0 : 0 ≤ x := R.fl_nonneg (div_nonneg (R.fl_nonneg (by positivity)) hbw)
  have hceil : x ≤ ((x.ceil : Int) : ℚ) := Rat.ceil_le_iff.mp (le_refl _)
  have hfm := R.fl_ge_err hm0
  have hS0 : 0 ≤ R.fl m + ((x.ceil : Int) : ℚ) := by have := R.fl_nonneg hm0; linarith
  have hS := R.fl_ge_err hS0
  have hfl : R.fl (R.fl m + ((x.ceil : Int) : ℚ)) < (e : ℚ) + 1 := by
    rw [he]
    have h1 : R.fl (R.fl m + ((x.ceil : Int) : ℚ)) < ((R.fl (R.fl m + ((x.ceil : Int) : ℚ))).floor : ℚ) + 1 := by
      exact_mod_cast Rat.lt_floor_add_one _
    have h2 : ((R.fl (R.fl m + ((x.ceil : Int) : ℚ))).floor : ℚ) ≤
        (((R.fl (R.fl m + ((x.ceil : Int) : ℚ))).floor.toNat : Nat) : ℚ) := by
      have := Int.self_le_toNat (R.fl (R.fl m + ((x.ceil : Int) : ℚ))).floor
      exact_mod_cast this
    linarith
  have h4 : ((max t.start sot : Nat) : ℚ) ≤ ((e + 24 : Nat) : ℚ) := by
    rw [← hmdef]
    push_cast
    nlinarith
  exact_mod_cast h4

/-- A transfer whose recorded end is 24 cycles later. -/
def later (t : TState) : TState := { t with endc := t.endc + 24 }

theorem rounded_mono {x y : ℚ} (h : x ≤ y) : rounded x ≤ rounded y := by
  unfold rounded
  exact mul_le_mul_of_nonneg_right h (by positivity)

/-- No rate is negative. -/
theorem rates_nonneg {fp : FP} {dev : Device} (hT : TableOk fp dev.tbt) (hc : Capacities dev) {sot curr : Nat}
    (hle : sot ≤ curr) {g g' : Grids} {ts ts' : List TState} {live : List Nat} (hn : live.Nodup)
    (hs : ∀ i ∈ live, ∀ t, ts[i]? = some t → t.start ≤ curr ∧ Props.SaneRate fp t.params)
    (h : computeRates fp dev true sot curr g ts live = .ok (ts', g')) :
    ∀ i ∈ live, ∀ t, ts'[i]? = some t → 0 ≤ t.bw := by
  unfold computeRates at h
  obtain ⟨ts1, h1, h⟩ := Out.bind_eq_ok.mp h
  simp only [if_true] at h
  have w1 := updateTransferBandwidth_written hn h1
  have hsane : Sane curr ts1 live ∧ ∀ i ∈ live, ∀ t, ts1[i]? = some t → fp.f32.Rep t.bw := by
    refine ⟨⟨hn, ?_⟩, ?_⟩ <;> intro j hj u hu <;> obtain ⟨t, b, a1, a2, a3⟩ := w1.2.2 j hj <;> rw [hu] at a3 <;>
      obtain ⟨s1, s2⟩ := hs j hj t a1 <;> rw [Option.some.inj a3]
    · exact ⟨s1, (tableBw_ok hT a2).1 s2.1, s2.1⟩
    · exact (tableBw_ok hT a2).2.1 s2.2
  intro i hi t ht
  obtain ⟨_, _, _, _, a3⟩ := w1.2.2 i hi
  exact (Props.C26_slows fp dev hc sot curr hle ts1 ts' live g' hsane.1 hsane.2 h i _ t a3 ht).2.1 hi

/-- The same as `Spec.Reach.roof` for any rounding: the data up to the rounding of the bytes of a timestep, and the ends
up to 24 cycles. -/
theorem Spec.Reach.roof_rounded {fp : FP} {dev : Device} (hT : TableOk fp dev.tbt) (hc : Capacities dev)
    {cpt : Nat} (hpos : 0 < cpt) (hcpt : cpt ≤ 25000000) {golden : GoldenMap} {ho : HashOrder} {wl : Workload}
    (hinj : ∀ t ∈ wl.transfers, Props.SaneRate fp t) {s0 : Sim}
    (h0 : initSim fp dev ho wl = .ok s0) {w : TState → Nat}
    (hw : ∀ t t' : TState, t.params = t'.params → t.route = t'.route → w t = w t') {R : ℚ} (hR : 0 ≤ R)
    (hflow : ∀ c g ts ts' live g', c + cpt < 4294967296 → live.Nodup → live.length ≤ s0.ts.length →
      (∀ i ∈ live, ∀ t, ts[i]? = some t → t.start ≤ c + cpt ∧ t.params ∈ wl.transfers ∧
        ∃ t0 ∈ s0.ts, t0.params = t.params ∧ t0.route = t.route) →
      computeRates fp dev true c (c + cpt) g ts live = .ok (ts', g') → offered w c (c + cpt) ts' live ≤ R)
    {o : Nat} (ho : cpt ∣ o) (hoff : ∀ t ∈ s0.ts, w t ≠ 0 → o ≤ t.params.offset)
    {c : Nat} {s : Sim} (hs : Reach (simConfig fp dev cpt golden true) s0 c s) :
    ∃ A : Nat → ℚ,
      (∀ (i : Nat) t, s.ts[i]? = some t →
        (i ∈ s.queue.map (·.2) → A i = 0) ∧
        (i ∈ s.live → (t.moved : ℚ) ≤ rounded (A i + Props.aloneBw fp dev t.params * slack cpt c s.deps t)) ∧
        (i ∉ s.queue.map (·.2) → (t.moved : ℚ) ≤ rounded (A i + Props.aloneBw fp dev t.params *
          if t.dependsOn = -1 then 0 else (cpt : ℚ)))) ∧
      ((List.range s0.ts.length).map fun i => weightOf w s0 i * A i).sum ≤ R * (c - o : Nat) ∧
      ∀ E, (∀ (i : Nat) t, s.ts[i]? = some t → w t ≠ 0 → i ∉ s.queue.map (·.2) ∧ i ∉ s.live ∧ t.endc + 24 ≤ E) →
        ((List.range s0.ts.length).map fun i => weightOf w s0 i * A i).sum ≤ R * (E - o : Nat) := by
  have hr : RatesOk (simConfig fp dev cpt golden true).rates := computeRates_ok fp dev true
  have hinv := init_inv h0
  have I := (initSim_ok h0).1
  induction hs with
  | start =>
    refine ⟨fun _ => 0, ?_, ?_, ?_⟩
    · intro i t ht
      refine ⟨fun _ => rfl, ?_, ?_⟩
      · intro h; rw [I.live] at h; simp at h
      · intro h
        exact absurd (I.queue.symm.subset (List.mem_range.mpr (List.getElem?_eq_some_iff.mp ht).1)) h
    · simp
    · intro E _
      have : ((List.range s0.ts.length).map fun i => weightOf w s0 i * (0 : ℚ)).sum = 0 := by simp
      rw [this]
      positivity
  | @step c sa sb hsa hcl h ih =>
    obtain ⟨A, hA, hsum, hfin⟩ := ih
    have hia := hsa.inv hr hinv
    have hck := hsa.clock_le (show (simConfig fp dev cpt golden true).cpt ≤ 1000000000 by change cpt ≤ _; omega)
    change stepSim _ (c + cpt) sa = .ok sb at h
    obtain ⟨F⟩ := step_facts hr (Nat.le_add_right c cpt) hia h
    have ecpt : (simConfig fp dev cpt golden true).cpt = cpt := rfl
    have hn1 : F.P.s1.live.Nodup := (List.nodup_append.mp F.inv1.nodup).2.1
    have hrates : computeRates fp dev true c (c + cpt) F.P.s1.grids F.P.s1.ts F.P.s1.live = .ok (F.P.ts2, F.P.g2) := by
      have := F.P.rates
      rw [ecpt, Nat.add_sub_cancel] at this
      exact this
    have hlen1 : F.P.s1.ts.length = sa.ts.length := by rw [F.ts1, updIds_length]
    have hlena : sa.ts.length = s0.ts.length := by
      have := hsa.static hr hinv
      apply le_antisymm
      · by_contra hcon
        obtain ⟨t0, b1, _⟩ := hsa.static_get hr hinv (List.getElem?_eq_getElem (show s0.ts.length < sa.ts.length by omega))
        exact absurd (List.getElem?_eq_some_iff.mp b1).1 (by omega)
      · by_contra hcon
        obtain ⟨t0, b1, _⟩ := hsa.static_get' hr hinv (List.getElem?_eq_getElem (show sa.ts.length < s0.ts.length by omega))
        exact absurd (List.getElem?_eq_some_iff.mp b1).1 (by omega)
    have hlt1 : ∀ i ∈ F.P.s1.live, i < s0.ts.length := fun i hi => by
      have := F.inv1.lt i (List.mem_append_right _ hi)
      omega
    -- the active transfers
    have hlive : ∀ i ∈ F.P.s1.live, ∃ t0 ta t2 tb, s0.ts[i]? = some t0 ∧ F.P.ts2[i]? = some t2 ∧
        Member (simConfig fp dev cpt golden true) (c + cpt) sa sb i ta t2 tb ∧ t0.params = t2.params ∧
        t0.route = t2.route ∧ t2.params ∈ wl.transfers := by
      intro i hi
      obtain ⟨ta, t2, tb, h2, M⟩ := F.member_rates hi
      obtain ⟨t0, b1, b2, b3, _⟩ := hsa.static_get hr hinv M.before
      have e1 : t2.params = ta.params := by rw [M.same]
      have e2 : t2.route = ta.route := by rw [M.same]
      have hm := (I.slots i t0 b1).1
      exact ⟨t0, ta, t2, tb, b1, h2, M, by rw [b2, e1], by rw [b3, e2], by rw [e1, ← b2]; exact hm⟩
    have hpre : ∀ i ∈ F.P.s1.live, ∀ t1, F.P.s1.ts[i]? = some t1 → t1.start ≤ c + cpt ∧ t1.params ∈ wl.transfers ∧
        ∃ t0 ∈ s0.ts, t0.params = t1.params ∧ t0.route = t1.route := by
      intro i hi t1 h1
      obtain ⟨t0, ta, t2, tb, b1, b2, M, b3, b4, b5⟩ := hlive i hi
      have e := F.only2 i t1 t2 h1 b2
      have e1 : t2.start = t1.start := by rw [e]
      have e2 : t2.params = t1.params := by rw [e]
      have e3 : t2.route = t1.route := by rw [e]
      rw [← e1, ← e2, ← e3]
      exact ⟨M.started.start_le.2, b5, t0, List.mem_of_getElem? b1, b3, b4⟩
    have hbw0 : ∀ i ∈ F.P.s1.live, ∀ t2, F.P.ts2[i]? = some t2 → 0 ≤ t2.bw :=
      rates_nonneg hT hc (Nat.le_add_right c cpt) hn1
        (fun i hi t1 h1 => ⟨(hpre i hi t1 h1).1, hinj _ (hpre i hi t1 h1).2.1⟩) hrates
    have hll : F.P.s1.live.length ≤ s0.ts.length := by
      have : F.P.s1.live ⊆ List.range s0.ts.length := fun i hi => List.mem_range.mpr (hlt1 i hi)
      have := (hn1.subperm this).length_le
      rwa [List.length_range] at this
    have hfl := hflow c _ _ _ _ _ (by omega) hn1 hll hpre hrates
    -- what an active transfer adds
    set D : Nat → ℚ := fun i => if i ∈ F.P.s1.live then
      (match F.P.ts2[i]?, sb.ts[i]? with
        | some t2, some tb => (busy c cpt t2 (later tb) (decide (i ∈ sb.live)) : ℚ) * t2.bw
        | _, _ => 0) else 0 with hD
    have hDle : ∀ θ : ℚ, (∀ i ∈ F.P.s1.live, ∀ t2 tb, F.P.ts2[i]? = some t2 → sb.ts[i]? = some tb → t2.start ≤ c + cpt →
        w t2 ≠ 0 → (busy c cpt t2 (later tb) (decide (i ∈ sb.live)) : ℚ) ≤ θ * share c (c + cpt) t2) →
        ((List.range s0.ts.length).map fun i => weightOf w s0 i * D i).sum ≤
          θ * offered w c (c + cpt) F.P.ts2 F.P.s1.live := by
      intro θ hθ
      unfold offered
      rw [← List.sum_map_mul_left, ← sum_live (g := fun i => weightOf w s0 i * D i) hn1 hlt1 (f := fun i => weightOf w s0 i * D i)
        (fun _ _ => rfl) (fun i _ hi => by simp [hD, hi])]
      refine List.sum_le_sum fun i hi => ?_
      obtain ⟨t0, ta, t2, tb, b1, b2, M, b3, b4, b5⟩ := hlive i hi
      have hw0 : weightOf w s0 i = w t2 := by
        unfold weightOf
        rw [b1]
        simp only
        rw [hw t0 t2 b3 b4]
      simp only [hD, hi, if_true, b2, M.after, hw0]
      by_cases hz : w t2 = 0
      · rw [hz]; simp
      · have h1 := hθ i hi t2 tb b2 M.after M.started.start_le.2 hz
        have h2 := mul_le_mul_of_nonneg_right h1 (hbw0 i hi t2 b2)
        have h3 := mul_le_mul_of_nonneg_left h2 (show (0 : ℚ) ≤ w t2 by positivity)
        calc (w t2 : ℚ) * ((busy c cpt t2 (later tb) (decide (i ∈ sb.live)) : ℚ) * t2.bw)
            ≤ w t2 * (θ * share c (c + cpt) t2 * t2.bw) := h3
          _ = _ := by ring
    have hsplit : ((List.range s0.ts.length).map fun i => weightOf w s0 i * (A i + D i)).sum =
        ((List.range s0.ts.length).map fun i => weightOf w s0 i * A i).sum +
        ((List.range s0.ts.length).map fun i => weightOf w s0 i * D i).sum := by
      rw [← List.sum_map_add]
      congr 1
      apply List.map_congr_left
      intro i _
      ring
    have hdvd := hsa.dvd
    rw [ecpt] at hdvd
    -- before the first start nothing is sent
    have hbefore : c < o → ((List.range s0.ts.length).map fun i => weightOf w s0 i * D i).sum ≤ 0 := by
      intro hco
      have hco' : c + cpt ≤ o := by
        obtain ⟨a, rfl⟩ := hdvd
        obtain ⟨b, rfl⟩ := ho
        have : a < b := lt_of_mul_lt_mul_left hco (Nat.zero_le _)
        calc cpt * a + cpt = cpt * (a + 1) := by ring
          _ ≤ cpt * b := Nat.mul_le_mul_left _ this
      have := hDle 0 (fun i hi t2 tb e1 e2 e3 e4 => by
        obtain ⟨t0, ta, t2', tb', b1, b2, M, b3, b4, b5⟩ := hlive i hi
        rw [e1] at b2
        have b2 := Option.some.inj b2
        subst b2
        have h1 := hoff t0 (List.mem_of_getElem? b1) (by rw [hw t0 t2 b3 b4]; exact e4)
        rw [b3] at h1
        have h2 := M.started.start_le.1
        have : busy c cpt t2 (later tb) (decide (i ∈ sb.live)) = 0 := by
          unfold busy
          split <;> omega
        rw [this]; simp)
      rwa [zero_mul] at this
    have hzero : ∀ {x : Nat}, (0 : ℚ) ≤ R * x := fun {x} => by positivity
    refine ⟨fun i => A i + D i, ?_, ?_, ?_⟩
    · intro i t ht
      by_cases hil : i ∈ F.P.s1.live
      · obtain ⟨t0, ta, t2, tb, b1, b2, M, b3, b4, b6⟩ := hlive i hil
        have b5 := hinj _ b6
        have e := M.after
        rw [ht] at e
        have e := Option.some.inj e
        subst e
        have hK0 := Props.aloneBw_nonneg hT t2.params b5
        have hK := Props.within_alone hT true _ _ _ _ _ _ _ hn1 hrates i t2 hil b2 b5
        have hq := M.notWaiting
        simp only [hD, hil, if_true, b2, ht]
        obtain ⟨cyc, mx, h3, h4, h5⟩ := M.ended
        rw [ecpt, Nat.add_sub_cancel] at h3 h5
        have hstart := M.started.start_le.2
        have hkey := cyc_le_share hpos h3 hstart (by omega)
        have hm0 : t2.moved = ta.moved := by rw [M.same]
        have hd0 : t2.dependsOn = ta.dependsOn := by rw [M.same]
        have hp0 : t2.params = ta.params := by rw [M.same]
        have hpt : t.params = t2.params := by
          rcases h5 with ⟨_, _, e⟩ | ⟨_, _, _, _, e⟩ <;> rw [e]
        have hdt : t.dependsOn = t2.dependsOn := by
          rcases h5 with ⟨_, _, e⟩ | ⟨_, _, _, _, e⟩ <;> rw [e]
        set K := Props.aloneBw fp dev t2.params with hKd
        have hprev : (t2.moved : ℚ) ≤ rounded (A i + K * slack cpt c sa.deps t2) := by
          by_cases hla : i ∈ sa.live
          · have := (hA i ta M.before).2.1 hla
            rw [hm0, hKd, hp0]
            have hsl : slack cpt c sa.deps t2 = slack cpt c sa.deps ta := by unfold slack; rw [hd0]
            rw [hsl]; exact this
          · rcases (F.mem_live1 i).mp hil with hcc | ⟨o, hcc, _⟩
            · exact absurd hcc hla
            · rw [hm0, (hia.waiting _ hcc ta M.before).2.2, Nat.cast_zero,
                (hA i ta M.before).1 (List.mem_map_of_mem (f := (·.2)) hcc), zero_add]
              exact rounded_nonneg (mul_nonneg hK0 (slack_nonneg _ _ _ _))
        have hb2 := hbw0 i hil t2 b2
        set n := min (t2.params.totalBytes - t2.moved) mx with hn
        have hbytes : ((n : Nat) : ℚ) ≤ rounded (cyc * t2.bw) := by
          have := mx_le_rounded h4 (min_le_right (t2.params.totalBytes - t2.moved) mx) le_rfl hb2
          unfold rounded at this ⊢
          linarith
        have hmoved : (t.moved : ℚ) = t2.moved + (n : ℚ) := by
          rcases h5 with ⟨_, _, e⟩ | ⟨htot, _, _, _, e⟩
          · rw [e]; push_cast; rfl
          · have : t.moved = t2.moved + n := by rw [e]; exact htot.symm
            rw [this]; push_cast; rfl
        have hmo := slack_mono (cpt := cpt) (deps := sa.deps) (t := t2) (Nat.le_add_right c cpt)
        -- the bytes of the timestep: for the whole timestep, or up to the end
        have hfull : (n : ℚ) ≤ rounded (cpt * share c (c + cpt) t2 * t2.bw +
            K * (slack cpt (c + cpt) sa.deps t2 - slack cpt c sa.deps t2)) := by
          have x1 : (cyc : ℚ) * t2.bw ≤ (cpt * share c (c + cpt) t2 +
              (slack cpt (c + cpt) sa.deps t2 - slack cpt c sa.deps t2)) * t2.bw :=
            mul_le_mul_of_nonneg_right (by linarith) hb2
          have x2 : (slack cpt (c + cpt) sa.deps t2 - slack cpt c sa.deps t2) * t2.bw ≤
              (slack cpt (c + cpt) sa.deps t2 - slack cpt c sa.deps t2) * K :=
            mul_le_mul_of_nonneg_left hK (by linarith)
          exact hbytes.trans (rounded_mono (by nlinarith))
        have hstep : (n : ℚ) ≤ rounded (busy c cpt t2 (later t) (decide (i ∈ sb.live)) * t2.bw +
            K * (slack cpt (c + cpt) sa.deps t2 - slack cpt c sa.deps t2)) := by
          have hbusy : ∀ b, (b = true ∨ c + cpt ≤ t.endc + 24) →
              (busy c cpt t2 (later t) b : ℚ) = cpt * share c (c + cpt) t2 := by
            intro b hb
            rw [share_mul hpos]
            have : busy c cpt t2 (later t) b + max c t2.start = c + cpt := by
              unfold busy later
              simp only
              rcases hb with hb | hb
              · rw [if_pos hb]; omega
              · split <;> omega
            have : (busy c cpt t2 (later t) b : ℚ) + (max c t2.start : Nat) = ((c + cpt : Nat) : ℚ) := by exact_mod_cast this
            linarith
          rcases h5 with ⟨_, hl, _⟩ | ⟨htot, hl, e, he, et⟩
          · rw [hbusy _ (Or.inl (by simpa using hl))]
            exact hfull
          · by_cases hlate : c + cpt ≤ t.endc + 24
            · rw [hbusy _ (Or.inr hlate)]
              exact hfull
            · have hcl := cyclesActive_le h3 hstart rfl (by omega)
              have hmc : max t2.start c + cyc ≤ 100000000 := by omega
              have hee := transferEnd_near he h4 (min_le_right _ _) hmc
              have hmod : t.endc = e := by
                rw [et]
                exact Nat.mod_eq_of_lt (by omega)
              have hend := bytes_le_end he h4 (min_le_right _ _) le_rfl hb2 hmc
              have hd : decide (i ∈ sb.live) = false := by simpa using hl
              rw [hd]
              have hge := transferEnd_ge he hb2 (by omega)
              have hbs : busy c cpt t2 (later t) false + max t2.start c = e + 24 := by
                unfold busy later
                simp only [Bool.false_eq_true, if_false]
                omega
              have hbs : (busy c cpt t2 (later t) false : ℚ) = (e : ℚ) - (max t2.start c : Nat) + 24 := by
                have : (busy c cpt t2 (later t) false : ℚ) + (max t2.start c : Nat) = (e : ℚ) + 24 := by exact_mod_cast hbs
                linarith
              rw [← hbs] at hend
              have := mul_nonneg hK0 (sub_nonneg.mpr hmo)
              calc (n : ℚ) ≤ rounded t2.bw * (busy c cpt t2 (later t) false : ℚ) := hend
                _ = rounded (busy c cpt t2 (later t) false * t2.bw) := by unfold rounded; ring
                _ ≤ _ := rounded_mono (by linarith)
        have hmain : (t.moved : ℚ) ≤ rounded (A i + busy c cpt t2 (later t) (decide (i ∈ sb.live)) * t2.bw +
            K * slack cpt (c + cpt) sa.deps t2) := by
          rw [hmoved]
          unfold rounded at hprev hstep ⊢
          linarith
        have hds := F.live_dep_same hil b2
        have hsl : slack cpt (c + cpt) sb.deps t = slack cpt (c + cpt) sa.deps t2 := by
          unfold slack
          rw [hdt, hds]
        refine ⟨fun hcq => absurd hcq hq, ?_, ?_⟩
        · intro _
          rw [hpt, ecpt, hsl]; exact hmain
        · intro _
          rw [hpt, hdt]
          have := mul_le_mul_of_nonneg_left (slack_le cpt (c + cpt) sa.deps t2) hK0
          exact hmain.trans (rounded_mono (by linarith))
      · simp only [hD, hil, if_false, add_zero]
        have hilt : i < sa.ts.length := by
          rw [← F.len]; exact (List.getElem?_eq_some_iff.mp ht).1
        obtain ⟨t', h1, h2⟩ := F.inactive (List.getElem?_eq_getElem hilt) hil
        rw [ht] at h1
        have h1 := Option.some.inj h1
        subst h1
        obtain ⟨a1, a2, a3⟩ := hA i _ (List.getElem?_eq_getElem hilt)
        have hqq : i ∈ sb.queue.map (·.2) ↔ i ∈ sa.queue.map (·.2) := by
          constructor
          · intro hcc
            obtain ⟨⟨o, j⟩, hx, rfl⟩ := List.mem_map.mp hcc
            exact List.mem_map_of_mem (f := (·.2)) ((F.queue_eq (o, j)).mp hx).1
          · intro hcc
            obtain ⟨⟨o, j⟩, hx, rfl⟩ := List.mem_map.mp hcc
            refine List.mem_map_of_mem (f := (·.2)) ((F.queue_eq (o, j)).mpr ⟨hx, ?_⟩)
            by_contra hdd
            exact hil ((F.mem_live1 j).mpr (Or.inr ⟨o, hx, by simpa using hdd⟩))
        refine ⟨fun hcq => a1 (hqq.mp hcq), ?_, ?_⟩
        · intro hcc
          exfalso
          rw [congrArg Sim.live F.P.res] at hcc
          exact hil (List.mem_filter.mp hcc).1
        · intro hcq
          have := a3 (fun hx => hcq (hqq.mpr hx))
          rw [h2]
          exact this
    · rw [hsplit, ecpt]
      by_cases hco : c < o
      · have h1 := hbefore hco
        have h2 : c - o = 0 := by omega
        rw [h2, Nat.cast_zero, mul_zero] at hsum
        have := @hzero (c + cpt - o)
        linarith
      · have h1 := hDle cpt (fun i hi t2 tb e1 e2 e3 e4 => busy_le hpos e3 _)
        have h2 := mul_le_mul_of_nonneg_left hfl (show (0 : ℚ) ≤ cpt by positivity)
        have h3 : ((c + cpt - o : Nat) : ℚ) = (c - o : Nat) + cpt := by
          have : c + cpt - o = (c - o) + cpt := by omega
          rw [this]; push_cast; rfl
        rw [h3, mul_add]
        linarith
    · intro E hends
      rw [hsplit]
      by_cases hco : c < o
      · have h1 := hbefore hco
        have h2 : c - o = 0 := by omega
        rw [h2, Nat.cast_zero, mul_zero] at hsum
        have := @hzero (E - o)
        linarith
      have hget : ∀ i ∈ F.P.s1.live, ∀ t2 tb, F.P.ts2[i]? = some t2 → sb.ts[i]? = some tb → w tb = w t2 := by
        intro i hi t2 tb e1 e2
        obtain ⟨t0, ta, t2', tb', b1, b2, M, b3, b4, b5⟩ := hlive i hi
        rw [e1] at b2
        have b2 := Option.some.inj b2
        subst b2
        have b6 := M.after
        rw [e2] at b6
        have b6 := Option.some.inj b6
        subst b6
        obtain ⟨_, _, _, _, h5⟩ := M.ended
        exact hw tb t2 (by rcases h5 with ⟨_, _, e⟩ | ⟨_, _, _, _, e⟩ <;> rw [e])
          (by rcases h5 with ⟨_, _, e⟩ | ⟨_, _, _, _, e⟩ <;> rw [e])
      by_cases hany : ∃ i ∈ F.P.s1.live, ∃ t2, F.P.ts2[i]? = some t2 ∧ w t2 ≠ 0
      · have hcE : c ≤ E := by
          obtain ⟨i, hi, t2, e1, e4⟩ := hany
          obtain ⟨t0, ta, t2', tb, b1, b2, M, b3, b4, b5⟩ := hlive i hi
          have hwb := hget i hi t2 tb e1 M.after
          rw [e1] at b2
          have b2 := Option.some.inj b2
          subst b2
          obtain ⟨_, a2, a3⟩ := hends i tb M.after (by rw [hwb]; exact e4)
          obtain ⟨cyc, mx, h3, h4, h5⟩ := M.ended
          rw [ecpt, Nat.add_sub_cancel] at h3 h5
          rcases h5 with ⟨_, hl, _⟩ | ⟨htot, hl, e, he, et⟩
          · exact absurd hl a2
          · have hcl := cyclesActive_le h3 M.started.start_le.2 rfl (by omega)
            have hge := transferEnd_ge he (hbw0 i hi t2 e1) (by omega)
            have hee := transferEnd_near he h4 (min_le_right _ _) (by omega)
            have hmod : tb.endc = e := by
              rw [et]
              exact Nat.mod_eq_of_lt (by omega)
            omega
        have hstep : ∃ x : ℚ, x ≤ (E : ℚ) - c ∧ 0 ≤ x ∧ ((List.range s0.ts.length).map fun i => weightOf w s0 i * D i).sum ≤
            x * offered w c (c + cpt) F.P.ts2 F.P.s1.live := by
          have hq1 : (c : ℚ) ≤ E := by exact_mod_cast hcE
          by_cases hEc : E ≤ c + cpt
          · refine ⟨(E : ℚ) - c, le_refl _, by linarith, hDle _ (fun i hi t2 tb e1 e2 e3 e4 => ?_)⟩
            obtain ⟨_, a2, a3⟩ := hends i tb e2 (by rw [hget i hi t2 tb e1 e2]; exact e4)
            have hd : decide (i ∈ sb.live) = false := by simpa using a2
            rw [hd]
            exact busy_part hpos e3 a3 hcE hEc
          · have hq2 : ((c + cpt : Nat) : ℚ) ≤ E := by exact_mod_cast (by omega : c + cpt ≤ E)
            push_cast at hq2
            exact ⟨cpt, by linarith, by positivity, hDle cpt (fun i hi t2 tb e1 e2 e3 e4 => busy_le hpos e3 _)⟩
        obtain ⟨x, x1, x2, x3⟩ := hstep
        have h2 := mul_le_mul_of_nonneg_left hfl x2
        have h4 := mul_le_mul_of_nonneg_right x1 hR
        have h3 : ((E - o : Nat) : ℚ) = (c - o : Nat) + ((E : ℚ) - c) := by
          have : E - o + c = (c - o) + E := by omega
          have : ((E - o : Nat) : ℚ) + c = (c - o : Nat) + E := by exact_mod_cast this
          linarith
        rw [h3, mul_add]
        linarith
      · have h1 := hDle 0 (fun i hi t2 tb e1 e2 e3 e4 => absurd ⟨i, hi, t2, e1, e4⟩ hany)
        rw [zero_mul] at h1
        have h2 := hfin E (by
          intro i t ht hwt
          have hnl : i ∉ F.P.s1.live := by
            intro hi
            obtain ⟨t0, ta, t2, tb, b1, b2, M, b3, b4, b5⟩ := hlive i hi
            refine hany ⟨i, hi, t2, b2, ?_⟩
            have b6 := M.before
            rw [ht] at b6
            have b6 := Option.some.inj b6
            subst b6
            rw [hw t2 t (by rw [M.same]) (by rw [M.same])]
            exact hwt
          obtain ⟨t', c1, c2⟩ := F.inactive ht hnl
          have hwt' : w t' ≠ 0 := by
            rw [hw t' t (by rw [c2]) (by rw [c2])]; exact hwt
          obtain ⟨d1, d2, d3⟩ := hends i _ c1 hwt'
          have d3 : t.endc + 24 ≤ E := by rw [c2] at d3; exact d3
          refine ⟨?_, fun hcc => hnl ((F.mem_live1 i).mpr (Or.inl hcc)), d3⟩
          intro hcc
          obtain ⟨⟨o', j⟩, hx, rfl⟩ := List.mem_map.mp hcc
          apply d1
          refine List.mem_map_of_mem (f := (·.2)) ((F.queue_eq (o', j)).mpr ⟨hx, ?_⟩)
          by_contra hdd
          exact hnl ((F.mem_live1 j).mpr (Or.inr ⟨o', hx, by simpa using hdd⟩)))
        linarith

end NPE
