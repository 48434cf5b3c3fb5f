import Verif.Proofs.Account

/-
The data that the transfers send through a link or a core against the time that they take, in exact arithmetic.
-/

namespace NPE
open Spec Spec.Fluid

/-- The cycles of a timestep in which a transfer is active: up to its end if it ends in the timestep. -/
def busy (c cpt : Nat) (t2 tb : TState) (running : Bool) : Nat :=
  (if running then c + cpt else min tb.endc (c + cpt)) - max c t2.start

theorem share_mul {c cpt : Nat} (hpos : 0 < cpt) (t : TState) :
    (cpt : ℚ) * share c (c + cpt) t = ((c + cpt : Nat) : ℚ) - (max c t.start : Nat) := by
  have hq : (0 : ℚ) < cpt := by exact_mod_cast hpos
  unfold share
  push_cast
  rw [add_sub_cancel_left]
  field_simp

theorem busy_le {c cpt : Nat} (hpos : 0 < cpt) {t2 tb : TState} (hst : t2.start ≤ c + cpt) (b : Bool) :
    (busy c cpt t2 tb b : ℚ) ≤ cpt * share c (c + cpt) t2 := by
  rw [share_mul hpos]
  have h1 : busy c cpt t2 tb b + max c t2.start ≤ c + cpt := by
    unfold busy
    split <;> omega
  have : (busy c cpt t2 tb b : ℚ) + (max c t2.start : Nat) ≤ ((c + cpt : Nat) : ℚ) := by exact_mod_cast h1
  linarith

/-- Up to a cycle in the timestep, a transfer has at most the same part of its active cycles. -/
theorem busy_part {c cpt E : Nat} (hpos : 0 < cpt) {t2 tb : TState} (hst : t2.start ≤ c + cpt) (hE : tb.endc ≤ E)
    (h1 : c ≤ E) (h2 : E ≤ c + cpt) : (busy c cpt t2 tb false : ℚ) ≤ ((E : ℚ) - c) * share c (c + cpt) t2 := by
  have hq : (0 : ℚ) < cpt := by exact_mod_cast hpos
  have hb : busy c cpt t2 tb false ≤ E - max c t2.start := by
    unfold busy
    simp only [Bool.false_eq_true, if_false]
    omega
  have hs := share_mul (c := c) hpos t2
  set m := max c t2.start with hm
  have hmc : c ≤ m := le_max_left _ _
  have hm2 : m ≤ c + cpt := max_le (by omega) hst
  have hs' : share c (c + cpt) t2 = (((c + cpt : Nat) : ℚ) - m) / cpt := by rw [← hs]; field_simp
  have hx : (c : ℚ) ≤ E := by exact_mod_cast h1
  have hx2 : (E : ℚ) ≤ c + cpt := by exact_mod_cast h2
  have hy : (c : ℚ) ≤ m := by exact_mod_cast hmc
  have hy2 : (m : ℚ) ≤ c + cpt := by exact_mod_cast hm2
  rw [hs', ← mul_div_assoc, le_div_iff₀ hq]
  push_cast
  by_cases hEm : E ≤ m
  · have h0 : busy c cpt t2 tb false = 0 := by omega
    rw [h0, Nat.cast_zero, zero_mul]
    exact mul_nonneg (by linarith) (by linarith)
  · have h3 : (busy c cpt t2 tb false : ℚ) ≤ E - m := by
      have : busy c cpt t2 tb false + m ≤ E := by omega
      have : (busy c cpt t2 tb false : ℚ) + m ≤ E := by exact_mod_cast this
      linarith
    have h4 : (busy c cpt t2 tb false : ℚ) * cpt ≤ (E - m) * cpt := mul_le_mul_of_nonneg_right h3 hq.le
    nlinarith [mul_nonneg (show 0 ≤ (m : ℚ) - c by linarith) (show 0 ≤ (c : ℚ) + cpt - E by linarith)]

/-- The weight of transfer `i`. -/
def weightOf (w : TState → Nat) (s : Sim) (i : Nat) : ℚ :=
  match s.ts[i]? with
  | some t => (w t : ℚ)
  | none => 0

/-- What the transfers have sent, weighted with `w`, if the rates respect the limit `R` for this weight in every
timestep: at most `R` for every cycle from the timestep `o` on in which the first of them may start; and when all of
them are finished, up to their last end. -/
theorem Spec.Reach.roof {dev : Device} (hd : DeviceOk dev) (hT : TableOk .exact dev.tbt) (hc : Capacities dev)
    {cpt : Nat} (hpos : 0 < cpt) (hcpt : cpt ≤ 1000000000) {golden : GoldenMap} {ho : HashOrder} {wl : Workload}
    (hinj : ∀ t ∈ wl.transfers, 0 ≤ t.injectionRate) (hrect : ∀ t ∈ wl.transfers, RectsOk t) {s0 : Sim}
    (h0 : initSim .exact dev ho wl = .ok s0) {w : TState → Nat}
    (hw : ∀ t t' : TState, t.params = t'.params → t.route = t'.route → w t = w t') {R : ℚ} (hR : 0 ≤ R)
    (hflow : ∀ c g ts ts' live g', c + cpt < 4294967296 → live.Nodup →
      (∀ i ∈ live, ∀ t, ts[i]? = some t → t.start ≤ c + cpt ∧ t.params ∈ wl.transfers) →
      computeRates .exact dev true c (c + cpt) g ts live = .ok (ts', g') → offered w c (c + cpt) ts' live ≤ R)
    {o : Nat} (ho : cpt ∣ o) (hoff : ∀ t ∈ s0.ts, w t ≠ 0 → o ≤ t.params.offset)
    {c : Nat} {s : Sim} (hs : Reach (simConfig .exact dev cpt golden true) s0 c s) :
    ∃ A : Nat → ℚ,
      (∀ (i : Nat) t, s.ts[i]? = some t →
        (i ∈ s.queue.map (·.2) → A i = 0) ∧
        (i ∈ s.live → (t.moved : ℚ) ≤ A i + Props.aloneBw .exact dev t.params * slack cpt c s.deps t) ∧
        (i ∉ s.queue.map (·.2) → (t.moved : ℚ) ≤ A i + Props.aloneBw .exact dev t.params *
          if t.dependsOn = -1 then 0 else (cpt : ℚ))) ∧
      ((List.range s0.ts.length).map fun i => weightOf w s0 i * A i).sum ≤ R * (c - o : Nat) ∧
      ∀ E, (∀ (i : Nat) t, s.ts[i]? = some t → w t ≠ 0 → i ∉ s.queue.map (·.2) ∧ i ∉ s.live ∧ t.endc ≤ E) →
        ((List.range s0.ts.length).map fun i => weightOf w s0 i * A i).sum ≤ R * (E - o : Nat) := by
  have hr : RatesOk (simConfig .exact dev cpt golden true).rates := computeRates_ok .exact dev true
  have hinv := init_inv h0
  have I := (initSim_ok h0).1
  induction hs with
  | start =>
    refine ⟨fun _ => 0, ?_, ?_, ?_⟩
    · intro i t ht
      refine ⟨fun _ => rfl, ?_, ?_⟩
      · intro h; rw [I.live] at h; simp at h
      · intro h
        exact absurd (I.queue.symm.subset (List.mem_range.mpr (List.getElem?_eq_some_iff.mp ht).1)) h
    · simp
    · intro E _
      have : ((List.range s0.ts.length).map fun i => weightOf w s0 i * (0 : ℚ)).sum = 0 := by simp
      rw [this]
      positivity
  | @step c sa sb hsa hcl h ih =>
    obtain ⟨A, hA, hsum, hfin⟩ := ih
    have hia := hsa.inv hr hinv
    have hck := hsa.clock_le hcpt
    change stepSim _ (c + cpt) sa = .ok sb at h
    obtain ⟨F⟩ := step_facts hr (Nat.le_add_right c cpt) hia h
    have ecpt : (simConfig .exact dev cpt golden true).cpt = cpt := rfl
    have hn1 : F.P.s1.live.Nodup := (List.nodup_append.mp F.inv1.nodup).2.1
    have hrates : computeRates .exact dev true c (c + cpt) F.P.s1.grids F.P.s1.ts F.P.s1.live = .ok (F.P.ts2, F.P.g2) := by
      have := F.P.rates
      rw [ecpt, Nat.add_sub_cancel] at this
      exact this
    have hlen1 : F.P.s1.ts.length = sa.ts.length := by rw [F.ts1, updIds_length]
    have hlena : sa.ts.length = s0.ts.length := by
      have := hsa.static hr hinv
      apply le_antisymm
      · by_contra hcon
        obtain ⟨t0, b1, _⟩ := hsa.static_get hr hinv (List.getElem?_eq_getElem (show s0.ts.length < sa.ts.length by omega))
        exact absurd (List.getElem?_eq_some_iff.mp b1).1 (by omega)
      · by_contra hcon
        obtain ⟨t0, b1, _⟩ := hsa.static_get' hr hinv (List.getElem?_eq_getElem (show sa.ts.length < s0.ts.length by omega))
        exact absurd (List.getElem?_eq_some_iff.mp b1).1 (by omega)
    have hlt1 : ∀ i ∈ F.P.s1.live, i < s0.ts.length := fun i hi => by
      have := F.inv1.lt i (List.mem_append_right _ hi)
      omega
    -- the active transfers
    have hlive : ∀ i ∈ F.P.s1.live, ∃ t0 ta t2 tb, s0.ts[i]? = some t0 ∧ F.P.ts2[i]? = some t2 ∧
        Member (simConfig .exact dev cpt golden true) (c + cpt) sa sb i ta t2 tb ∧ t0.params = t2.params ∧
        t0.route = t2.route ∧ t2.params ∈ wl.transfers := by
      intro i hi
      obtain ⟨ta, t2, tb, h2, M⟩ := F.member_rates hi
      obtain ⟨t0, b1, b2, b3, _⟩ := hsa.static_get hr hinv M.before
      have e1 : t2.params = ta.params := by rw [M.same]
      have e2 : t2.route = ta.route := by rw [M.same]
      have hm := (I.slots i t0 b1).1
      exact ⟨t0, ta, t2, tb, b1, h2, M, by rw [b2, e1], by rw [b3, e2], by rw [e1, ← b2]; exact hm⟩
    have hpre : ∀ i ∈ F.P.s1.live, ∀ t1, F.P.s1.ts[i]? = some t1 → t1.start ≤ c + cpt ∧ t1.params ∈ wl.transfers := by
      intro i hi t1 h1
      obtain ⟨t0, ta, t2, tb, b1, b2, M, b3, b4, b5⟩ := hlive i hi
      have e := F.only2 i t1 t2 h1 b2
      have e1 : t2.start = t1.start := by rw [e]
      have e2 : t2.params = t1.params := by rw [e]
      rw [← e1, ← e2]
      exact ⟨M.started.start_le.2, b5⟩
    obtain ⟨hbw0, _⟩ := rates_flow hd hT hc (Nat.le_add_right c cpt) (by omega) hn1
      (fun i hi t1 h1 => ⟨(hpre i hi t1 h1).1, hinj _ (hpre i hi t1 h1).2, hrect _ (hpre i hi t1 h1).2⟩) hrates
    have hfl := hflow c _ _ _ _ _ (by omega) hn1 hpre hrates
    -- what an active transfer adds
    set D : Nat → ℚ := fun i => if i ∈ F.P.s1.live then
      (match F.P.ts2[i]?, sb.ts[i]? with
        | some t2, some tb => (busy c cpt t2 tb (decide (i ∈ sb.live)) : ℚ) * t2.bw
        | _, _ => 0) else 0 with hD
    have hDle : ∀ θ : ℚ, (∀ i ∈ F.P.s1.live, ∀ t2 tb, F.P.ts2[i]? = some t2 → sb.ts[i]? = some tb → t2.start ≤ c + cpt →
        w t2 ≠ 0 → (busy c cpt t2 tb (decide (i ∈ sb.live)) : ℚ) ≤ θ * share c (c + cpt) t2) →
        ((List.range s0.ts.length).map fun i => weightOf w s0 i * D i).sum ≤
          θ * offered w c (c + cpt) F.P.ts2 F.P.s1.live := by
      intro θ hθ
      unfold offered
      rw [← List.sum_map_mul_left, ← sum_live (g := fun i => weightOf w s0 i * D i) hn1 hlt1 (f := fun i => weightOf w s0 i * D i)
        (fun _ _ => rfl) (fun i _ hi => by simp [hD, hi])]
      refine List.sum_le_sum fun i hi => ?_
      obtain ⟨t0, ta, t2, tb, b1, b2, M, b3, b4, b5⟩ := hlive i hi
      have hw0 : weightOf w s0 i = w t2 := by
        unfold weightOf
        rw [b1]
        simp only
        rw [hw t0 t2 b3 b4]
      simp only [hD, hi, if_true, b2, M.after, hw0]
      by_cases hz : w t2 = 0
      · rw [hz]; simp
      · have h1 := hθ i hi t2 tb b2 M.after M.started.start_le.2 hz
        have h2 := mul_le_mul_of_nonneg_right h1 (hbw0 i hi t2 b2)
        have h3 := mul_le_mul_of_nonneg_left h2 (show (0 : ℚ) ≤ w t2 by positivity)
        calc (w t2 : ℚ) * ((busy c cpt t2 tb (decide (i ∈ sb.live)) : ℚ) * t2.bw)
            ≤ w t2 * (θ * share c (c + cpt) t2 * t2.bw) := h3
          _ = _ := by ring
    have hsplit : ((List.range s0.ts.length).map fun i => weightOf w s0 i * (A i + D i)).sum =
        ((List.range s0.ts.length).map fun i => weightOf w s0 i * A i).sum +
        ((List.range s0.ts.length).map fun i => weightOf w s0 i * D i).sum := by
      rw [← List.sum_map_add]
      congr 1
      apply List.map_congr_left
      intro i _
      ring
    have hdvd := hsa.dvd
    rw [ecpt] at hdvd
    -- before the first start nothing is sent
    have hbefore : c < o → ((List.range s0.ts.length).map fun i => weightOf w s0 i * D i).sum ≤ 0 := by
      intro hco
      have hco' : c + cpt ≤ o := by
        obtain ⟨a, rfl⟩ := hdvd
        obtain ⟨b, rfl⟩ := ho
        have : a < b := lt_of_mul_lt_mul_left hco (Nat.zero_le _)
        calc cpt * a + cpt = cpt * (a + 1) := by ring
          _ ≤ cpt * b := Nat.mul_le_mul_left _ this
      have := hDle 0 (fun i hi t2 tb e1 e2 e3 e4 => by
        obtain ⟨t0, ta, t2', tb', b1, b2, M, b3, b4, b5⟩ := hlive i hi
        rw [e1] at b2
        have b2 := Option.some.inj b2
        subst b2
        have h1 := hoff t0 (List.mem_of_getElem? b1) (by rw [hw t0 t2 b3 b4]; exact e4)
        rw [b3] at h1
        have h2 := M.started.start_le.1
        have : busy c cpt t2 tb (decide (i ∈ sb.live)) = 0 := by
          unfold busy
          split <;> omega
        rw [this]; simp)
      rwa [zero_mul] at this
    have hzero : ∀ {x : Nat}, (0 : ℚ) ≤ R * x := fun {x} => by positivity
    refine ⟨fun i => A i + D i, ?_, ?_, ?_⟩
    · intro i t ht
      by_cases hil : i ∈ F.P.s1.live
      · obtain ⟨t0, ta, t2, tb, b1, b2, M, b3, b4, b6⟩ := hlive i hil
        have b5 := hinj _ b6
        have e := M.after
        rw [ht] at e
        have e := Option.some.inj e
        subst e
        have hK0 := Props.aloneBw_nonneg hT t2.params ⟨b5, rfl⟩
        have hK := Props.within_alone hT true _ _ _ _ _ _ _ hn1 hrates i t2 hil b2 ⟨b5, rfl⟩
        have hq := M.notWaiting
        simp only [hD, hil, if_true, b2, ht]
        obtain ⟨cyc, mx, h3, h4, h5⟩ := M.ended
        rw [ecpt, Nat.add_sub_cancel] at h3 h5
        have hstart := M.started.start_le.2
        have hkey := cyc_le_share hpos h3 hstart (by omega)
        have hm0 : t2.moved = ta.moved := by rw [M.same]
        have hd0 : t2.dependsOn = ta.dependsOn := by rw [M.same]
        have hp0 : t2.params = ta.params := by rw [M.same]
        have hpt : t.params = t2.params := by
          rcases h5 with ⟨_, _, e⟩ | ⟨_, _, _, _, e⟩ <;> rw [e]
        have hdt : t.dependsOn = t2.dependsOn := by
          rcases h5 with ⟨_, _, e⟩ | ⟨_, _, _, _, e⟩ <;> rw [e]
        set K := Props.aloneBw .exact dev t2.params with hKd
        have hprev : (t2.moved : ℚ) ≤ A i + K * slack cpt c sa.deps t2 := by
          by_cases hla : i ∈ sa.live
          · have := (hA i ta M.before).2.1 hla
            rw [hm0, hKd, hp0]
            have hsl : slack cpt c sa.deps t2 = slack cpt c sa.deps ta := by unfold slack; rw [hd0]
            rw [hsl]; exact this
          · rcases (F.mem_live1 i).mp hil with hcc | ⟨o, hcc, _⟩
            · exact absurd hcc hla
            · rw [hm0, (hia.waiting _ hcc ta M.before).2.2, Nat.cast_zero,
                (hA i ta M.before).1 (List.mem_map_of_mem (f := (·.2)) hcc), zero_add]
              exact mul_nonneg hK0 (slack_nonneg _ _ _ _)
        have hb2 := hbw0 i hil t2 b2
        set n := min (t2.params.totalBytes - t2.moved) mx with hn
        have hbytes : ((n : Nat) : ℚ) ≤ cyc * t2.bw := by
          obtain ⟨_, _, hmx⟩ := toSize_ok h4
          have hx0 : (0 : ℚ) ≤ cyc * t2.bw := by positivity
          have h1 : (mx : ℚ) ≤ cyc * t2.bw := by rw [hmx]; exact toNat_floor_le hx0
          have h2 : ((n : Nat) : ℚ) ≤ mx := by exact_mod_cast min_le_right _ _
          linarith
        have hmoved : (t.moved : ℚ) = t2.moved + (n : ℚ) := by
          rcases h5 with ⟨_, _, e⟩ | ⟨htot, _, _, _, e⟩
          · rw [e]; push_cast; rfl
          · have : t.moved = t2.moved + n := by rw [e]; exact htot.symm
            rw [this]; push_cast; rfl
        have hmo := slack_mono (cpt := cpt) (deps := sa.deps) (t := t2) (Nat.le_add_right c cpt)
        -- the bytes of the timestep: for the whole timestep, or up to the end
        have hfull : (n : ℚ) ≤ cpt * share c (c + cpt) t2 * t2.bw +
            K * (slack cpt (c + cpt) sa.deps t2 - slack cpt c sa.deps t2) := by
          have x1 : (cyc : ℚ) * t2.bw ≤ (cpt * share c (c + cpt) t2 +
              (slack cpt (c + cpt) sa.deps t2 - slack cpt c sa.deps t2)) * t2.bw :=
            mul_le_mul_of_nonneg_right (by linarith) hb2
          have x2 : (slack cpt (c + cpt) sa.deps t2 - slack cpt c sa.deps t2) * t2.bw ≤
              (slack cpt (c + cpt) sa.deps t2 - slack cpt c sa.deps t2) * K :=
            mul_le_mul_of_nonneg_left hK (by linarith)
          nlinarith
        have hstep : (n : ℚ) ≤ busy c cpt t2 t (decide (i ∈ sb.live)) * t2.bw +
            K * (slack cpt (c + cpt) sa.deps t2 - slack cpt c sa.deps t2) := by
          have hbusy : ∀ b, (b = true ∨ c + cpt ≤ t.endc) →
              (busy c cpt t2 t b : ℚ) = cpt * share c (c + cpt) t2 := by
            intro b hb
            rw [share_mul hpos]
            have : busy c cpt t2 t b + max c t2.start = c + cpt := by
              unfold busy
              rcases hb with hb | hb
              · rw [if_pos hb]; omega
              · split <;> omega
            have : (busy c cpt t2 t b : ℚ) + (max c t2.start : Nat) = ((c + cpt : Nat) : ℚ) := by exact_mod_cast this
            linarith
          rcases h5 with ⟨_, hl, _⟩ | ⟨htot, hl, e, he, et⟩
          · rw [hbusy _ (Or.inl (by simpa using hl))]
            exact hfull
          · by_cases hlate : c + cpt ≤ t.endc
            · rw [hbusy _ (Or.inr hlate)]
              exact hfull
            · obtain ⟨hne, hce, hee, hle⟩ := transferEnd_exact (cyc := cyc) he h4 (min_le_right _ _)
              have hcl := cyclesActive_le h3 hstart rfl (by omega)
              have hmod : t.endc = e := by
                rw [et]
                exact Nat.mod_eq_of_lt (by omega)
              have hbp : 0 < t2.bw := lt_of_le_of_ne hb2 (Ne.symm hne)
              have hd : decide (i ∈ sb.live) = false := by simpa using hl
              rw [hd]
              have hbs : busy c cpt t2 t false = ((n : ℚ) / t2.bw).ceil.toNat := by
                unfold busy
                simp only [Bool.false_eq_true, if_false]
                rw [hmod, hee, max_comm t2.start c]
                omega
              have hcv : (n : ℚ) / t2.bw ≤ (busy c cpt t2 t false : ℚ) := by
                rw [hbs]
                have h1 : (n : ℚ) / t2.bw ≤ (((n : ℚ) / t2.bw).ceil : ℚ) := Rat.le_ceil
                have h2 : ((((n : ℚ) / t2.bw).ceil.toNat : Nat) : ℚ) = ((((n : ℚ) / t2.bw).ceil : Int) : ℚ) := by
                  have : ((((n : ℚ) / t2.bw).ceil.toNat : Nat) : Int) = ((n : ℚ) / t2.bw).ceil := Int.toNat_of_nonneg hce
                  exact_mod_cast this
                rw [h2]; exact h1
              have := (div_le_iff₀ hbp).mp hcv
              have := mul_nonneg hK0 (sub_nonneg.mpr hmo)
              linarith
        have hmain : (t.moved : ℚ) ≤ A i + busy c cpt t2 t (decide (i ∈ sb.live)) * t2.bw +
            K * slack cpt (c + cpt) sa.deps t2 := by
          rw [hmoved]
          rw [mul_sub] at hstep
          linarith
        have hds := F.live_dep_same hil b2
        have hsl : slack cpt (c + cpt) sb.deps t = slack cpt (c + cpt) sa.deps t2 := by
          unfold slack
          rw [hdt, hds]
        refine ⟨fun hcq => absurd hcq hq, ?_, ?_⟩
        · intro _
          rw [hpt, ecpt, hsl]; exact hmain
        · intro _
          rw [hpt, hdt]
          have := mul_le_mul_of_nonneg_left (slack_le cpt (c + cpt) sa.deps t2) hK0
          linarith
      · simp only [hD, hil, if_false, add_zero]
        have hilt : i < sa.ts.length := by
          rw [← F.len]; exact (List.getElem?_eq_some_iff.mp ht).1
        obtain ⟨t', h1, h2⟩ := F.inactive (List.getElem?_eq_getElem hilt) hil
        rw [ht] at h1
        have h1 := Option.some.inj h1
        subst h1
        obtain ⟨a1, a2, a3⟩ := hA i _ (List.getElem?_eq_getElem hilt)
        have hqq : i ∈ sb.queue.map (·.2) ↔ i ∈ sa.queue.map (·.2) := by
          constructor
          · intro hcc
            obtain ⟨⟨o, j⟩, hx, rfl⟩ := List.mem_map.mp hcc
            exact List.mem_map_of_mem (f := (·.2)) ((F.queue_eq (o, j)).mp hx).1
          · intro hcc
            obtain ⟨⟨o, j⟩, hx, rfl⟩ := List.mem_map.mp hcc
            refine List.mem_map_of_mem (f := (·.2)) ((F.queue_eq (o, j)).mpr ⟨hx, ?_⟩)
            by_contra hdd
            exact hil ((F.mem_live1 j).mpr (Or.inr ⟨o, hx, by simpa using hdd⟩))
        refine ⟨fun hcq => a1 (hqq.mp hcq), ?_, ?_⟩
        · intro hcc
          exfalso
          rw [congrArg Sim.live F.P.res] at hcc
          exact hil (List.mem_filter.mp hcc).1
        · intro hcq
          have := a3 (fun hx => hcq (hqq.mpr hx))
          rw [h2]
          exact this
    · rw [hsplit, ecpt]
      by_cases hco : c < o
      · have h1 := hbefore hco
        have h2 : c - o = 0 := by omega
        rw [h2, Nat.cast_zero, mul_zero] at hsum
        have := @hzero (c + cpt - o)
        linarith
      · have h1 := hDle cpt (fun i hi t2 tb e1 e2 e3 e4 => busy_le hpos e3 _)
        have h2 := mul_le_mul_of_nonneg_left hfl (show (0 : ℚ) ≤ cpt by positivity)
        have h3 : ((c + cpt - o : Nat) : ℚ) = (c - o : Nat) + cpt := by
          have : c + cpt - o = (c - o) + cpt := by omega
          rw [this]; push_cast; rfl
        rw [h3, mul_add]
        linarith
    · intro E hends
      rw [hsplit]
      by_cases hco : c < o
      · have h1 := hbefore hco
        have h2 : c - o = 0 := by omega
        rw [h2, Nat.cast_zero, mul_zero] at hsum
        have := @hzero (E - o)
        linarith
      have hget : ∀ i ∈ F.P.s1.live, ∀ t2 tb, F.P.ts2[i]? = some t2 → sb.ts[i]? = some tb → w tb = w t2 := by
        intro i hi t2 tb e1 e2
        obtain ⟨t0, ta, t2', tb', b1, b2, M, b3, b4, b5⟩ := hlive i hi
        rw [e1] at b2
        have b2 := Option.some.inj b2
        subst b2
        have b6 := M.after
        rw [e2] at b6
        have b6 := Option.some.inj b6
        subst b6
        obtain ⟨_, _, _, _, h5⟩ := M.ended
        exact hw tb t2 (by rcases h5 with ⟨_, _, e⟩ | ⟨_, _, _, _, e⟩ <;> rw [e])
          (by rcases h5 with ⟨_, _, e⟩ | ⟨_, _, _, _, e⟩ <;> rw [e])
      by_cases hany : ∃ i ∈ F.P.s1.live, ∃ t2, F.P.ts2[i]? = some t2 ∧ w t2 ≠ 0
      · have hcE : c ≤ E := by
          obtain ⟨i, hi, t2, e1, e4⟩ := hany
          obtain ⟨t0, ta, t2', tb, b1, b2, M, b3, b4, b5⟩ := hlive i hi
          have hwb := hget i hi t2 tb e1 M.after
          rw [e1] at b2
          have b2 := Option.some.inj b2
          subst b2
          obtain ⟨_, a2, a3⟩ := hends i tb M.after (by rw [hwb]; exact e4)
          obtain ⟨cyc, mx, h3, h4, h5⟩ := M.ended
          rw [ecpt, Nat.add_sub_cancel] at h3 h5
          rcases h5 with ⟨_, hl, _⟩ | ⟨htot, hl, e, he, et⟩
          · exact absurd hl a2
          · obtain ⟨hne, hce, hee, hle⟩ := transferEnd_exact (cyc := cyc) he h4 (min_le_right _ _)
            have hcl := cyclesActive_le h3 M.started.start_le.2 rfl (by omega)
            have hmod : tb.endc = e := by
              rw [et]
              exact Nat.mod_eq_of_lt (by omega)
            omega
        have hstep : ∃ x : ℚ, x ≤ (E : ℚ) - c ∧ 0 ≤ x ∧ ((List.range s0.ts.length).map fun i => weightOf w s0 i * D i).sum ≤
            x * offered w c (c + cpt) F.P.ts2 F.P.s1.live := by
          have hq1 : (c : ℚ) ≤ E := by exact_mod_cast hcE
          by_cases hEc : E ≤ c + cpt
          · refine ⟨(E : ℚ) - c, le_refl _, by linarith, hDle _ (fun i hi t2 tb e1 e2 e3 e4 => ?_)⟩
            obtain ⟨_, a2, a3⟩ := hends i tb e2 (by rw [hget i hi t2 tb e1 e2]; exact e4)
            have hd : decide (i ∈ sb.live) = false := by simpa using a2
            rw [hd]
            exact busy_part hpos e3 a3 hcE hEc
          · have hq2 : ((c + cpt : Nat) : ℚ) ≤ E := by exact_mod_cast (by omega : c + cpt ≤ E)
            push_cast at hq2
            exact ⟨cpt, by linarith, by positivity, hDle cpt (fun i hi t2 tb e1 e2 e3 e4 => busy_le hpos e3 _)⟩
        obtain ⟨x, x1, x2, x3⟩ := hstep
        have h2 := mul_le_mul_of_nonneg_left hfl x2
        have h4 := mul_le_mul_of_nonneg_right x1 hR
        have h3 : ((E - o : Nat) : ℚ) = (c - o : Nat) + ((E : ℚ) - c) := by
          have : E - o + c = (c - o) + E := by omega
          have : ((E - o : Nat) : ℚ) + c = (c - o : Nat) + E := by exact_mod_cast this
          linarith
        rw [h3, mul_add]
        linarith
      · have h1 := hDle 0 (fun i hi t2 tb e1 e2 e3 e4 => absurd ⟨i, hi, t2, e1, e4⟩ hany)
        rw [zero_mul] at h1
        have h2 := hfin E (by
          intro i t ht hwt
          have hnl : i ∉ F.P.s1.live := by
            intro hi
            obtain ⟨t0, ta, t2, tb, b1, b2, M, b3, b4, b5⟩ := hlive i hi
            refine hany ⟨i, hi, t2, b2, ?_⟩
            have b6 := M.before
            rw [ht] at b6
            have b6 := Option.some.inj b6
            subst b6
            rw [hw t2 t (by rw [M.same]) (by rw [M.same])]
            exact hwt
          obtain ⟨t', c1, c2⟩ := F.inactive ht hnl
          have hwt' : w t' ≠ 0 := by
            rw [hw t' t (by rw [c2]) (by rw [c2])]; exact hwt
          obtain ⟨d1, d2, d3⟩ := hends i _ c1 hwt'
          have d3 : t.endc ≤ E := by rw [c2] at d3; exact d3
          refine ⟨?_, fun hcc => hnl ((F.mem_live1 i).mpr (Or.inl hcc)), d3⟩
          intro hcc
          obtain ⟨⟨o', j⟩, hx, rfl⟩ := List.mem_map.mp hcc
          apply d1
          refine List.mem_map_of_mem (f := (·.2)) ((F.queue_eq (o', j)).mpr ⟨hx, ?_⟩)
          by_contra hdd
          exact hnl ((F.mem_live1 j).mpr (Or.inr ⟨o', hx, by simpa using hdd⟩)))
        linarith

end NPE
