import Verif.Proofs.Timing
import Verif.Spec.Credit

/-
What a transfer may move at most, with any rounding.
-/

namespace NPE
open Spec

theorem rounded_nonneg {x : ℚ} (h : 0 ≤ x) : 0 ≤ rounded x := by unfold rounded; positivity

theorem le_rounded {x : ℚ} (h : 0 ≤ x) : x ≤ rounded x := by unfold rounded; nlinarith

/-- Bytes that were credited are at most the product of rate and cycles, up to rounding. -/
theorem mx_le_mul {R : Rounding} {bw : ℚ} {cyc mx bytes : Nat} (hm : toSize (R.fl (R.fl cyc * bw)) = .ok mx)
    (hb : bytes ≤ mx) : bytes = 0 ∨ (0 < bw ∧ (bytes : ℚ) ≤ cyc * bw * (1 + 1 / 16777216) ^ 2) := by
  obtain ⟨_, _, hmx⟩ := toSize_ok hm
  have hc0 : (0 : ℚ) ≤ cyc := by positivity
  rcases Nat.eq_zero_or_pos bytes with h0 | h0
  · exact Or.inl h0
  · right
    have hfc0 : 0 ≤ R.fl cyc := R.fl_nonneg hc0
    have hpos : 0 < bw := by
      by_contra hc
      have h1 : R.fl cyc * bw ≤ 0 := mul_nonpos_of_nonneg_of_nonpos hfc0 (not_lt.mp hc)
      have h2 := R.fl_nonpos h1
      have h3 : (R.fl (R.fl cyc * bw)).floor ≤ 0 := by
        have : ((R.fl (R.fl cyc * bw)).floor : ℚ) ≤ 0 := le_trans (Rat.le_floor_iff.mp (le_refl _)) h2
        exact_mod_cast this
      omega
    refine ⟨hpos, ?_⟩
    have hx0 : 0 ≤ R.fl (R.fl cyc * bw) := R.fl_nonneg (by positivity)
    have h1 : (bytes : ℚ) ≤ R.fl (R.fl cyc * bw) := by
      have h2 : (mx : ℚ) ≤ R.fl (R.fl cyc * bw) := by rw [hmx]; exact toNat_floor_le hx0
      have h3 : (bytes : ℚ) ≤ mx := by exact_mod_cast hb
      linarith
    have h3 := R.fl_le_err (x := R.fl cyc * bw) (by positivity)
    have h4 := R.fl_le_err hc0
    have := mul_le_mul_of_nonneg_right h4 hpos.le
    have := mul_le_mul_of_nonneg_right this (by norm_num : (0 : ℚ) ≤ 1 + 1 / 16777216)
    calc (bytes : ℚ) ≤ R.fl cyc * bw * (1 + 1 / 16777216) := le_trans h1 h3
      _ ≤ cyc * (1 + 1 / 16777216) * bw * (1 + 1 / 16777216) := this
      _ = _ := by ring

theorem mx_le_rounded {R : Rounding} {bw cap : ℚ} {cyc mx bytes : Nat}
    (hm : toSize (R.fl (R.fl cyc * bw)) = .ok mx) (hb : bytes ≤ mx) (h : bw ≤ cap) (h0 : 0 ≤ cap) :
    (bytes : ℚ) ≤ rounded cap * cyc := by
  rcases mx_le_mul hm hb with hz | ⟨hpos, h1⟩
  · rw [hz, Nat.cast_zero]
    exact mul_nonneg (rounded_nonneg h0) (by positivity)
  · refine h1.trans ?_
    have : (cyc : ℚ) * bw ≤ cyc * cap := mul_le_mul_of_nonneg_left h (by positivity)
    have := mul_le_mul_of_nonneg_right this (by norm_num : (0 : ℚ) ≤ (1 + 1 / 16777216) ^ 2)
    unfold rounded
    linarith

/-- Bytes of a completing transfer against the recorded end, up to 100,000,000 cycles. -/
theorem bytes_le_end {fp : FP} {sot : Nat} {t : TState} {cap : ℚ} {cyc mx bytes e : Nat}
    (h : transferEnd fp sot t bytes = .ok e)
    (hm : toSize (fp.f32.fl (fp.f32.fl cyc * t.bw)) = .ok mx) (hb : bytes ≤ mx) (hbw : t.bw ≤ cap) (h0 : 0 ≤ cap)
    (hlim : max t.start sot + cyc ≤ 100000000) :
    (bytes : ℚ) ≤ rounded cap * ((e : ℚ) - (max t.start sot : Nat) + 24) := by
  unfold transferEnd at h
  simp only at h
  split at h
  · simp at h
  rename_i hne
  obtain ⟨_, _, he⟩ := toSize_ok h
  set R := fp.f32
  set m : ℚ := ((max t.start sot : Nat) : ℚ) with hmdef
  have hm0 : 0 ≤ m := by positivity
  have hc0 : (0 : ℚ) ≤ cyc := by positivity
  have hl : m + cyc ≤ 100000000 := by rw [hmdef]; exact_mod_cast hlim
  set x := R.fl (R.fl bytes / t.bw) with hx
  -- the time that the bytes need
  obtain ⟨y, hy0, hyc, hyx, hyb⟩ : ∃ y : ℚ, 0 ≤ y ∧ y ≤ cyc * (1 + 1 / 16777216) ^ 2 ∧
      y * (1 - 1 / 16777216) ^ 2 ≤ x ∧ (bytes : ℚ) ≤ cap * y := by
    rcases mx_le_mul hm hb with hz | ⟨hpos, h1⟩
    · refine ⟨0, le_rfl, by positivity, ?_, ?_⟩
      · rw [hx, hz, Nat.cast_zero, R.fl_zero, zero_div, R.fl_zero, zero_mul]
      · rw [hz]; simp
    · refine ⟨bytes / t.bw, by positivity, ?_, ?_, ?_⟩
      · rw [div_le_iff₀ hpos]
        linarith
      · have hb0 : (0 : ℚ) ≤ bytes := by positivity
        have a1 := R.fl_ge_err hb0
        have a2 := R.fl_ge_err (x := R.fl bytes / t.bw) (div_nonneg (R.fl_nonneg hb0) hpos.le)
        have a3 : (bytes : ℚ) * (1 - 1 / 16777216) / t.bw ≤ R.fl bytes / t.bw :=
          div_le_div_of_nonneg_right a1 hpos.le
        have a4 := mul_le_mul_of_nonneg_right a3 (by norm_num : (0 : ℚ) ≤ 1 - 1 / 16777216)
        calc (bytes : ℚ) / t.bw * (1 - 1 / 16777216) ^ 2 =
            bytes * (1 - 1 / 16777216) / t.bw * (1 - 1 / 16777216) := by ring
          _ ≤ _ := a4.trans a2
      · have : (bytes : ℚ) = t.bw * (bytes / t.bw) := by field_simp
        calc (bytes : ℚ) = t.bw * (bytes / t.bw) := this
          _ ≤ cap * (bytes / t.bw) := mul_le_mul_of_nonneg_right hbw (by positivity)
  have hceil : x ≤ ((x.ceil : Int) : ℚ) := Rat.ceil_le_iff.mp (le_refl _)
  have hfm := R.fl_ge_err hm0
  have hx0 : 0 ≤ x := le_trans (by positivity) hyx
  have hfm0 := R.fl_nonneg hm0
  have hS0 : 0 ≤ R.fl m + ((x.ceil : Int) : ℚ) := by linarith
  have hS := R.fl_ge_err hS0
  have hfl : R.fl (R.fl m + ((x.ceil : Int) : ℚ)) < (e : ℚ) + 1 := by
    have h1 := Rat.lt_floor (x := R.fl (R.fl m + ((x.ceil : Int) : ℚ)))
    have h2 : 0 ≤ (R.fl (R.fl m + ((x.ceil : Int) : ℚ))).floor := by
      rw [Rat.le_floor_iff]
      push_cast
      exact R.fl_nonneg hS0
    have h3 : ((e : Nat) : ℚ) = (((R.fl (R.fl m + ((x.ceil : Int) : ℚ))).floor : Int) : ℚ) := by
      rw [he]
      have := Int.toNat_of_nonneg h2
      exact_mod_cast congrArg (Int.cast : Int → ℚ) this
    rw [h3]
    push_cast at h1 ⊢
    linarith
  have key : y ≤ (e : ℚ) - m + 24 := by
    have : (1 - 1 / 16777216 : ℚ) ^ 2 * y = y * (1 - 1 / 16777216) ^ 2 := by ring
    nlinarith
  calc (bytes : ℚ) ≤ cap * y := hyb
    _ ≤ cap * ((e : ℚ) - m + 24) := mul_le_mul_of_nonneg_left key h0
    _ ≤ rounded cap * ((e : ℚ) - m + 24) := mul_le_mul_of_nonneg_right (le_rounded h0) (hy0.trans key)

/-- The rate of an active transfer after the rate computation of a timestep. -/
theorem StepFacts.member_cap {cfg : SimCfg} {P : Transfer → Prop} {cap : Transfer → ℚ}
    (hw : WithinCap cfg.rates P cap)
    {prev curr : Nat} {s s' : Sim} (F : StepFacts cfg prev curr s s') {i : Nat}
    (h : i ∈ F.P.s1.live) {t : TState} (ht : F.P.ts2[i]? = some t)
    (h0 : P t.params) : t.bw ≤ cap t.params :=
  hw _ _ _ _ _ _ _ (List.nodup_append.mp F.inv1.nodup).2.1 F.P.rates i t h ht h0

/-- The credit invariant of a run, for any rounding. -/
theorem credit_rounded {cfg : SimCfg} (hr : RatesOk cfg.rates) {P : Transfer → Prop} {cap : Transfer → ℚ}
    (hw : Spec.WithinCap cfg.rates P cap) (hcap : ∀ t, P t → 0 ≤ cap t) (hcpt : cfg.cpt ≤ 25000000)
    {s0 : Sim} (hi0 : Inv 0 s0) (hl0 : s0.live = [])
    (hq0 : ∀ i, i < s0.ts.length → i ∈ s0.queue.map (·.2)) {c : Nat} {s : Sim}
    (hs : Reach cfg s0 c s) (i : Nat) (t : TState) (ht : s.ts[i]? = some t)
    (hP : P t.params) :
    (i ∈ s.live → (t.moved : ℚ) ≤
      rounded (cap t.params) * ((c : ℚ) - t.start + slack cfg.cpt c s.deps t)) ∧
    (i ∉ s.queue.map (·.2) → i ∉ s.live →
      (t.moved : ℚ) ≤ rounded (cap t.params) *
        ((t.endc : ℚ) - t.start + 24 + if t.dependsOn = -1 then 0 else (cfg.cpt : ℚ)) ∧
      (t.moved : ℚ) ≤ rounded (cap t.params) *
        ((c : ℚ) - t.start + if t.dependsOn = -1 then 0 else (cfg.cpt : ℚ))) := by
  induction hs generalizing t with
  | start =>
    constructor
    · intro h; rw [hl0] at h; simp at h
    · intro h
      exact absurd (hq0 i (List.getElem?_eq_some_iff.mp ht).1) h
  | @step c sa sb hs hc h ih =>
    have hi := hs.inv hr hi0
    have hck := hs.clock_le (by omega)
    obtain ⟨F⟩ := step_facts hr (Nat.le_add_right _ _) hi h
    have hlt : i < sa.ts.length := by
      rw [← F.len]; exact (List.getElem?_eq_some_iff.mp ht).1
    by_cases hl : i ∈ F.P.s1.live
    · obtain ⟨t0, t2, t', h2, M⟩ := F.member_rates hl
      have e := M.after
      rw [ht] at e
      have e := Option.some.inj e
      subst e
      obtain ⟨cyc, mx, h3, h4, h5⟩ := M.ended
      rw [Nat.add_sub_cancel] at h3 h5
      have hst := M.started.start_le.2
      have hp : t.params = t2.params := by
        rcases h5 with ⟨_, _, e⟩ | ⟨_, _, _, _, e⟩ <;> rw [e]
      have hP2 : P t2.params := hp ▸ hP
      have h0 := hcap _ hP2
      have hbw := F.member_cap hw hl h2 hP2
      have hK := rounded_nonneg h0
      set K := rounded (cap t2.params) with hKd
      have hstart : t.start = t2.start := by
        rcases h5 with ⟨_, _, e⟩ | ⟨_, _, _, _, e⟩ <;> rw [e]
      have hdep : t.dependsOn = t2.dependsOn := by
        rcases h5 with ⟨_, _, e⟩ | ⟨_, _, _, _, e⟩ <;> rw [e]
      have hp0 : t2.params = t0.params := by rw [M.same]
      have hm0 : t2.moved = t0.moved := by rw [M.same]
      have hd0 : t2.dependsOn = t0.dependsOn := by rw [M.same]
      have hP0 : P t0.params := hp0 ▸ hP2
      -- credit before this timestep
      have hprev : (t2.moved : ℚ) ≤ K *
          (((max t2.start c : Nat) : ℚ) - t2.start + slack cfg.cpt c sa.deps t2) := by
        by_cases hla : i ∈ sa.live
        · have hstc : t2.start ≤ c := by
            rw [M.start.1 hla]
            have hq : i ∉ sa.queue.map (·.2) := fun hcc =>
              (List.nodup_append.mp hi.nodup).2.2 i hcc i hla rfl
            exact (hi.started i t0 M.before hq).start_le.2
          have := (ih t0 M.before hP0).1 hla
          rw [← hp0, ← hKd] at this
          rw [max_eq_right hstc, hm0, M.start.1 hla]
          have hsl : slack cfg.cpt c sa.deps t2 = slack cfg.cpt c sa.deps t0 := by
            unfold slack; rw [hd0]
          rw [hsl]; exact this
        · have hm : t2.moved = 0 := by
            rw [hm0]
            rcases (F.mem_live1 i).mp hl with hcc | ⟨o, hcc, _⟩
            · exact absurd hcc hla
            · exact (hi.waiting _ hcc t0 M.before).2.2
          rw [hm, Nat.cast_zero]
          apply mul_nonneg hK
          have h6 : (t2.start : ℚ) ≤ ((max t2.start c : Nat) : ℚ) := by exact_mod_cast le_max_left _ _
          have := slack_nonneg cfg.cpt c sa.deps t2
          linarith
      have hnewly : i ∉ sa.live → t2.moved = 0 := by
        intro hla
        rw [hm0]
        rcases (F.mem_live1 i).mp hl with hcc | ⟨o, hcc, _⟩
        · exact absurd hcc hla
        · exact (hi.waiting _ hcc t0 M.before).2.2
      have hbytes : ((min (t2.params.totalBytes - t2.moved) mx : Nat) : ℚ) ≤ K * cyc :=
        mx_le_rounded h4 (min_le_right _ _) hbw h0
      have hmoved : (t.moved : ℚ) = t2.moved + ((min (t2.params.totalBytes - t2.moved) mx : Nat) : ℚ) := by
        rcases h5 with ⟨_, _, e⟩ | ⟨htot, _, _, _, e⟩
        · rw [e]; push_cast; rfl
        · have : t.moved = t2.moved + min (t2.params.totalBytes - t2.moved) mx := by rw [e]; exact htot.symm
          rw [this]; push_cast; rfl
      set bytes := min (t2.params.totalBytes - t2.moved) mx with hbd
      -- the bound by the clock, whether the transfer completes or not
      have hclock : (t.moved : ℚ) ≤ K * (((c + cfg.cpt : Nat) : ℚ) - t2.start +
          slack cfg.cpt (c + cfg.cpt) sa.deps t2) := by
        by_cases hla : i ∈ sa.live
        · have hq : i ∉ sa.queue.map (·.2) := fun hcc =>
            (List.nodup_append.mp hi.nodup).2.2 i hcc i hla rfl
          have hstc : t2.start ≤ c := by
            rw [M.start.1 hla]
            exact (hi.started i t0 M.before hq).start_le.2
          rw [max_eq_right hstc] at hprev
          have key : (cyc : ℚ) + slack cfg.cpt c sa.deps t2 ≤
              cfg.cpt + slack cfg.cpt (c + cfg.cpt) sa.deps t2 := by
            rcases cyclesActive_cases h3 hst rfl (by omega) with h | ⟨cp, _, hcp, _, _, h7, h8, h⟩
            · have h9 : (cyc : ℚ) ≤ cfg.cpt := by
                rw [h]; exact_mod_cast min_le_left _ _
              have := slack_mono (cpt := cfg.cpt) (deps := sa.deps) (t := t2)
                (Nat.le_add_right c cfg.cpt)
              linarith
            · have e1 : slack cfg.cpt c sa.deps t2 = 0 := by
                unfold slack; rw [hcp]; simp only; rw [if_pos (by omega)]
              have e2 : slack cfg.cpt (c + cfg.cpt) sa.deps t2 = cfg.cpt := by
                unfold slack; rw [hcp]; simp only; rw [if_neg (by omega)]
              rw [e1, e2]
              have : (cyc : ℚ) ≤ ((2 * cfg.cpt : Nat) : ℚ) := by exact_mod_cast (by omega : cyc ≤ 2 * cfg.cpt)
              push_cast at this
              linarith
          have := mul_le_mul_of_nonneg_left key hK
          rw [hmoved]
          push_cast
          rw [mul_add, mul_add] at this
          rw [mul_add, mul_sub] at hprev
          rw [mul_add, mul_sub, mul_add]
          linarith
        · rw [hmoved, hnewly hla, Nat.cast_zero, zero_add]
          refine le_trans hbytes (mul_le_mul_of_nonneg_left ?_ hK)
          have h6 := (cyclesActive_le h3 hst rfl (by omega)).1
          have h7 : (cyc : ℚ) + t2.start ≤ ((c + cfg.cpt : Nat) : ℚ) := by
            exact_mod_cast (by omega : cyc + t2.start ≤ c + cfg.cpt)
          have := slack_nonneg cfg.cpt (c + cfg.cpt) sa.deps t2
          linarith
      rw [hp, hstart, ← hKd]
      constructor
      · intro hlive
        by_cases hla : i ∈ sa.live
        · have hq : i ∉ sa.queue.map (·.2) := fun hcc =>
            (List.nodup_append.mp hi.nodup).2.2 i hcc i hla rfl
          have hdsame := F.own_dep_same hi M.before hq
          have hsl' : slack cfg.cpt (c + cfg.cpt) sb.deps t = slack cfg.cpt (c + cfg.cpt) sa.deps t2 := by
            unfold slack
            rw [hdep, hd0, hdsame]
          rw [hsl']
          exact hclock
        · rw [hmoved, hnewly hla, Nat.cast_zero, zero_add]
          refine le_trans hbytes (mul_le_mul_of_nonneg_left ?_ hK)
          have h6 := (cyclesActive_le h3 hst rfl (by omega)).1
          have h7 : (cyc : ℚ) + t2.start ≤ ((c + cfg.cpt : Nat) : ℚ) := by
            exact_mod_cast (by omega : cyc + t2.start ≤ c + cfg.cpt)
          have := slack_nonneg cfg.cpt (c + cfg.cpt) sb.deps t
          linarith
      · intro _ hnl
        refine ⟨?_, ?_⟩
        · rcases h5 with ⟨_, hcon, _⟩ | ⟨htot, _, ee, h6, e⟩
          · exact absurd hcon hnl
          have hcl := cyclesActive_le h3 hst rfl (by omega)
          have hck2 : c ≤ 75000000 := by
            cases hs with
            | start => omega
            | step _ _ _ => omega
          have hc50 : c ≤ 50000000 := by omega
          have hmc : max t2.start c + cyc ≤ 100000000 := by omega
          have hee := transferEnd_le h6 h4 (min_le_right _ _)
          have hendc : t.endc = ee := by
            rw [e]; exact Nat.mod_eq_of_lt (by omega)
          have hbe := bytes_le_end h6 h4 (min_le_right _ _) hbw h0 hmc
          rw [hmoved, hendc, hdep]
          have hsl := slack_le cfg.cpt c sa.deps t2
          have h9 := mul_le_mul_of_nonneg_left hsl hK
          rw [mul_add, mul_sub] at hprev
          rw [← hKd] at hbe
          have e3 : K * ((ee : ℚ) - t2.start + 24 + if t2.dependsOn = -1 then 0 else (cfg.cpt : ℚ)) =
              K * ((ee : ℚ) - (max t2.start c : Nat) + 24) + (K * ((max t2.start c : Nat) : ℚ) - K * t2.start) +
                K * (if t2.dependsOn = -1 then 0 else (cfg.cpt : ℚ)) := by ring
          rw [e3]
          linarith
        · rw [hdep]
          refine hclock.trans (mul_le_mul_of_nonneg_left ?_ hK)
          have hsl := slack_le cfg.cpt (c + cfg.cpt) sa.deps t2
          linarith
    · obtain ⟨t', h1, h2⟩ := F.inactive (List.getElem?_eq_getElem hlt) hl
      rw [ht] at h1
      have h1 := Option.some.inj h1
      subst h1
      have hpar : t.params = (sa.ts[i]).params := by rw [h2]
      have IH := ih _ (List.getElem?_eq_getElem hlt) (by rw [← hpar]; exact hP)
      have hK := rounded_nonneg (hcap _ hP)
      have hnl : i ∉ sa.live := fun hcc => hl ((F.mem_live1 i).mpr (Or.inl hcc))
      constructor
      · intro hlive
        exfalso
        rw [congrArg Sim.live F.P.res] at hlive
        exact hl (List.mem_filter.mp hlive).1
      · intro hnq _
        have hq : i ∉ sa.queue.map (·.2) := by
          intro hcc
          obtain ⟨⟨o, j⟩, hx, rfl⟩ := List.mem_map.mp hcc
          apply hnq
          refine List.mem_map_of_mem (f := (·.2)) ((F.queue_eq (o, j)).mpr ⟨hx, ?_⟩)
          by_contra hd
          exact hl ((F.mem_live1 j).mpr (Or.inr ⟨o, hx, by simpa using hd⟩))
        have := IH.2 hq hnl
        rw [← hpar] at this
        have e1 : t.moved = (sa.ts[i]).moved := by rw [h2]
        have e2 : t.endc = (sa.ts[i]).endc := by rw [h2]
        have e3 : t.start = (sa.ts[i]).start := by rw [h2]
        have e4 : t.dependsOn = (sa.ts[i]).dependsOn := by rw [h2]
        rw [e1, e2, e3, e4]
        refine ⟨this.1, this.2.trans (mul_le_mul_of_nonneg_left ?_ hK)⟩
        have : (c : ℚ) ≤ ((c + cfg.cpt : Nat) : ℚ) := by exact_mod_cast Nat.le_add_right _ _
        linarith


end NPE
