import Verif.Proofs.Member

/-
Cycle accounting: how many cycles a timestep credits and when a transfer ends.
-/

namespace NPE
open Spec (Reach)

theorem waiting_iff {s : Sim} {i : Nat} : Spec.Waiting s i ↔ i ∈ s.queue.map (·.2) := by
  constructor
  · rintro ⟨o, h⟩
    exact List.mem_map_of_mem (f := (·.2)) h
  · intro h
    obtain ⟨⟨o, j⟩, hx, rfl⟩ := List.mem_map.mp h
    exact ⟨o, hx⟩

theorem toU32_sub {a b : Nat} (h : b ≤ a) (h32 : a < 4294967296) : toU32 ((a : Int) - b) = a - b := by
  unfold toU32
  omega

/-- The start cycle of a started transfer is not after the clock. -/
theorem Started.start_le {deps : Tracker} {c : Nat} {t : TState} (h : Started deps c t) :
    t.params.offset ≤ t.start ∧ t.start ≤ c := by
  obtain ⟨a1, a2, a3⟩ := h
  rw [a3]
  unfold actStart
  simp only
  rcases Tracker.done_eq_ok.mp a2 with ⟨hd, _⟩ | ⟨_, cp, hcp, hd⟩
  · rw [hd]
    simp only [Tracker.get, Int.reduceNeg, Int.reduceLT, if_true]
    omega
  · rw [hcp]
    simp only [Checkpoint.done, Bool.and_eq_true, decide_eq_true_eq] at hd
    simp only
    omega

/-- The number of credited cycles: normally those of the timestep since the start; when the
dependency ended in the previous timestep, those since the start or the end of the
dependency. -/
theorem cyclesActive_cases {cpt curr sot c : Nat} {t : TState} {deps : Tracker}
    (h : cyclesActive cpt curr sot t deps = .ok c) (hst : t.start ≤ curr) (hs : curr = sot + cpt)
    (h32 : curr < 4294967296) :
    c = min cpt (curr - t.start) ∨
    (∃ cp, t.dependsOn ≠ -1 ∧ deps.get t.dependsOn = .ok cp ∧ t.start < sot ∧ cpt ≤ sot ∧
      sot ≤ cp.endc + cpt ∧ cp.endc < sot ∧ c = curr - max t.start cp.endc) := by
  unfold cyclesActive at h
  simp only [toU32_sub hst h32] at h
  by_cases hd : Tracker.defined t.dependsOn = true
  · rw [if_pos hd] at h
    obtain ⟨e, he, h⟩ := Out.bind_eq_ok.mp h
    unfold Tracker.endCycle at he
    rw [if_pos hd] at he
    obtain ⟨cp, hcp, he⟩ := Out.bind_eq_ok.mp he
    have he := Out.ok.inj he
    subst he
    by_cases hc : t.start < sot ∧ (cpt ≤ sot ∧ sot - cpt ≤ cp.endc ∧ cp.endc < sot)
    · rw [if_pos hc] at h
      obtain ⟨_, h1, h⟩ := Out.bind_eq_ok.mp h
      obtain ⟨_, h2, h⟩ := Out.bind_eq_ok.mp h
      rw [toU32_sub (by omega) h32] at h
      simp only [Out.pure_eq, Out.ok.injEq] at h
      refine Or.inr ⟨cp, ?_, hcp, hc.1, hc.2.1, by omega, hc.2.2.2, h.symm⟩
      exact of_decide_eq_true hd
    · rw [if_neg hc] at h
      exact Or.inl (Out.ok.inj h).symm
  · rw [if_neg hd] at h
    exact Or.inl (Out.ok.inj h).symm

theorem cyclesActive_le {cpt curr sot c : Nat} {t : TState} {deps : Tracker}
    (h : cyclesActive cpt curr sot t deps = .ok c) (hst : t.start ≤ curr) (hs : curr = sot + cpt)
    (h32 : curr < 4294967296) :
    c ≤ curr - t.start ∧ c ≤ 2 * cpt ∧ max t.start sot + c ≤ curr + cpt := by
  rcases cyclesActive_cases h hst hs h32 with h | ⟨cp, _, _, _, _, _, _, h⟩ <;> omega

theorem toSize_ok {x : ℚ} {n : Nat} (h : toSize x = .ok n) :
    -1 < x ∧ x < 18446744073709551616 ∧ n = x.floor.toNat := by
  unfold toSize at h
  split at h
  · rename_i hc
    exact ⟨hc.1, hc.2, (Out.ok.inj h).symm⟩
  · cases h

theorem toNat_floor_le {x : ℚ} (h : 0 ≤ x) : ((x.floor.toNat : Nat) : ℚ) ≤ x := by
  have h0 : 0 ≤ x.floor := Rat.le_floor_iff.mpr (by simpa using h)
  have h1 : ((x.floor : Int) : ℚ) ≤ x := Rat.le_floor_iff.mp (le_refl _)
  have h2 : ((x.floor.toNat : Nat) : ℚ) = ((x.floor : Int) : ℚ) := by
    have : ((x.floor.toNat : Nat) : Int) = x.floor := Int.toNat_of_nonneg h0
    exact_mod_cast this
  rw [h2]; exact h1

theorem le_toNat_floor {x : ℚ} {n : Nat} (h : (n : ℚ) ≤ x) : n ≤ x.floor.toNat := by
  have : (n : Int) ≤ x.floor := Rat.le_floor_iff.mpr (by exact_mod_cast h)
  omega

/-- Bytes that fit the byte budget of `cyc` cycles need, up to rounding, at most `cyc + 1`
cycles. -/
theorem needed_le {R : Rounding} {bw : ℚ} {cyc mx bytes : Nat} (hm : toSize (R.fl (R.fl cyc * bw)) = .ok mx)
    (hb : bytes ≤ mx) (hbw : bw ≠ 0) (hc : cyc + 1 ≤ 16777216) :
    0 ≤ (R.fl (R.fl bytes / bw)).ceil ∧ (R.fl (R.fl bytes / bw)).ceil ≤ cyc + 1 := by
  obtain ⟨_, _, hmx⟩ := toSize_ok hm
  have hfc : R.fl (cyc : ℚ) = cyc := R.fl_nat (by omega)
  rw [hfc] at hmx
  rcases Nat.eq_zero_or_pos bytes with h0 | h0
  · subst h0
    rw [Nat.cast_zero, R.fl_zero, zero_div, R.fl_zero]
    constructor
    · exact le_of_eq (by decide)
    · have : (0 : ℚ).ceil = 0 := by decide
      rw [this]; omega
  · have hpos : 0 < bw := by
      rcases lt_trichotomy bw 0 with h | h | h
      · exfalso
        have h1 : (cyc : ℚ) * bw ≤ 0 := mul_nonpos_of_nonneg_of_nonpos (by positivity) h.le
        have h2 := R.fl_nonpos h1
        have h3 : (R.fl (↑cyc * bw)).floor ≤ 0 := by
          have : ((R.fl (↑cyc * bw)).floor : ℚ) ≤ 0 := le_trans (Rat.le_floor_iff.mp (le_refl _)) h2
          exact_mod_cast this
        omega
      · exact absurd h hbw
      · exact h
    have hx0 : 0 ≤ R.fl (cyc * bw) := R.fl_nonneg (by positivity)
    have h1 : (bytes : ℚ) ≤ R.fl (cyc * bw) := by
      have h2 : (mx : ℚ) ≤ R.fl (cyc * bw) := by rw [hmx]; exact toNat_floor_le hx0
      have h3 : (bytes : ℚ) ≤ mx := by exact_mod_cast hb
      linarith
    have h2 : R.fl bytes ≤ R.fl (cyc * bw) := by
      have := R.mono h1
      rwa [R.idem] at this
    have h3 : R.fl (cyc * bw) ≤ cyc * bw + cyc * bw / 16777216 := by
      have := R.fl_le_err (x := cyc * bw) (by positivity)
      linarith
    have h4 : R.fl bytes / bw ≤ cyc + cyc / 16777216 := by
      rw [div_le_iff₀ hpos]
      have : ((cyc : ℚ) + cyc / 16777216) * bw = cyc * bw + cyc * bw / 16777216 := by ring
      rw [this]; linarith
    have h5 : R.fl bytes / bw ≤ ((cyc + 1 : Nat) : ℚ) := by
      have : (cyc : ℚ) / 16777216 ≤ 1 := by
        rw [div_le_one (by norm_num)]
        exact_mod_cast (by omega : cyc ≤ 16777216)
      push_cast; linarith
    have h6 : R.fl (R.fl bytes / bw) ≤ ((cyc + 1 : Nat) : ℚ) := by
      have := R.mono h5
      rwa [R.fl_nat (n := cyc + 1) (by omega)] at this
    have h7 : 0 ≤ R.fl (R.fl bytes / bw) :=
      R.fl_nonneg (div_nonneg (R.fl_nonneg (by positivity)) hpos.le)
    constructor
    · have : ((0 : Int) : ℚ) ≤ (R.fl (R.fl ↑bytes / bw)).ceil := by
        push_cast
        exact le_trans h7 (Rat.ceil_le_iff.mp (le_refl _))
      exact_mod_cast this
    · rw [Rat.ceil_le_iff]
      push_cast at h6 ⊢
      exact h6

/-- In exact arithmetic `cyc` cycles suffice. -/
theorem needed_le_exact {bw : ℚ} {cyc mx bytes : Nat} (hm : toSize ((cyc : ℚ) * bw) = .ok mx)
    (hb : bytes ≤ mx) : ((bytes : ℚ) / bw).ceil ≤ cyc := by
  obtain ⟨_, _, hmx⟩ := toSize_ok hm
  rcases Nat.eq_zero_or_pos bytes with h0 | h0
  · subst h0
    rw [Nat.cast_zero, zero_div]
    have : (0 : ℚ).ceil = 0 := by decide
    rw [this]; omega
  · have hf : 0 < ((cyc : ℚ) * bw).floor := by omega
    have hx : (1 : ℚ) ≤ cyc * bw := by
      have : (1 : Int) ≤ ((cyc : ℚ) * bw).floor := by omega
      have := Rat.le_floor_iff.mp this
      exact_mod_cast this
    have hpos : 0 < bw := by
      by_contra hc
      have : (cyc : ℚ) * bw ≤ 0 :=
        mul_nonpos_of_nonneg_of_nonpos (by positivity) (not_lt.mp hc)
      linarith
    have h1 : (bytes : ℚ) ≤ cyc * bw := by
      have h2 : (mx : ℚ) ≤ cyc * bw := by rw [hmx]; exact toNat_floor_le (by linarith)
      have h3 : (bytes : ℚ) ≤ mx := by exact_mod_cast hb
      linarith
    rw [Rat.ceil_le_iff, div_le_iff₀ hpos]
    push_cast
    exact h1

/-- The end cycle of a completing transfer. -/
theorem transferEnd_ok {fp : FP} {sot : Nat} {t : TState} {cyc mx bytes e : Nat}
    (h : transferEnd fp sot t bytes = .ok e)
    (hm : toSize (fp.f32.fl (fp.f32.fl cyc * t.bw)) = .ok mx) (hb : bytes ≤ mx)
    (hlim : max t.start sot + cyc + 1 ≤ 16777216) :
    max t.start sot ≤ e ∧ e ≤ max t.start sot + cyc + 1 := by
  unfold transferEnd at h
  simp only at h
  split at h
  · simp at h
  · rename_i hbw
    obtain ⟨_, _, he⟩ := toSize_ok h
    obtain ⟨h1, h2⟩ := needed_le hm hb hbw (by omega)
    set cy := (fp.f32.fl (fp.f32.fl bytes / t.bw)).ceil with hcy
    rw [fp.f32.fl_nat (by omega)] at he
    have hsum : (((max t.start sot : Nat) : ℚ) + (cy : ℚ)) = ((max t.start sot + cy.toNat : Nat) : ℚ) := by
      have : (cy : ℚ) = ((cy.toNat : Nat) : ℚ) := by
        have := Int.toNat_of_nonneg h1
        exact_mod_cast this.symm
      rw [this]; push_cast; ring
    rw [hsum, fp.f32.fl_nat (by omega)] at he
    have : e = max t.start sot + cy.toNat := by
      rw [he]
      have : ((((max t.start sot + cy.toNat : Nat)) : ℚ)).floor = ((max t.start sot + cy.toNat : Nat) : Int) := by
        have := Rat.floor_intCast ((max t.start sot + cy.toNat : Nat) : Int)
        exact_mod_cast this
      rw [this]; rfl
    omega

theorem transferEnd_exact {sot : Nat} {t : TState} {cyc mx bytes e : Nat}
    (h : transferEnd .exact sot t bytes = .ok e)
    (hm : toSize ((cyc : ℚ) * t.bw) = .ok mx) (hb : bytes ≤ mx) :
    t.bw ≠ 0 ∧ 0 ≤ ((bytes : ℚ) / t.bw).ceil ∧
      e = max t.start sot + ((bytes : ℚ) / t.bw).ceil.toNat ∧ e ≤ max t.start sot + cyc := by
  unfold transferEnd at h
  simp only at h
  split at h
  · simp at h
  · rename_i hbw
    obtain ⟨_, _, he⟩ := toSize_ok h
    have h2 := needed_le_exact hm hb
    simp only [FP.exact, Rounding.exact] at he
    have h1 : 0 ≤ ((bytes : ℚ) / t.bw).ceil := by
      obtain ⟨_, _, hmx⟩ := toSize_ok hm
      rcases Nat.eq_zero_or_pos bytes with h0 | h0
      · subst h0
        rw [Nat.cast_zero, zero_div]
        exact le_of_eq (by decide)
      · have hf : 0 < ((cyc : ℚ) * t.bw).floor := by omega
        have hx : (1 : ℚ) ≤ cyc * t.bw := by
          have : (1 : Int) ≤ ((cyc : ℚ) * t.bw).floor := by omega
          have := Rat.le_floor_iff.mp this
          exact_mod_cast this
        have hpos : 0 < t.bw := by
          by_contra hc
          have : (cyc : ℚ) * t.bw ≤ 0 :=
            mul_nonpos_of_nonneg_of_nonpos (by positivity) (not_lt.mp hc)
          linarith
        have h7 : 0 ≤ (bytes : ℚ) / t.bw := div_nonneg (by positivity) hpos.le
        have : ((0 : Int) : ℚ) ≤ ((bytes : ℚ) / t.bw).ceil := by
          push_cast
          exact le_trans h7 (Rat.ceil_le_iff.mp (le_refl _))
        exact_mod_cast this
    set cy := ((bytes : ℚ) / t.bw).ceil with hcy
    have hsum : (((max t.start sot : Nat) : ℚ) + (cy : ℚ)) = ((max t.start sot + cy.toNat : Nat) : ℚ) := by
      have : (cy : ℚ) = ((cy.toNat : Nat) : ℚ) := by
        have := Int.toNat_of_nonneg h1
        exact_mod_cast this.symm
      rw [this]; push_cast; ring
    rw [hsum] at he
    have : e = max t.start sot + cy.toNat := by
      rw [he]
      have : ((((max t.start sot + cy.toNat : Nat)) : ℚ)).floor = ((max t.start sot + cy.toNat : Nat) : Int) := by
        have := Rat.floor_intCast ((max t.start sot + cy.toNat : Nat) : Int)
        exact_mod_cast this
      rw [this]; rfl
    exact ⟨hbw, h1, this, by omega⟩

/-- A checkpoint whose provider is not active in a timestep keeps its state. -/
theorem StepFacts.dep_same {cfg : SimCfg} {prev curr : Nat} {s s' : Sim}
    (F : StepFacts cfg prev curr s s') {p : Nat} {tp : TState} {j : Int}
    (hp : s.ts[p]? = some tp) (hj : j ∈ tp.requiredBy) (hpl : p ∉ F.P.s1.live) :
    s'.deps.get j = s.deps.get j := by
  have hndacts : (F.acts.map (·.2)).Nodup := by
    have := (List.nodup_append.mp F.inv1.nodup).2.1
    rw [F.live1, List.nodup_append] at this; exact this.2.1
  have h1 : F.P.s1.ts[p]? = some tp := by
    rw [F.ts1, updIds_getElem? _ _ _ hndacts, if_neg, hp]
    intro hc
    apply hpl
    rw [F.live1]; exact List.mem_append_right _ hc
  have hlt : p < F.P.ts2.length := by
    rw [F.len2]; exact (List.getElem?_eq_some_iff.mp h1).1
  have h2 : F.P.ts2[p]? = some F.P.ts2[p] := List.getElem?_eq_getElem hlt
  have hj2 : j ∈ (F.P.ts2[p]).requiredBy := by
    rw [F.only2 p _ _ h1 h2]; exact hj
  have hj0 := F.inv2.rbValid p _ h2 _ hj2
  rw [← F.deps1]
  apply Tracker.get_congr
  rw [congrArg Sim.deps F.P.res]
  show F.P.u.deps[j.toNat]? = _
  refine foldUpd_deps_same _ _ _ F.P.fold ?_
  intro i' hi' t' ht' hc
  rw [Int.toNat_of_nonneg hj0] at hc
  have := provider_unique F.inv2.rbNodup h2 ht' hj2 hc
  subst this
  exact hpl hi'

/-- The dependency of a transfer that was active or completed before does not change any more. -/
theorem StepFacts.own_dep_same {cfg : SimCfg} {prev curr : Nat} {s s' : Sim} (hi : Inv prev s)
    (F : StepFacts cfg prev curr s s') {i : Nat} {t : TState} (ht : s.ts[i]? = some t)
    (hq : i ∉ s.queue.map (·.2)) : s'.deps.get t.dependsOn = s.deps.get t.dependsOn := by
  by_cases hne : t.dependsOn = -1
  · rw [hne]; rfl
  · obtain ⟨p, tp, hp, hj, hpq, hpl⟩ := hi.done_provider ht hne (hi.started i t ht hq).2.1
    refine F.dep_same hp hj ?_
    intro hc
    rcases (F.mem_live1 p).mp hc with hc | ⟨o, hc, _⟩
    · exact hpl hc
    · exact hpq (List.mem_map_of_mem (f := (·.2)) hc)

/-- The rate of an active transfer after the rate computation of a timestep. -/
theorem StepFacts.member_bw {cfg : SimCfg} (hw : Spec.WithinInjectionRate cfg.rates)
    {prev curr : Nat} {s s' : Sim} (F : StepFacts cfg prev curr s s') {i : Nat}
    (h : i ∈ F.P.s1.live) {t : TState} (ht : F.P.ts2[i]? = some t)
    (h0 : 0 ≤ t.params.injectionRate) : t.bw ≤ t.params.injectionRate :=
  hw _ _ _ _ _ _ _ (List.nodup_append.mp F.inv1.nodup).2.1 F.P.rates i t h ht h0

/-- Extra cycles that a transfer may already have been credited at clock `c`: none before the
dependency lies a whole timestep back. -/
def slack (cpt c : Nat) (deps : Tracker) (t : TState) : ℚ :=
  match deps.get t.dependsOn with
  | .ok cp => if c ≤ cp.endc + cpt then 0 else cpt
  | _ => 0

theorem slack_le (cpt c : Nat) (deps : Tracker) (t : TState) :
    slack cpt c deps t ≤ if t.dependsOn = -1 then 0 else (cpt : ℚ) := by
  unfold slack
  by_cases h : t.dependsOn = -1
  · rw [h]; simp [Tracker.get]
  · rw [if_neg h]
    split
    · split
      · positivity
      · exact le_refl _
    · positivity

theorem slack_nonneg (cpt c : Nat) (deps : Tracker) (t : TState) : 0 ≤ slack cpt c deps t := by
  unfold slack
  split
  · split
    · exact le_refl _
    · positivity
  · exact le_refl _

theorem slack_mono {cpt c c' : Nat} {deps : Tracker} {t : TState} (h : c ≤ c') :
    slack cpt c deps t ≤ slack cpt c' deps t := by
  unfold slack
  split
  · split
    · split
      · exact le_refl _
      · positivity
    · rw [if_neg (by omega)]
  · exact le_refl _

/-- Bytes moved by `cyc` cycles, exact arithmetic. -/
theorem mx_le {bw inj : ℚ} {cyc mx : Nat} (hm : toSize ((cyc : ℚ) * bw) = .ok mx) (h : bw ≤ inj)
    (h0 : 0 ≤ inj) : (mx : ℚ) ≤ inj * cyc := by
  obtain ⟨_, _, hmx⟩ := toSize_ok hm
  have hc : (0 : ℚ) ≤ cyc := by positivity
  by_cases hx : 0 ≤ (cyc : ℚ) * bw
  · rw [hmx]
    refine le_trans (toNat_floor_le hx) ?_
    rw [mul_comm]
    exact mul_le_mul_of_nonneg_right h hc
  · have : ((cyc : ℚ) * bw).floor < 0 := by
      by_contra hc
      have := Rat.le_floor_iff.mp (not_lt.mp hc)
      push_cast at this
      exact hx this
    rw [hmx, Int.toNat_of_nonpos this.le]
    simp only [Nat.cast_zero]
    positivity

/-- Bytes that were credited need a positive rate. -/
theorem bw_pos_of_bytes {bw : ℚ} {cyc mx bytes : Nat} (hm : toSize ((cyc : ℚ) * bw) = .ok mx)
    (hb : bytes ≤ mx) : bytes = 0 ∨ 0 < bw := by
  obtain ⟨_, _, hmx⟩ := toSize_ok hm
  rcases Nat.eq_zero_or_pos bytes with h0 | h0
  · exact Or.inl h0
  · right
    have hx : (1 : ℚ) ≤ cyc * bw := by
      have : (1 : Int) ≤ ((cyc : ℚ) * bw).floor := by omega
      have := Rat.le_floor_iff.mp this
      exact_mod_cast this
    by_contra hc
    have : (cyc : ℚ) * bw ≤ 0 :=
      mul_nonpos_of_nonneg_of_nonpos (by positivity) (not_lt.mp hc)
    linarith

/-- Bytes of a completing transfer against the recorded number of cycles, exact arithmetic. -/
theorem bytes_le_needed {bw inj : ℚ} {bytes : Nat} (hbw : bytes = 0 ∨ 0 < bw) (h : bw ≤ inj)
    (h0 : 0 ≤ inj) (hc : 0 ≤ ((bytes : ℚ) / bw).ceil) :
    (bytes : ℚ) ≤ inj * ((bytes : ℚ) / bw).ceil.toNat := by
  rcases hbw with hb | hpos
  · subst hb
    have : (0 : ℚ) ≤ ((((0 : Nat) : ℚ) / bw).ceil.toNat : Nat) := by positivity
    have := mul_nonneg h0 this
    push_cast at this ⊢
    exact this
  · have hcast : (((((bytes : ℚ) / bw).ceil.toNat : Nat)) : ℚ) = ((((bytes : ℚ) / bw).ceil : Int) : ℚ) := by
      have := Int.toNat_of_nonneg hc
      exact_mod_cast this
    rw [hcast]
    have h1 : (bytes : ℚ) / bw ≤ ((bytes : ℚ) / bw).ceil := Rat.ceil_le_iff.mp (le_refl _)
    have h2 : (bytes : ℚ) = bw * ((bytes : ℚ) / bw) := by field_simp
    have h3 : (0 : ℚ) ≤ (((bytes : ℚ) / bw).ceil : Int) := by exact_mod_cast hc
    calc (bytes : ℚ) = bw * ((bytes : ℚ) / bw) := h2
      _ ≤ bw * (((bytes : ℚ) / bw).ceil : Int) := mul_le_mul_of_nonneg_left h1 hpos.le
      _ ≤ inj * (((bytes : ℚ) / bw).ceil : Int) := mul_le_mul_of_nonneg_right h h3

/-- Clock bound of a run. -/
theorem Spec.Reach.clock_le {cfg : SimCfg} {s0 : Sim} {c : Nat} {s : Sim} (h : Reach cfg s0 c s)
    (hcpt : cfg.cpt ≤ 1000000000) : c ≤ 1000000000 + 50000000 := by
  cases h with
  | start => omega
  | step _ hc _ => omega

/-- The credit invariant of a run in exact arithmetic. -/
theorem credit_inv {cfg : SimCfg} (hfp : cfg.fp = .exact) (hr : RatesOk cfg.rates)
    (hw : Spec.WithinInjectionRate cfg.rates) (hcpt : cfg.cpt ≤ 1000000000)
    {s0 : Sim} (hi0 : Inv 0 s0) (hl0 : s0.live = [])
    (hq0 : ∀ i, i < s0.ts.length → i ∈ s0.queue.map (·.2)) {c : Nat} {s : Sim}
    (hs : Reach cfg s0 c s) (i : Nat) (t : TState) (ht : s.ts[i]? = some t)
    (h0 : 0 ≤ t.params.injectionRate) :
    (i ∈ s.live → (t.moved : ℚ) ≤
      t.params.injectionRate * ((c : ℚ) - t.start + slack cfg.cpt c s.deps t)) ∧
    (i ∉ s.queue.map (·.2) → i ∉ s.live → (t.moved : ℚ) ≤
      t.params.injectionRate * ((t.endc : ℚ) - t.start + if t.dependsOn = -1 then 0 else (cfg.cpt : ℚ))) := by
  induction hs generalizing t with
  | start =>
    constructor
    · intro h; rw [hl0] at h; simp at h
    · intro h
      exact absurd (hq0 i (List.getElem?_eq_some_iff.mp ht).1) h
  | @step c sa sb hs hc h ih =>
    have hi := hs.inv hr hi0
    have hck := hs.clock_le hcpt
    obtain ⟨F⟩ := step_facts hr (Nat.le_add_right _ _) hi h
    have hlt : i < sa.ts.length := by
      rw [← F.len]; exact (List.getElem?_eq_some_iff.mp ht).1
    by_cases hl : i ∈ F.P.s1.live
    · obtain ⟨t0, t2, t', h2, M⟩ := F.member_rates hl
      have e := M.after
      rw [ht] at e
      have e := Option.some.inj e
      subst e
      obtain ⟨cyc, mx, h3, h4, h5⟩ := M.ended
      rw [Nat.add_sub_cancel] at h3 h5
      rw [hfp] at h4 h5
      have hst := M.started.start_le.2
      have hp : t.params = t2.params := by
        rcases h5 with ⟨_, _, e⟩ | ⟨_, _, _, _, e⟩ <;> rw [e]
      have hbw := F.member_bw hw hl h2 (hp ▸ h0)
      have hstart : t.start = t2.start := by
        rcases h5 with ⟨_, _, e⟩ | ⟨_, _, _, _, e⟩ <;> rw [e]
      have hdep : t.dependsOn = t2.dependsOn := by
        rcases h5 with ⟨_, _, e⟩ | ⟨_, _, _, _, e⟩ <;> rw [e]
      have hp0 : t2.params = t0.params := by rw [M.same]
      have hm0 : t2.moved = t0.moved := by rw [M.same]
      have hd0 : t2.dependsOn = t0.dependsOn := by rw [M.same]
      rw [hp] at h0
      have hmx := mx_le h4 hbw h0
      -- credit before this timestep
      have hprev : (t2.moved : ℚ) ≤ t2.params.injectionRate *
          (((max t2.start c : Nat) : ℚ) - t2.start + slack cfg.cpt c sa.deps t2) := by
        by_cases hla : i ∈ sa.live
        · have hstc : t2.start ≤ c := by
            rw [M.start.1 hla]
            have hq : i ∉ sa.queue.map (·.2) := fun hcc =>
              (List.nodup_append.mp hi.nodup).2.2 i hcc i hla rfl
            exact (hi.started i t0 M.before hq).start_le.2
          have := (ih t0 M.before (by rw [← hp0]; exact h0)).1 hla
          rw [max_eq_right hstc, hm0, hp0, M.start.1 hla]
          have hsl : slack cfg.cpt c sa.deps t2 = slack cfg.cpt c sa.deps t0 := by
            unfold slack; rw [hd0]
          rw [hsl]; exact this
        · have hm : t2.moved = 0 := by
            rw [hm0]
            rcases (F.mem_live1 i).mp hl with hcc | ⟨o, hcc, _⟩
            · exact absurd hcc hla
            · exact (hi.waiting _ hcc t0 M.before).2.2
          rw [hm, Nat.cast_zero]
          apply mul_nonneg h0
          have h6 : (t2.start : ℚ) ≤ ((max t2.start c : Nat) : ℚ) := by exact_mod_cast le_max_left _ _
          have := slack_nonneg cfg.cpt c sa.deps t2
          linarith
      have hnewly : i ∉ sa.live → t2.moved = 0 := by
        intro hla
        rw [hm0]
        rcases (F.mem_live1 i).mp hl with hcc | ⟨o, hcc, _⟩
        · exact absurd hcc hla
        · exact (hi.waiting _ hcc t0 M.before).2.2
      constructor
      · intro hlive
        rcases h5 with ⟨_, _, e⟩ | ⟨_, hcon, _⟩
        swap
        · exact absurd hlive hcon
        have hbytes : (t.moved : ℚ) ≤ t2.moved + t2.params.injectionRate * cyc := by
          rw [e]
          simp only
          have : ((min (t2.params.totalBytes - t2.moved) mx : Nat) : ℚ) ≤ mx := by
            exact_mod_cast min_le_right _ _
          push_cast at this ⊢
          linarith
        rw [hp, hstart]
        by_cases hla : i ∈ sa.live
        · have hq : i ∉ sa.queue.map (·.2) := fun hcc =>
            (List.nodup_append.mp hi.nodup).2.2 i hcc i hla rfl
          have hdsame := F.own_dep_same hi M.before hq
          have hsl' : slack cfg.cpt (c + cfg.cpt) sb.deps t = slack cfg.cpt (c + cfg.cpt) sa.deps t2 := by
            unfold slack
            rw [hdep, hd0, hdsame]
          rw [hsl']
          have hstc : t2.start ≤ c := by
            rw [M.start.1 hla]
            exact (hi.started i t0 M.before hq).start_le.2
          rw [max_eq_right hstc] at hprev
          have key : (cyc : ℚ) + slack cfg.cpt c sa.deps t2 ≤
              cfg.cpt + slack cfg.cpt (c + cfg.cpt) sa.deps t2 := by
            rcases cyclesActive_cases h3 hst rfl (by omega) with h | ⟨cp, _, hcp, _, _, h7, h8, h⟩
            · have h9 : (cyc : ℚ) ≤ cfg.cpt := by
                rw [h]; exact_mod_cast min_le_left _ _
              have := slack_mono (cpt := cfg.cpt) (deps := sa.deps) (t := t2)
                (Nat.le_add_right c cfg.cpt)
              linarith
            · have e1 : slack cfg.cpt c sa.deps t2 = 0 := by
                unfold slack; rw [hcp]; simp only; rw [if_pos (by omega)]
              have e2 : slack cfg.cpt (c + cfg.cpt) sa.deps t2 = cfg.cpt := by
                unfold slack; rw [hcp]; simp only; rw [if_neg (by omega)]
              rw [e1, e2]
              have : (cyc : ℚ) ≤ ((2 * cfg.cpt : Nat) : ℚ) := by exact_mod_cast (by omega : cyc ≤ 2 * cfg.cpt)
              push_cast at this
              linarith
          have := mul_le_mul_of_nonneg_left key h0
          push_cast
          nlinarith
        · rw [hnewly hla, Nat.cast_zero, zero_add] at hbytes
          refine le_trans hbytes (mul_le_mul_of_nonneg_left ?_ h0)
          have h6 := (cyclesActive_le h3 hst rfl (by omega)).1
          have h7 : (cyc : ℚ) + t2.start ≤ ((c + cfg.cpt : Nat) : ℚ) := by
            exact_mod_cast (by omega : cyc + t2.start ≤ c + cfg.cpt)
          have := slack_nonneg cfg.cpt (c + cfg.cpt) sb.deps t
          linarith
      · intro _ hnl
        rcases h5 with ⟨_, hcon, _⟩ | ⟨htot, _, ee, h6, e⟩
        · exact absurd hcon hnl
        obtain ⟨hne, hc0, h7, h8⟩ := transferEnd_exact (cyc := cyc) h6 h4 (min_le_right _ _)
        have hcl := cyclesActive_le h3 hst rfl (by omega)
        have hendc : t.endc = ee := by
          rw [e]; exact Nat.mod_eq_of_lt (by omega)
        set bytes := min (t2.params.totalBytes - t2.moved) mx with hbd
        have hbn := bytes_le_needed (bw_pos_of_bytes h4 (min_le_right _ _)) hbw h0 hc0
        have hmoved : (t.moved : ℚ) = t2.moved + bytes := by
          have : t.moved = t2.moved + bytes := by rw [e]; exact htot.symm
          rw [this]; push_cast; ring
        rw [hmoved, hp, hstart, hendc, h7, hdep]
        have hsl := slack_le cfg.cpt c sa.deps t2
        have := mul_le_mul_of_nonneg_left hsl h0
        have hbn' : (bytes : ℚ) ≤ t2.params.injectionRate *
            ((((bytes : ℚ) / t2.bw).ceil.toNat : Nat) : ℚ) := hbn
        rw [Nat.cast_add]
        rw [mul_add] at hprev ⊢
        rw [mul_sub] at hprev ⊢
        rw [mul_add]
        linarith
    · obtain ⟨t', h1, h2⟩ := F.inactive (List.getElem?_eq_getElem hlt) hl
      rw [ht] at h1
      have h1 := Option.some.inj h1
      subst h1
      have hpar : t.params = (sa.ts[i]).params := by rw [h2]
      have IH := ih _ (List.getElem?_eq_getElem hlt) (by rw [← hpar]; exact h0)
      have hnl : i ∉ sa.live := fun hcc => hl ((F.mem_live1 i).mpr (Or.inl hcc))
      constructor
      · intro hlive
        exfalso
        rw [congrArg Sim.live F.P.res] at hlive
        exact hl (List.mem_filter.mp hlive).1
      · intro hnq _
        have hq : i ∉ sa.queue.map (·.2) := by
          intro hcc
          obtain ⟨⟨o, j⟩, hx, rfl⟩ := List.mem_map.mp hcc
          apply hnq
          refine List.mem_map_of_mem (f := (·.2)) ((F.queue_eq (o, j)).mpr ⟨hx, ?_⟩)
          by_contra hd
          exact hl ((F.mem_live1 j).mpr (Or.inr ⟨o, hx, by simpa using hd⟩))
        have := IH.2 hq hnl
        rw [h2]
        exact this

theorem needed_rough {R : Rounding} {bw : ℚ} {cyc mx bytes : Nat}
    (hm : toSize (R.fl (R.fl cyc * bw)) = .ok mx) (hb : bytes ≤ mx) :
    R.fl (R.fl bytes / bw) ≤ cyc * (1 + 1 / 16777216) ^ 3 := by
  obtain ⟨_, _, hmx⟩ := toSize_ok hm
  have hc0 : (0 : ℚ) ≤ cyc := by positivity
  rcases Nat.eq_zero_or_pos bytes with h0 | h0
  · subst h0
    rw [Nat.cast_zero, R.fl_zero, zero_div, R.fl_zero]
    positivity
  · have hfc0 : 0 ≤ R.fl cyc := R.fl_nonneg hc0
    have hpos : 0 < bw := by
      by_contra hc
      have h1 : R.fl cyc * bw ≤ 0 := mul_nonpos_of_nonneg_of_nonpos hfc0 (not_lt.mp hc)
      have h2 := R.fl_nonpos h1
      have h3 : (R.fl (R.fl cyc * bw)).floor ≤ 0 := by
        have : ((R.fl (R.fl cyc * bw)).floor : ℚ) ≤ 0 := le_trans (Rat.le_floor_iff.mp (le_refl _)) h2
        exact_mod_cast this
      omega
    have hx0 : 0 ≤ R.fl (R.fl cyc * bw) := R.fl_nonneg (by positivity)
    have h1 : (bytes : ℚ) ≤ R.fl (R.fl cyc * bw) := by
      have h2 : (mx : ℚ) ≤ R.fl (R.fl cyc * bw) := by rw [hmx]; exact toNat_floor_le hx0
      have h3 : (bytes : ℚ) ≤ mx := by exact_mod_cast hb
      linarith
    have h2 : R.fl bytes ≤ R.fl (R.fl cyc * bw) := by
      have := R.mono h1
      rwa [R.idem] at this
    have h3 := R.fl_le_err (x := R.fl cyc * bw) (by positivity)
    have h4 := R.fl_le_err hc0
    have h5 : R.fl bytes ≤ cyc * (1 + 1 / 16777216) ^ 2 * bw := by
      have := mul_le_mul_of_nonneg_right h4 hpos.le
      have := mul_le_mul_of_nonneg_right this (by norm_num : (0 : ℚ) ≤ 1 + 1 / 16777216)
      calc R.fl bytes ≤ R.fl cyc * bw * (1 + 1 / 16777216) := le_trans h2 h3
        _ ≤ cyc * (1 + 1 / 16777216) * bw * (1 + 1 / 16777216) := this
        _ = cyc * (1 + 1 / 16777216) ^ 2 * bw := by ring
    have h6 : R.fl bytes / bw ≤ cyc * (1 + 1 / 16777216) ^ 2 := by
      rw [div_le_iff₀ hpos]; exact h5
    have h7 : 0 ≤ R.fl bytes / bw := div_nonneg (R.fl_nonneg (by positivity)) hpos.le
    have h8 := R.fl_le_err h7
    have := mul_le_mul_of_nonneg_right h6 (by norm_num : (0 : ℚ) ≤ 1 + 1 / 16777216)
    calc R.fl (R.fl bytes / bw) ≤ R.fl bytes / bw * (1 + 1 / 16777216) := h8
      _ ≤ cyc * (1 + 1 / 16777216) ^ 2 * (1 + 1 / 16777216) := this
      _ = cyc * (1 + 1 / 16777216) ^ 3 := by ring

/-- Bound of the end cycle for all clocks and roundings. -/
theorem transferEnd_rough {fp : FP} {sot : Nat} {t : TState} {cyc mx bytes e : Nat}
    (h : transferEnd fp sot t bytes = .ok e)
    (hm : toSize (fp.f32.fl (fp.f32.fl cyc * t.bw)) = .ok mx) (hb : bytes ≤ mx) :
    (e : ℚ) ≤ ((((max t.start sot : Nat) : ℚ) + cyc) * (1 + 1 / 16777216) ^ 3 + 1) * (1 + 1 / 16777216) := by
  unfold transferEnd at h
  simp only at h
  split at h
  · simp at h
  rename_i hbw
  obtain ⟨_, _, he⟩ := toSize_ok h
  obtain ⟨_, _, hmx⟩ := toSize_ok hm
  set R := fp.f32
  set m : ℚ := ((max t.start sot : Nat) : ℚ) with hmdef
  have hm0 : 0 ≤ m := by positivity
  have hc0 : (0 : ℚ) ≤ cyc := by positivity
  have hneed : R.fl (R.fl bytes / t.bw) ≤ cyc * (1 + 1 / 16777216) ^ 3 := needed_rough hm hb
  have hceil : ((R.fl (R.fl bytes / t.bw)).ceil : ℚ) ≤ cyc * (1 + 1 / 16777216) ^ 3 + 1 := by
    have : ((R.fl (R.fl bytes / t.bw)).ceil : ℚ) < R.fl (R.fl bytes / t.bw) + 1 := Rat.ceil_lt
    linarith
  have hfm := R.fl_le_err hm0
  set S := R.fl m + ((R.fl (R.fl bytes / t.bw)).ceil : ℚ) with hS
  have hS1 : S ≤ (m + cyc) * (1 + 1 / 16777216) ^ 3 + 1 := by
    have : m * (1 + 1 / 16777216) ≤ m * (1 + 1 / 16777216) ^ 3 := by
      apply mul_le_mul_of_nonneg_left _ hm0
      norm_num
    rw [hS, add_mul]
    linarith
  have hB : (0 : ℚ) ≤ (m + cyc) * (1 + 1 / 16777216) ^ 3 + 1 := by positivity
  have hfin : R.fl S ≤ ((m + cyc) * (1 + 1 / 16777216) ^ 3 + 1) * (1 + 1 / 16777216) :=
    le_trans (R.mono hS1) (R.fl_le_err hB)
  rw [he]
  by_cases hx : 0 ≤ R.fl S
  · exact le_trans (toNat_floor_le hx) hfin
  · have : (R.fl S).floor < 0 := by
      by_contra hc
      have := Rat.le_floor_iff.mp (not_lt.mp hc)
      push_cast at this
      exact hx this
    rw [Int.toNat_of_nonpos this.le]
    push_cast
    positivity

/-- Rough bound of the end cycle for all clocks and roundings. -/
theorem transferEnd_le {fp : FP} {sot : Nat} {t : TState} {cyc mx bytes e : Nat}
    (h : transferEnd fp sot t bytes = .ok e)
    (hm : toSize (fp.f32.fl (fp.f32.fl cyc * t.bw)) = .ok mx) (hb : bytes ≤ mx) :
    100 * e ≤ 101 * (max t.start sot + cyc) + 200 := by
  have hr := transferEnd_rough h hm hb
  set m : ℚ := ((max t.start sot : Nat) : ℚ) with hmdef
  have h1 : (0 : ℚ) ≤ m + cyc := by positivity
  have h2 : ((1 : ℚ) + 1 / 16777216) ^ 3 * (1 + 1 / 16777216) ≤ 101 / 100 := by norm_num
  have h3 := mul_le_mul_of_nonneg_left h2 h1
  have h4 : ((100 * e : Nat) : ℚ) ≤ ((101 * (max t.start sot + cyc) + 200 : Nat) : ℚ) := by
    push_cast
    rw [hmdef] at hr h3
    push_cast at hr h3
    linarith
  exact_mod_cast h4

/-- Up to 100,000,000 cycles rounding moves the end by less than 26 cycles. -/
theorem transferEnd_near {fp : FP} {sot : Nat} {t : TState} {cyc mx bytes e : Nat}
    (h : transferEnd fp sot t bytes = .ok e)
    (hm : toSize (fp.f32.fl (fp.f32.fl cyc * t.bw)) = .ok mx) (hb : bytes ≤ mx)
    (hlim : max t.start sot + cyc ≤ 100000000) :
    e ≤ max t.start sot + cyc + 26 := by
  have hr := transferEnd_rough h hm hb
  have hl : (((max t.start sot : Nat) : ℚ) + cyc) ≤ 100000000 := by exact_mod_cast hlim
  have h2 : (((max t.start sot : Nat) : ℚ) + cyc) * ((1 + 1 / 16777216) ^ 3 * (1 + 1 / 16777216)) ≤
      (((max t.start sot : Nat) : ℚ) + cyc) + 100000000 * ((1 + 1 / 16777216) ^ 3 * (1 + 1 / 16777216) - 1) := by
    have : (0 : ℚ) ≤ (1 + 1 / 16777216) ^ 3 * (1 + 1 / 16777216) - 1 := by norm_num
    nlinarith
  have h3 : (100000000 : ℚ) * ((1 + 1 / 16777216) ^ 3 * (1 + 1 / 16777216) - 1) ≤ 24 := by norm_num
  have h4 : (e : ℚ) ≤ ((max t.start sot + cyc + 26 : Nat) : ℚ) := by
    push_cast
    push_cast at hr h2
    linarith
  exact_mod_cast h4

/-- End cycles stay far below the 32-bit limit. -/
theorem Spec.Reach.endc_le {cfg : SimCfg} (hr : RatesOk cfg.rates) (hcpt : cfg.cpt ≤ 500000000)
    {s0 : Sim} (hi0 : Inv 0 s0) (he0 : ∀ t ∈ s0.ts, t.endc = 0) {c : Nat} {s : Sim}
    (hs : Reach cfg s0 c s) (i : Nat) (t : TState) (ht : s.ts[i]? = some t) :
    t.endc ≤ 2000000000 := by
  induction hs generalizing t with
  | start =>
    rw [he0 t (List.mem_of_getElem? ht)]; omega
  | @step c sa sb hs hc h ih =>
    have hi := hs.inv hr hi0
    obtain ⟨F⟩ := step_facts hr (Nat.le_add_right _ _) hi h
    have hck : c ≤ 550000000 := by
      cases hs with
      | start => omega
      | step _ _ _ => omega
    by_cases hl : i ∈ F.P.s1.live
    · obtain ⟨t0, t2, t', M⟩ := F.member hl
      have e := M.after
      rw [ht] at e
      have e := Option.some.inj e
      subst e
      obtain ⟨cyc, mx, h3, h4, h5⟩ := M.ended
      rw [Nat.add_sub_cancel] at h3 h5
      have hst := M.started.start_le.2
      have hcl := cyclesActive_le h3 hst rfl (by omega)
      rcases h5 with ⟨_, _, e⟩ | ⟨_, _, ee, h6, e⟩
      · have : t.endc = t0.endc := by rw [e, M.same]
        rw [this]; exact ih t0 M.before
      · have := transferEnd_le h6 h4 (min_le_right _ _)
        have e2 : t.endc = ee % 4294967296 := by rw [e]
        rw [e2]
        have := Nat.mod_le ee 4294967296
        omega
    · have hlt : i < sa.ts.length := by
        rw [← F.len]; exact (List.getElem?_eq_some_iff.mp ht).1
      obtain ⟨t', h1, h2⟩ := F.inactive (List.getElem?_eq_getElem hlt) hl
      rw [ht] at h1
      have h1 := Option.some.inj h1
      subst h1
      have : t.endc = (sa.ts[i]).endc := by rw [h2]
      rw [this]
      exact ih _ (List.getElem?_eq_getElem hlt)

end NPE
