import Verif.Proofs.FluidApart

/-
Later schedules, with rounding: before cycle 2^24 the ends are computed without loss.
-/

namespace NPE
open NPE.Spec NPE.Spec.Fluid

section
variable {R : Rounding} {job job' : Nat → Job} {cpt n q S : Nat}

theorem advance_whole {speed : Speed} {curr i c m : Nat} {σ : Fluid.State} (h : σ i = .active c m)
    (hc : c ≤ curr) (h24 : curr + 2 * cpt + 2 ≤ 16777216) :
    advance R.fl job cpt speed curr σ i =
      if m + roundBytes R ((job i).t.totalBytes - m) (credit job cpt curr σ i c) (speed curr σ i) = (job i).t.totalBytes then
        .finished c (max c (curr - cpt) +
          (roundCycles R (roundBytes R ((job i).t.totalBytes - m) (credit job cpt curr σ i c) (speed curr σ i)) (speed curr σ i)).toNat)
      else .active c (m + roundBytes R ((job i).t.totalBytes - m) (credit job cpt curr σ i c) (speed curr σ i)) := by
  unfold Fluid.advance
  rw [h]
  simp only
  have hcr := credit_le (job := job) (cpt := cpt) (curr := curr) (i := i) (c := c) (σ := σ)
  generalize credit job cpt curr σ i c = cr at *
  obtain ⟨z0, z1, _⟩ := cycles_between (R := R)
    (b := roundBytes R ((job i).t.totalBytes - m) cr (speed curr σ i))
    (cr := cr) (v := speed curr σ i) (Nat.min_le_right _ _) (by omega)
  unfold roundBytes roundCycles at *
  generalize min ((job i).t.totalBytes - m) (R.fl (R.fl (cr : ℚ) * speed curr σ i)).floor.toNat = B at *
  generalize (R.fl (R.fl (B : ℚ) / speed curr σ i)).ceil = z at *
  have e : R.fl (R.fl ((max c (curr - cpt) : ℕ) : ℚ) + (z : ℚ)) = ((max c (curr - cpt) + z.toNat : ℕ) : ℚ) := by
    rw [R.fl_nat (n := max c (curr - cpt)) (by omega)]
    have hz : (z : ℚ) = ((z.toNat : ℕ) : ℚ) := by
      have := Int.toNat_of_nonneg z0
      exact_mod_cast this.symm
    rw [hz, ← Nat.cast_add, R.fl_nat (by omega)]
  rw [e]
  have e2 : (((max c (curr - cpt) + z.toNat : ℕ) : ℚ)).floor = ((max c (curr - cpt) + z.toNat : ℕ) : Int) := by
    have := Rat.floor_intCast ((max c (curr - cpt) + z.toNat : ℕ) : Int)
    exact_mod_cast this
  rw [e2, Int.toNat_natCast, Nat.mod_eq_of_lt (by omega)]

theorem cycles_in {curr i c left : Nat} {σ : Fluid.State} {v : ℚ} (h24 : 2 * cpt + 1 ≤ 16777216) :
    (roundCycles R (roundBytes R left (credit job cpt curr σ i c) v) v).toNat ≤ 2 * cpt + 1 := by
  have hcr := credit_le (job := job) (cpt := cpt) (curr := curr) (i := i) (c := c) (σ := σ)
  have := (cycles_between (R := R) (b := roundBytes R left (credit job cpt curr σ i c) v) (v := v)
    (Nat.min_le_right _ _) (by omega)).2.1
  omega

/-- Starts and ends are not far beyond the clock. -/
theorem round_intime {speed : Speed} (k : Nat) (h24 : (k + 2) * cpt + 2 ≤ 16777216) (i : Nat) :
    InTime (k * cpt) ((k + 2) * cpt + 1) (run R.fl job cpt speed k i) := by
  induction k generalizing i with
  | zero => trivial
  | succ k ih =>
    have hk : (k + 1) * cpt = k * cpt + cpt := by ring
    have hk2 : (k + 1 + 2) * cpt = k * cpt + 3 * cpt := by ring
    have hk3 : (k + 2) * cpt = k * cpt + 2 * cpt := by ring
    have hs : InTime ((k + 1) * cpt) ((k + 1 + 2) * cpt + 1) (Fluid.start job ((k + 1) * cpt) (run R.fl job cpt speed k) i) :=
      start_inTime ((ih (by omega) i).le (by omega) (by omega))
    show InTime _ _ (advance R.fl job cpt speed ((k + 1) * cpt) (Fluid.start job ((k + 1) * cpt) (run R.fl job cpt speed k)) i)
    cases ha : Fluid.start job ((k + 1) * cpt) (run R.fl job cpt speed k) i with
    | waiting => unfold Fluid.advance; rw [ha]; trivial
    | finished c e => unfold Fluid.advance; rw [ha]; rw [ha] at hs; exact hs
    | active c m =>
      rw [ha] at hs
      have hs : c ≤ (k + 1) * cpt := hs
      rw [advance_whole ha hs (by omega)]
      split
      · refine ⟨hs, ?_⟩
        have h1 := cycles_in (R := R) (job := job) (cpt := cpt) (curr := (k + 1) * cpt) (i := i) (c := c)
          (left := (job i).t.totalBytes - m) (σ := Fluid.start job ((k + 1) * cpt) (run R.fl job cpt speed k))
          (v := speed ((k + 1) * cpt) (Fluid.start job ((k + 1) * cpt) (run R.fl job cpt speed k)) i) (by omega)
        omega
      · exact hs

theorem Later.advance_eq_round (L : Later n S job job') {curr : Nat} (hcurr : cpt = curr ∨ 2 * cpt ≤ curr) {speed speed' : Speed}
    {σ σ' : Fluid.State} (hs : ∀ i, i < n → speed' (curr + S) σ' i = speed curr σ i)
    (hb : ∀ i, i < n → ∀ c m, σ i = .active c m → c ≤ curr) (h : ∀ i, i < n → σ' i = late S (σ i))
    (h24 : curr + S + 2 * cpt + 2 ≤ 16777216) {i : Nat} (hi : i < n) :
    advance R.fl job' cpt speed' (curr + S) σ' i = late S (advance R.fl job cpt speed curr σ i) := by
  have e := h i hi
  cases hσ : σ i with
  | waiting => rw [hσ] at e; unfold Fluid.advance; rw [e, hσ]; rfl
  | finished c x => rw [hσ] at e; unfold Fluid.advance; rw [e, hσ]; rfl
  | active c m =>
    rw [hσ] at e
    have e : σ' i = .active (c + S) m := e
    have h3 := hb i hi c m hσ
    rw [advance_whole e (by omega) (by omega), advance_whole hσ h3 (by omega), L.credit_eq hcurr h hi, hs i hi, L.data i hi]
    have ht : (postponed S (job i).t).totalBytes = (job i).t.totalBytes := rfl
    rw [ht]
    split
    · show Prog.finished _ _ = Prog.finished _ _
      congr 1
      omega
    · rfl

/-- Before the shift is over, nothing has moved. -/
theorem Later.before_round (L : Later n (q * cpt) job job') (hpos : 0 < cpt) {speed' : Speed}
    (hbytes : ∀ i, i < n → 0 < (job i).t.totalBytes) (h24 : (q + 2) * cpt + 2 ≤ 16777216) (k : Nat) (hk : k ≤ q) (i : Nat) (hi : i < n) :
    run R.fl job' cpt speed' k i = .waiting ∨
      (k = q ∧ (job i).t.offset = 0 ∧ (job i).after = none ∧ run R.fl job' cpt speed' k i = .active (q * cpt) 0) := by
  induction k generalizing i with
  | zero => exact Or.inl rfl
  | succ k ih =>
    have hlt : ∀ i, i < n → run R.fl job' cpt speed' k i = .waiting := by
      intro i hi
      rcases ih (by omega) i hi with h | ⟨h, _⟩
      · exact h
      · omega
    have hst : Fluid.start job' ((k + 1) * cpt) (run R.fl job' cpt speed' k) i = .waiting ∨
        (k + 1 = q ∧ (job i).t.offset = 0 ∧ (job i).after = none ∧
          Fluid.start job' ((k + 1) * cpt) (run R.fl job' cpt speed' k) i = .active (q * cpt) 0) := by
      have ho : (job' i).t.offset = (job i).t.offset + q * cpt := by rw [L.data i hi]; rfl
      have hq : (k + 1) * cpt ≤ q * cpt := Nat.mul_le_mul_right _ hk
      unfold Fluid.start begins
      rw [hlt i hi, ho, L.after i hi]
      simp only
      by_cases hc : (job i).t.offset + q * cpt ≤ (k + 1) * cpt
      · rw [if_pos hc]
        have hkq : k + 1 = q := by
          have : q * cpt ≤ (k + 1) * cpt := by omega
          have := Nat.le_of_mul_le_mul_right this hpos
          omega
        cases ha : (job i).after with
        | none =>
          right
          refine ⟨hkq, by omega, rfl, ?_⟩
          simp only
          congr 1
          omega
        | some p =>
          left
          obtain ⟨j, d⟩ := p
          simp only
          rw [hlt j (L.closed i hi j d ha)]
      · rw [if_neg hc]
        exact Or.inl rfl
    show advance R.fl job' cpt speed' ((k + 1) * cpt) (Fluid.start job' ((k + 1) * cpt) (run R.fl job' cpt speed' k)) i = _ ∨ (_ ∧ _ ∧ _ ∧
      advance R.fl job' cpt speed' ((k + 1) * cpt) (Fluid.start job' ((k + 1) * cpt) (run R.fl job' cpt speed' k)) i = _)
    rcases hst with h | ⟨h1, h2, h3, h4⟩
    · left
      unfold Fluid.advance
      rw [h]
    · right
      refine ⟨h1, h2, h3, ?_⟩
      have hcr : credit job' cpt ((k + 1) * cpt) (Fluid.start job' ((k + 1) * cpt) (run R.fl job' cpt speed' k)) i (q * cpt) = 0 := by
        unfold credit
        rw [L.after i hi, h3, h1]
        simp
      have e2 : (q + 2) * cpt = q * cpt + 2 * cpt := by ring
      rw [advance_whole h4 (by rw [h1]) (by rw [h1]; omega), hcr]
      have hm : ∀ left v, roundBytes R left 0 v = 0 := by
        intro left v
        unfold roundBytes
        have e : R.fl (R.fl ((0 : ℕ) : ℚ) * v) = ((0 : ℤ) : ℚ) := by simp [R.fl_zero]
        rw [e, Rat.floor_intCast]
        simp
      rw [hm]
      have hb := hbytes i hi
      rw [if_neg (by rw [L.data i hi]; show ¬ 0 + 0 = (job i).t.totalBytes; omega)]

/-- The later run is the earlier one, later. -/
theorem Later.run_eq_round (L : Later n (q * cpt) job job') (hpos : 0 < cpt) {speed speed' : Speed}
    {K : Nat} (hs : ∀ k, k < K → (∀ i, i < n → Fluid.start job' ((k + 1) * cpt + q * cpt) (run R.fl job' cpt speed' (k + q)) i =
        late (q * cpt) (Fluid.start job ((k + 1) * cpt) (run R.fl job cpt speed k) i)) → ∀ i, i < n →
      speed' ((k + 1) * cpt + q * cpt) (Fluid.start job' ((k + 1) * cpt + q * cpt) (run R.fl job' cpt speed' (k + q))) i =
        speed ((k + 1) * cpt) (Fluid.start job ((k + 1) * cpt) (run R.fl job cpt speed k)) i)
    (hbytes : ∀ i, i < n → 0 < (job i).t.totalBytes)
    (hK : (K + 2) * cpt + q * cpt + 2 ≤ 16777216)
    (hd : ∀ i, i < n → ∀ j d, (job i).after = some (j, d) → (K + 2) * cpt + d + q * cpt + 1 < 4294967296)
    (k : Nat) (hk1 : 1 ≤ k) (hkK : k ≤ K) (i : Nat) (hi : i < n) :
    run R.fl job' cpt speed' (k + q) i = late (q * cpt) (run R.fl job cpt speed k i) := by
  obtain ⟨k, rfl⟩ : ∃ m, k = m + 1 := ⟨k - 1, by omega⟩
  clear hk1
  induction k generalizing i with
  | zero =>
    have hq : (q + 2) * cpt + 2 ≤ 16777216 := by
      have h1 : (q + 2) * cpt = 2 * cpt + q * cpt := by ring
      have h2 : 2 * cpt ≤ (K + 2) * cpt := Nat.mul_le_mul_right _ (by omega)
      omega
    have e1 : (0 + 1 + q) = q + 1 := by omega
    have e2 : (q + 1) * cpt = cpt + q * cpt := by ring
    have hst : ∀ i, i < n → Fluid.start job' (cpt + q * cpt) (run R.fl job' cpt speed' q) i =
        late (q * cpt) (Fluid.start job cpt (run R.fl job cpt speed 0) i) := by
      intro i hi
      have ho : (job' i).t.offset = (job i).t.offset + q * cpt := by rw [L.data i hi]; rfl
      rcases L.before_round hpos (speed' := speed') hbytes hq q (le_refl _) i hi with h | ⟨_, h2, h3, h4⟩
      · unfold Fluid.start begins
        rw [h, ho, L.after i hi]
        show _ = late (q * cpt) (match (if (job i).t.offset ≤ cpt then match (job i).after with
          | none => some (job i).t.offset
          | some (j, d) => none else none) with
          | some c => Prog.active c 0
          | none => Prog.waiting)
        simp only
        by_cases hc : (job i).t.offset ≤ cpt
        · rw [if_pos hc, if_pos (by omega)]
          cases ha : (job i).after with
          | none => rfl
          | some p =>
            obtain ⟨j, d⟩ := p
            simp only
            have hj := L.closed i hi j d ha
            rcases L.before_round hpos (speed' := speed') hbytes hq q (le_refl _) j hj with h | ⟨_, _, _, h⟩ <;> rw [h] <;> rfl
        · rw [if_neg hc, if_neg (by omega)]
          rfl
      · have e3 : begins job' (cpt + q * cpt) (run R.fl job' cpt speed' q) i = none := by
          unfold begins; rw [h4]
        have e4 : begins job cpt (run R.fl job cpt speed 0) i = some 0 := by
          show (if (job i).t.offset ≤ cpt then match (job i).after with
          | none => some (job i).t.offset
          | some (j, d) => none else none) = _
          rw [h2, if_pos (by omega), h3]
        unfold Fluid.start
        rw [e3, e4]
        simp only
        rw [h4]
        show _ = Prog.active (0 + q * cpt) 0
        rw [Nat.zero_add]
    have e3 : (0 + 1) * cpt = cpt := by ring
    have hK1 : cpt * 1 ≤ (K + 2) * cpt := by
      rw [Nat.mul_comm]; exact Nat.mul_le_mul_right _ (by omega)
    have hK3 : 3 * cpt ≤ (K + 2) * cpt := Nat.mul_le_mul_right _ (by omega)
    rw [e1]
    show advance R.fl job' cpt speed' ((q + 1) * cpt) (Fluid.start job' ((q + 1) * cpt) _) i =
      late _ (advance R.fl job cpt speed ((0 + 1) * cpt) (Fluid.start job ((0 + 1) * cpt) _) i)
    rw [e2, e3]
    have hs0 := hs 0 (by omega)
    rw [Nat.zero_add, Nat.zero_add, Nat.one_mul] at hs0
    refine L.advance_eq_round (Or.inl rfl) (hs0 hst) (fun i hi c m ha => ?_) hst (by omega) hi
    have := start_inTime (job := job) (curr := cpt) (b := 0) (i := i) (σ := run R.fl job cpt speed 0) trivial
    rw [ha] at this
    exact this
  | succ k ih =>
    have ih' := fun i hi => ih i hi (by omega)
    have e1 : (k + 1 + 1 + q) = (k + 1 + q) + 1 := by omega
    have e2 : (k + 1 + q + 1) * cpt = (k + 1 + 1) * cpt + q * cpt := by ring
    have hk2 : (k + 1 + 2) * cpt ≤ (K + 2) * cpt := Nat.mul_le_mul_right _ (by omega)
    have hk4 : (k + 1 + 1) * cpt = k * cpt + 2 * cpt := by ring
    have hk5 : (k + 1) * cpt = k * cpt + cpt := by ring
    have hk6 : (k + 1 + 2) * cpt = k * cpt + 3 * cpt := by ring
    have hk7 : (k + 4) * cpt ≤ (K + 2) * cpt := Nat.mul_le_mul_right _ (by omega)
    have hk8 : (k + 4) * cpt = k * cpt + 4 * cpt := by ring
    have hin : ∀ i, InTime ((k + 1 + 1) * cpt) ((k + 1 + 2) * cpt + 1) (run R.fl job cpt speed (k + 1) i) := fun i =>
      (round_intime (k + 1) (by omega) i).le (by omega) (le_refl _)
    have hst : ∀ i, i < n → Fluid.start job' ((k + 1 + 1) * cpt + q * cpt) (run R.fl job' cpt speed' (k + 1 + q)) i =
        late (q * cpt) (Fluid.start job ((k + 1 + 1) * cpt) (run R.fl job cpt speed (k + 1)) i) := by
      intro i hi
      refine L.start_eq (fun i _ => hin i) ih' (fun i hi j d ha => ?_) hi
      have := hd i hi j d ha
      omega
    rw [e1]
    show advance R.fl job' cpt speed' ((k + 1 + q + 1) * cpt) (Fluid.start job' ((k + 1 + q + 1) * cpt) _) i =
      late _ (advance R.fl job cpt speed ((k + 1 + 1) * cpt) (Fluid.start job ((k + 1 + 1) * cpt) _) i)
    rw [e2]
    refine L.advance_eq_round (Or.inr (by omega)) (hs (k + 1) (by omega) hst) (fun i hi c m ha => ?_) hst (by omega) hi
    have := start_inTime (job := job) (hin i)
    rw [ha] at this
    exact this


/-- The ends of the two runs. -/
theorem Later.ends_round (L : Later n (q * cpt) job job') (hpos : 0 < cpt) (hn : 0 < n) {speed speed' : Speed}
    {s : Sim} {c : Nat} {e' : Ending}
    (hs : ∀ k, (k + 1) * cpt ≤ c → (∀ i, i < n → Fluid.start job' ((k + 1) * cpt + q * cpt) (run R.fl job' cpt speed' (k + q)) i =
        late (q * cpt) (Fluid.start job ((k + 1) * cpt) (run R.fl job cpt speed k) i)) → ∀ i, i < n →
      speed' ((k + 1) * cpt + q * cpt) (Fluid.start job' ((k + 1) * cpt + q * cpt) (run R.fl job' cpt speed' (k + q))) i =
        speed ((k + 1) * cpt) (Fluid.start job ((k + 1) * cpt) (run R.fl job cpt speed k)) i)
    (hbytes : ∀ i, i < n → 0 < (job i).t.totalBytes)
    (h24 : c + 2 * cpt + q * cpt + 2 ≤ 16777216)
    (hd : ∀ i, i < n → ∀ j d, (job i).after = some (j, d) → c + 2 * cpt + d + q * cpt + 1 < 4294967296)
    (h : EndsAs n cpt (run R.fl job cpt speed) (.finished s c)) (h' : EndsAs n cpt (run R.fl job' cpt speed') e') :
    ∃ s', e' = .finished s' (c + q * cpt) ∧ s'.ts.map (fun t => (t.start, t.endc)) =
      s.ts.map (fun t => (t.start + q * cpt, t.endc + q * cpt)) := by
  obtain ⟨l, K, k1, k2, k3, k4⟩ := h
  have e1 : (K + 2) * cpt = c + 2 * cpt := by rw [k2]; ring
  have G := fun k h1 h2 i hi => L.run_eq_round hpos (K := K)
    (fun k hk => hs k (by rw [k2]; exact Nat.mul_le_mul_right _ hk)) hbytes (by rw [e1]; exact h24)
    (fun i hi j d ha => by rw [e1]; exact hd i hi j d ha) k h1 h2 i hi
  have fin : ∀ (i : Nat) (t : TState), s.ts[i]? = some t →
      run R.fl job' cpt speed' (K + q) i = .finished (t.start + q * cpt) (t.endc + q * cpt) := by
    intro i t ht
    rw [G K k1 (le_refl _) i (by rw [← l]; exact (List.getElem?_eq_some_iff.mp ht).1), k3 i t ht]
    rfl
  have all : AllFinished n (run R.fl job' cpt speed' (K + q)) := by
    intro i hi
    exact ⟨_, _, fin i _ (List.getElem?_eq_getElem (by rw [l]; exact hi))⟩
  have e2 : (K + q) * cpt = c + q * cpt := by rw [k2]; ring
  cases e' with
  | limit s' c' =>
    exfalso
    obtain ⟨_, k, m1, m2, m3⟩ := h'
    refine m3 (allFinished_le ?_ all)
    have : (K + q) * cpt < k * cpt := by omega
    exact Nat.le_of_lt (Nat.lt_of_mul_lt_mul_right this)
  | finished s' c' =>
    obtain ⟨l', k, m1, m2, m3, m4⟩ := h'
    have a1 : k ≤ K + q := by
      by_contra hcon
      exact m4 (K + q) (by omega) (by omega) all
    have allk : AllFinished n (run R.fl job' cpt speed' k) := by
      intro i hi
      exact ⟨_, _, m3 i _ (List.getElem?_eq_getElem (by rw [l']; exact hi))⟩
    have a2 : q < k := by
      by_contra hcon
      obtain ⟨x, y, hxy⟩ := allk 0 hn
      rcases L.before_round hpos (speed' := speed') hbytes
        (by have : (q + 2) * cpt = q * cpt + 2 * cpt := by ring
            omega) k (by omega) 0 hn with hw | ⟨_, _, _, hw⟩ <;>
        rw [hxy] at hw <;> cases hw
    have a3 : k = K + q := by
      by_contra hcon
      refine k4 (k - q) (by omega) (by omega) fun i hi => ?_
      have hr := G (k - q) (by omega) (by omega) i hi
      obtain ⟨x, y, hxy⟩ := allk i hi
      rw [show k - q + q = k by omega, hxy] at hr
      cases hx : run R.fl job cpt speed (k - q) i with
      | waiting => rw [hx] at hr; cases hr
      | active a b => rw [hx] at hr; cases hr
      | finished a b => exact ⟨a, b, rfl⟩
    subst a3
    rw [e2] at m2
    subst m2
    refine ⟨s', rfl, List.ext_getElem? fun i => ?_⟩
    rw [List.getElem?_map, List.getElem?_map]
    by_cases hi : i < n
    · have g1 : s.ts[i]? = some (s.ts[i]'(by rw [l]; exact hi)) := List.getElem?_eq_getElem _
      have g2 : s'.ts[i]? = some (s'.ts[i]'(by rw [l']; exact hi)) := List.getElem?_eq_getElem _
      have f1 := fin i _ g1
      rw [m3 i _ g2] at f1
      obtain ⟨x1, x2⟩ := Prog.finished.inj f1
      rw [g1, g2]
      simp [x1, x2]
    · rw [List.getElem?_eq_none (by rw [l']; omega), List.getElem?_eq_none (by rw [l]; omega)]
      rfl

end
end NPE
