import Verif.Proofs.FluidEmbed

/-
The same transfers, scheduled later by a number of timesteps.
-/

namespace NPE
open NPE.Spec NPE.Spec.Fluid

/-- The same progress, later. -/
def late (S : Nat) : Prog → Prog
  | .waiting => .waiting
  | .active c m => .active (c + S) m
  | .finished c e => .finished (c + S) (e + S)

/-- The jobs of the later workload. -/
structure Later (n S : Nat) (job job' : Nat → Job) : Prop where
  data : ∀ i, i < n → (job' i).t = postponed S (job i).t
  route : ∀ i, i < n → (job' i).route = (job i).route
  after : ∀ i, i < n → (job' i).after = (job i).after
  closed : ∀ i, i < n → ∀ j d, (job i).after = some (j, d) → j < n

section
variable {n S cpt : Nat} {job job' : Nat → Job}

theorem Later.load_eq (L : Later n S job job') (dev : Device) {curr : Nat} (hcurr : cpt ≤ curr) {w : TState → Nat}
    (hw : ∀ i, i < n → ∀ c, w ((job' i).began (c + S)) = w ((job i).began c))
    {σ σ' : Fluid.State} (h : ∀ i, i < n → σ' i = late S (σ i)) :
    load dev job' n cpt w (curr + S) σ' = load dev job n cpt w curr σ := by
  unfold Fluid.load
  congr 1
  refine List.map_congr_left fun i hi => ?_
  rw [List.mem_range] at hi
  rw [h i hi]
  cases σ i with
  | waiting => rfl
  | finished c e => rfl
  | active c m =>
    show (w ((job' i).began (c + S)) : ℚ) * (share (curr + S - cpt) (curr + S) ((job' i).began (c + S)) *
      own .exact dev (job' i).t) = _
    rw [hw i hi, L.data i hi]
    have hs : share (curr + S - cpt) (curr + S) ((job' i).began (c + S)) = share (curr - cpt) curr ((job i).began c) := by
      unfold share Job.began
      simp only
      have e1 : curr + S - cpt = curr - cpt + S := by omega
      have e2 : max (curr - cpt + S) (c + S) = max (curr - cpt) c + S := by omega
      rw [e1, e2]
      push_cast
      congr 1 <;> ring
    rw [hs]
    rfl

theorem Later.shared_eq (L : Later n S job job') (dev : Device) {curr : Nat} (hcurr : cpt ≤ curr)
    {σ σ' : Fluid.State} (h : ∀ i, i < n → σ' i = late S (σ i)) {i : Nat} (hi : i < n) :
    shared dev job' n cpt (curr + S) σ' i = shared dev job n cpt curr σ i := by
  have hl : ∀ l, load dev job' n cpt (fun u => u.route.count l) (curr + S) σ' =
      load dev job n cpt (fun u => u.route.count l) curr σ := by
    intro l
    refine L.load_eq dev hcurr (fun k hk c => ?_) h
    unfold Job.began
    simp only
    rw [L.route k hk]
  have hs : ∀ noc c, load dev job' n cpt (leaves dev noc c) (curr + S) σ' = load dev job n cpt (leaves dev noc c) curr σ := by
    intro noc c
    refine L.load_eq dev hcurr (fun k hk c => ?_) h
    unfold Job.began leaves
    simp only
    rw [L.data k hk]
    rfl
  have hk : ∀ noc c, load dev job' n cpt (reaches dev noc c) (curr + S) σ' = load dev job n cpt (reaches dev noc c) curr σ := by
    intro noc c
    refine L.load_eq dev hcurr (fun k hk c => ?_) h
    unfold Job.began reaches
    simp only
    rw [L.data k hk]
    rfl
  unfold Fluid.shared
  simp only [hl, hs, hk]
  rw [L.data i hi, L.route i hi]
  rfl

theorem Later.alone_eq (L : Later n S job job') (dev : Device) (curr curr' : Nat) (σ σ' : Fluid.State) {i : Nat} (hi : i < n) :
    alone .exact dev job' curr' σ' i = alone .exact dev job curr σ i := by
  unfold Fluid.alone
  rw [L.data i hi]
  rfl

/-! ### Bounds in exact arithmetic -/

theorem credit_le {curr i c : Nat} {σ : Fluid.State} : credit job cpt curr σ i c ≤ 2 * cpt := by
  unfold credit
  split
  · omega
  · split
    · split <;> omega
    · omega

/-- What a transfer moves takes no longer than the cycles it had. -/
theorem ceil_bytes {a b : Nat} {v : ℚ} (h : b ≤ ((a : ℚ) * v).floor.toNat) : 0 ≤ ((b : ℚ) / v).ceil ∧ ((b : ℚ) / v).ceil ≤ a := by
  by_cases hv : 0 < v
  · have hx : (0 : ℚ) ≤ (a : ℚ) * v := by positivity
    have h0 : (0 : ℤ) ≤ ((a : ℚ) * v).floor := Rat.le_floor_iff.mpr (by push_cast; exact hx)
    have h1 : (b : ℚ) ≤ (a : ℚ) * v := by
      have h2 : (b : ℤ) ≤ ((a : ℚ) * v).floor := by omega
      exact_mod_cast Rat.le_floor_iff.mp h2
    constructor
    · have : ((0 : ℤ) : ℚ) ≤ (((b : ℚ) / v).ceil : ℚ) := by
        refine le_trans ?_ (Rat.le_ceil)
        push_cast; positivity
      exact_mod_cast this
    · rw [Rat.ceil_le_iff]
      push_cast
      rw [div_le_iff₀ hv]; exact h1
  · have hb : b = 0 := by
      have : ((a : ℚ) * v).floor ≤ 0 := by
        have h1 : (a : ℚ) * v ≤ 0 := mul_nonpos_of_nonneg_of_nonpos (by positivity) (not_lt.mp hv)
        have h2 : ((((a : ℚ) * v).floor : ℤ) : ℚ) ≤ ((0 : ℤ) : ℚ) := by
          push_cast
          exact le_trans (Rat.floor_le _) h1
        exact_mod_cast h2
      omega
    subst hb
    have e : ((0 : ℕ) : ℚ) / v = ((0 : ℤ) : ℚ) := by simp
    rw [e, Rat.ceil_intCast]
    omega

/-- The end of a transfer in exact arithmetic. -/
theorem end_exact {b : Nat} {z : ℤ} (hz : 0 ≤ z) :
    (id (id ((b : Nat) : ℚ) + (z : ℚ)) : ℚ).floor.toNat = b + z.toNat := by
  have e : (id (id ((b : Nat) : ℚ) + (z : ℚ)) : ℚ) = (((b : ℤ) + z : ℤ) : ℚ) := by simp
  rw [e, Rat.floor_intCast]
  omega

/-- Bytes that an active transfer moves, in exact arithmetic. -/
def moves (t : Transfer) (m cr : Nat) (v : ℚ) : Nat := min (t.totalBytes - m) ((cr : ℚ) * v).floor.toNat

theorem advance_exact {speed : Speed} {curr i c m : Nat} {σ : Fluid.State} (h : σ i = .active c m) :
    advance id job cpt speed curr σ i =
      if m + moves (job i).t m (credit job cpt curr σ i c) (speed curr σ i) = (job i).t.totalBytes then
        .finished c ((max c (curr - cpt) +
          ((moves (job i).t m (credit job cpt curr σ i c) (speed curr σ i) : ℚ) / speed curr σ i).ceil.toNat) % 4294967296)
      else .active c (m + moves (job i).t m (credit job cpt curr σ i c) (speed curr σ i)) := by
  unfold Fluid.advance
  rw [h]
  have hz : 0 ≤ (((moves (job i).t m (credit job cpt curr σ i c) (speed curr σ i) : ℕ) : ℚ) / speed curr σ i).ceil :=
    (ceil_bytes (a := credit job cpt curr σ i c) (v := speed curr σ i)
    (Nat.min_le_right ((job i).t.totalBytes - m) _)).1
  show (if m + moves (job i).t m (credit job cpt curr σ i c) (speed curr σ i) = (job i).t.totalBytes then
      Prog.finished c ((id (id ((max c (curr - cpt) : Nat) : ℚ) + ((((moves (job i).t m (credit job cpt curr σ i c)
        (speed curr σ i) : ℕ) : ℚ) / speed curr σ i).ceil : ℚ)) : ℚ).floor.toNat % 4294967296) else _) = _
  rw [end_exact hz]
  rfl

theorem moves_time {t : Transfer} {m cr : Nat} {v : ℚ} : ((moves t m cr v : ℚ) / v).ceil.toNat ≤ cr := by
  have := (ceil_bytes (a := cr) (v := v) (Nat.min_le_right (t.totalBytes - m) _)).2
  unfold moves
  omega

/-- A start of at most `a` and an end of at most `b`. -/
def InTime (a b : Nat) : Prog → Prop
  | .waiting => True
  | .active c _ => c ≤ a
  | .finished c e => c ≤ a ∧ e ≤ b

theorem InTime.le {a b a' b' : Nat} (ha : a ≤ a') (hb : b ≤ b') {p : Prog} (h : InTime a b p) : InTime a' b' p := by
  cases p with
  | waiting => trivial
  | active c m => exact le_trans h ha
  | finished c e => exact ⟨le_trans h.1 ha, le_trans h.2 hb⟩

theorem start_inTime {curr b i : Nat} {σ : Fluid.State} (h : InTime curr b (σ i)) : InTime curr b (Fluid.start job curr σ i) := by
  unfold Fluid.start
  cases hb : begins job curr σ i with
  | none => exact h
  | some c =>
    show c ≤ curr
    unfold begins at hb
    split at hb
    · split at hb
      · split at hb
        · rw [← Option.some.inj hb]; assumption
        · split at hb
          · split at hb
            · rw [← Option.some.inj hb]; omega
            · cases hb
          · cases hb
      · cases hb
    · cases hb

/-- Starts and ends are not far beyond the clock. -/
theorem run_inTime {speed : Speed} (k i : Nat) : InTime (k * cpt) ((k + 2) * cpt) (run id job cpt speed k i) := by
  induction k generalizing i with
  | zero => trivial
  | succ k ih =>
    have hk : (k + 1) * cpt = k * cpt + cpt := by ring
    have hk2 : (k + 1 + 2) * cpt = k * cpt + 3 * cpt := by ring
    have hk3 : (k + 2) * cpt = k * cpt + 2 * cpt := by ring
    have hs : InTime ((k + 1) * cpt) ((k + 1 + 2) * cpt) (Fluid.start job ((k + 1) * cpt) (run id job cpt speed k) i) :=
      start_inTime ((ih i).le (by omega) (by omega))
    show InTime _ _ (advance id job cpt speed ((k + 1) * cpt) (Fluid.start job ((k + 1) * cpt) (run id job cpt speed k)) i)
    cases ha : Fluid.start job ((k + 1) * cpt) (run id job cpt speed k) i with
    | waiting => unfold Fluid.advance; rw [ha]; trivial
    | finished c e => unfold Fluid.advance; rw [ha]; rw [ha] at hs; exact hs
    | active c m =>
      rw [advance_exact ha]
      rw [ha] at hs
      have hs : c ≤ (k + 1) * cpt := hs
      split
      · refine ⟨hs, le_trans (Nat.mod_le _ _) ?_⟩
        have h1 := moves_time (t := (job i).t) (m := m)
          (cr := credit job cpt ((k + 1) * cpt) (Fluid.start job ((k + 1) * cpt) (run id job cpt speed k)) i c)
          (v := speed ((k + 1) * cpt) (Fluid.start job ((k + 1) * cpt) (run id job cpt speed k)) i)
        have h2 := credit_le (job := job) (cpt := cpt) (curr := (k + 1) * cpt) (i := i) (c := c)
          (σ := Fluid.start job ((k + 1) * cpt) (run id job cpt speed k))
        omega
      · exact hs

/-! ### The shift -/

theorem Later.start_eq (L : Later n S job job') {curr : Nat} {σ σ' : Fluid.State} {b : Nat}
    (hb : ∀ i, i < n → InTime curr b (σ i)) (h : ∀ i, i < n → σ' i = late S (σ i))
    (hd : ∀ i, i < n → ∀ j d, (job i).after = some (j, d) → b + d + S < 4294967296) {i : Nat} (hi : i < n) :
    Fluid.start job' (curr + S) σ' i = late S (Fluid.start job curr σ i) := by
  have key : begins job' (curr + S) σ' i = (begins job curr σ i).map (· + S) := by
    unfold begins
    rw [h i hi]
    cases hσ : σ i with
    | active c m => rfl
    | finished c e => rfl
    | waiting =>
      simp only [late]
      have ho : (job' i).t.offset = (job i).t.offset + S := by rw [L.data i hi]; rfl
      rw [ho, L.after i hi]
      by_cases hle : (job i).t.offset ≤ curr
      · rw [if_pos hle, if_pos (by omega)]
        cases ha : (job i).after with
        | none => rfl
        | some p =>
          obtain ⟨j, d⟩ := p
          simp only
          have hj := L.closed i hi j d ha
          rw [h j hj]
          have hbj := hb j hj
          cases hσj : σ j with
          | waiting => rfl
          | active c m => rfl
          | finished c e =>
            rw [hσj] at hbj
            have h1 : e ≤ b := hbj.2
            have h2 := hd i hi j d ha
            simp only [late]
            rw [Nat.mod_eq_of_lt (by omega : e + d < 4294967296), Nat.mod_eq_of_lt (by omega : e + S + d < 4294967296)]
            by_cases hc : e + d ≤ curr
            · rw [if_pos hc, if_pos (by omega)]
              simp only [Option.map_some]
              congr 1
              omega
            · rw [if_neg hc, if_neg (by omega)]
              rfl
      · rw [if_neg hle, if_neg (by omega)]
        rfl
  unfold Fluid.start
  rw [key]
  cases begins job curr σ i with
  | none => exact h i hi
  | some c => rfl

theorem Later.credit_eq (L : Later n S job job') {curr i c : Nat} (hcurr : cpt = curr ∨ 2 * cpt ≤ curr) {σ σ' : Fluid.State}
    (h : ∀ i, i < n → σ' i = late S (σ i)) (hi : i < n) :
    credit job' cpt (curr + S) σ' i (c + S) = credit job cpt curr σ i c := by
  unfold credit
  rw [L.after i hi]
  cases ha : (job i).after with
  | none => simp only; omega
  | some p =>
    obtain ⟨j, d⟩ := p
    simp only
    rw [h j (L.closed i hi j d ha)]
    cases σ j with
    | waiting => simp only [late]; omega
    | active c m => simp only [late]; omega
    | finished c' e =>
      simp only [late]
      by_cases hc : c + cpt < curr ∧ 2 * cpt ≤ curr ∧ curr ≤ e + 2 * cpt ∧ e + cpt < curr
      · rw [if_pos hc, if_pos (by omega)]; omega
      · rw [if_neg hc, if_neg (by omega)]; omega

theorem Later.advance_eq (L : Later n S job job') {curr : Nat} (hcurr : cpt = curr ∨ 2 * cpt ≤ curr) {speed speed' : Speed}
    {σ σ' : Fluid.State} (hs : ∀ i, i < n → speed' (curr + S) σ' i = speed curr σ i)
    (hb : ∀ i, i < n → ∀ c m, σ i = .active c m → c ≤ curr) (h : ∀ i, i < n → σ' i = late S (σ i))
    (h32 : curr + 2 * cpt + S < 4294967296) {i : Nat} (hi : i < n) :
    advance id job' cpt speed' (curr + S) σ' i = late S (advance id job cpt speed curr σ i) := by
  have e := h i hi
  cases hσ : σ i with
  | waiting => rw [hσ] at e; unfold Fluid.advance; rw [e, hσ]; rfl
  | finished c x => rw [hσ] at e; unfold Fluid.advance; rw [e, hσ]; rfl
  | active c m =>
    rw [hσ] at e
    have e : σ' i = .active (c + S) m := e
    rw [advance_exact e, advance_exact hσ, L.credit_eq hcurr h hi, hs i hi, L.data i hi]
    have hm : ∀ cr v, moves (postponed S (job i).t) m cr v = moves (job i).t m cr v := fun _ _ => rfl
    have ht : (postponed S (job i).t).totalBytes = (job i).t.totalBytes := rfl
    rw [hm, ht]
    have h1 := moves_time (t := (job i).t) (m := m) (cr := credit job cpt curr σ i c) (v := speed curr σ i)
    have h2 := credit_le (job := job) (cpt := cpt) (curr := curr) (i := i) (c := c) (σ := σ)
    have h3 := hb i hi c m hσ
    generalize moves (job i).t m (credit job cpt curr σ i c) (speed curr σ i) = b at *
    split
    · show Prog.finished _ _ = Prog.finished _ _
      congr 1
      generalize ((b : ℚ) / speed curr σ i).ceil.toNat = z at *
      rw [Nat.mod_eq_of_lt (by omega), Nat.mod_eq_of_lt (by omega)]
      omega
    · rfl

/-- Before the shift is over, nothing has moved. -/
theorem Later.before (L : Later n (q * cpt) job job') (hpos : 0 < cpt) {speed' : Speed}
    (hbytes : ∀ i, i < n → 0 < (job i).t.totalBytes) (k : Nat) (hk : k ≤ q) (i : Nat) (hi : i < n) :
    run id job' cpt speed' k i = .waiting ∨
      (k = q ∧ (job i).t.offset = 0 ∧ (job i).after = none ∧ run id job' cpt speed' k i = .active (q * cpt) 0) := by
  induction k generalizing i with
  | zero => exact Or.inl rfl
  | succ k ih =>
    have hlt : ∀ i, i < n → run id job' cpt speed' k i = .waiting := by
      intro i hi
      rcases ih (by omega) i hi with h | ⟨h, _⟩
      · exact h
      · omega
    have hst : Fluid.start job' ((k + 1) * cpt) (run id job' cpt speed' k) i = .waiting ∨
        (k + 1 = q ∧ (job i).t.offset = 0 ∧ (job i).after = none ∧
          Fluid.start job' ((k + 1) * cpt) (run id job' cpt speed' k) i = .active (q * cpt) 0) := by
      have ho : (job' i).t.offset = (job i).t.offset + q * cpt := by rw [L.data i hi]; rfl
      have hq : (k + 1) * cpt ≤ q * cpt := Nat.mul_le_mul_right _ hk
      unfold Fluid.start begins
      rw [hlt i hi, ho, L.after i hi]
      simp only
      by_cases hc : (job i).t.offset + q * cpt ≤ (k + 1) * cpt
      · rw [if_pos hc]
        have hkq : k + 1 = q := by
          have : q * cpt ≤ (k + 1) * cpt := by omega
          have := Nat.le_of_mul_le_mul_right this hpos
          omega
        cases ha : (job i).after with
        | none =>
          right
          refine ⟨hkq, by omega, rfl, ?_⟩
          simp only
          congr 1
          omega
        | some p =>
          left
          obtain ⟨j, d⟩ := p
          simp only
          rw [hlt j (L.closed i hi j d ha)]
      · rw [if_neg hc]
        exact Or.inl rfl
    show advance id job' cpt speed' ((k + 1) * cpt) (Fluid.start job' ((k + 1) * cpt) (run id job' cpt speed' k)) i = _ ∨ (_ ∧ _ ∧ _ ∧
      advance id job' cpt speed' ((k + 1) * cpt) (Fluid.start job' ((k + 1) * cpt) (run id job' cpt speed' k)) i = _)
    rcases hst with h | ⟨h1, h2, h3, h4⟩
    · left
      unfold Fluid.advance
      rw [h]
    · right
      refine ⟨h1, h2, h3, ?_⟩
      have hcr : credit job' cpt ((k + 1) * cpt) (Fluid.start job' ((k + 1) * cpt) (run id job' cpt speed' k)) i (q * cpt) = 0 := by
        unfold credit
        rw [L.after i hi, h3, h1]
        simp
      rw [advance_exact h4, hcr]
      have hm : ∀ v, moves (job' i).t 0 0 v = 0 := by
        intro v
        unfold moves
        have e : ((0 : ℕ) : ℚ) * v = ((0 : ℤ) : ℚ) := by simp
        rw [e, Rat.floor_intCast]
        simp
      rw [hm]
      have hb := hbytes i hi
      rw [if_neg (by rw [L.data i hi]; show ¬ 0 + 0 = (job i).t.totalBytes; omega)]

/-- The later run is the earlier one, later. -/
theorem Later.run_eq (L : Later n (q * cpt) job job') (hpos : 0 < cpt) {speed speed' : Speed}
    (hs : ∀ curr σ σ', cpt ≤ curr → (∀ i, i < n → σ' i = late (q * cpt) (σ i)) → ∀ i, i < n →
      speed' (curr + q * cpt) σ' i = speed curr σ i)
    (hbytes : ∀ i, i < n → 0 < (job i).t.totalBytes) {K : Nat}
    (hK : (K + 2) * cpt + q * cpt < 4294967296)
    (hd : ∀ i, i < n → ∀ j d, (job i).after = some (j, d) → (K + 2) * cpt + d + q * cpt < 4294967296)
    (k : Nat) (hk1 : 1 ≤ k) (hkK : k ≤ K) (i : Nat) (hi : i < n) :
    run id job' cpt speed' (k + q) i = late (q * cpt) (run id job cpt speed k i) := by
  obtain ⟨k, rfl⟩ : ∃ m, k = m + 1 := ⟨k - 1, by omega⟩
  clear hk1
  induction k generalizing i with
  | zero =>
    have e1 : (0 + 1 + q) = q + 1 := by omega
    have e2 : (q + 1) * cpt = cpt + q * cpt := by ring
    have hst : ∀ i, i < n → Fluid.start job' (cpt + q * cpt) (run id job' cpt speed' q) i =
        late (q * cpt) (Fluid.start job cpt (run id job cpt speed 0) i) := by
      intro i hi
      have ho : (job' i).t.offset = (job i).t.offset + q * cpt := by rw [L.data i hi]; rfl
      rcases L.before hpos (speed' := speed') hbytes q (le_refl _) i hi with h | ⟨_, h2, h3, h4⟩
      · unfold Fluid.start begins
        rw [h, ho, L.after i hi]
        show _ = late (q * cpt) (match (if (job i).t.offset ≤ cpt then match (job i).after with
          | none => some (job i).t.offset
          | some (j, d) => none else none) with
          | some c => Prog.active c 0
          | none => Prog.waiting)
        simp only
        by_cases hc : (job i).t.offset ≤ cpt
        · rw [if_pos hc, if_pos (by omega)]
          cases ha : (job i).after with
          | none => rfl
          | some p =>
            obtain ⟨j, d⟩ := p
            simp only
            have hj := L.closed i hi j d ha
            rcases L.before hpos (speed' := speed') hbytes q (le_refl _) j hj with h | ⟨_, _, _, h⟩ <;> rw [h] <;> rfl
        · rw [if_neg hc, if_neg (by omega)]
          rfl
      · have e3 : begins job' (cpt + q * cpt) (run id job' cpt speed' q) i = none := by
          unfold begins; rw [h4]
        have e4 : begins job cpt (run id job cpt speed 0) i = some 0 := by
          show (if (job i).t.offset ≤ cpt then match (job i).after with
          | none => some (job i).t.offset
          | some (j, d) => none else none) = _
          rw [h2, if_pos (by omega), h3]
        unfold Fluid.start
        rw [e3, e4]
        simp only
        rw [h4]
        show _ = Prog.active (0 + q * cpt) 0
        rw [Nat.zero_add]
    have e3 : (0 + 1) * cpt = cpt := by ring
    have hK1 : cpt * 1 ≤ (K + 2) * cpt := by
      rw [Nat.mul_comm]; exact Nat.mul_le_mul_right _ (by omega)
    have hK3 : 3 * cpt ≤ (K + 2) * cpt := Nat.mul_le_mul_right _ (by omega)
    rw [e1]
    show advance id job' cpt speed' ((q + 1) * cpt) (Fluid.start job' ((q + 1) * cpt) _) i =
      late _ (advance id job cpt speed ((0 + 1) * cpt) (Fluid.start job ((0 + 1) * cpt) _) i)
    rw [e2, e3]
    refine L.advance_eq (Or.inl rfl) (hs _ _ _ (le_refl _) hst) (fun i hi c m ha => ?_) hst (by omega) hi
    have := start_inTime (job := job) (curr := cpt) (b := 0) (i := i) (σ := run id job cpt speed 0) trivial
    rw [ha] at this
    exact this
  | succ k ih =>
    have ih' := fun i hi => ih i hi (by omega)
    have e1 : (k + 1 + 1 + q) = (k + 1 + q) + 1 := by omega
    have e2 : (k + 1 + q + 1) * cpt = (k + 1 + 1) * cpt + q * cpt := by ring
    have hk2 : (k + 1 + 2) * cpt ≤ (K + 2) * cpt := Nat.mul_le_mul_right _ (by omega)
    have hk4 : (k + 1 + 1) * cpt = k * cpt + 2 * cpt := by ring
    have hk5 : (k + 1) * cpt = k * cpt + cpt := by ring
    have hk6 : (k + 1 + 2) * cpt = k * cpt + 3 * cpt := by ring
    have hk7 : (k + 4) * cpt ≤ (K + 2) * cpt := Nat.mul_le_mul_right _ (by omega)
    have hk8 : (k + 4) * cpt = k * cpt + 4 * cpt := by ring
    have hin : ∀ i, InTime ((k + 1 + 1) * cpt) ((k + 1 + 2) * cpt) (run id job cpt speed (k + 1) i) := fun i =>
      (run_inTime (k + 1) i).le (by omega) (le_refl _)
    have hst : ∀ i, i < n → Fluid.start job' ((k + 1 + 1) * cpt + q * cpt) (run id job' cpt speed' (k + 1 + q)) i =
        late (q * cpt) (Fluid.start job ((k + 1 + 1) * cpt) (run id job cpt speed (k + 1)) i) := by
      intro i hi
      refine L.start_eq (fun i _ => hin i) ih' (fun i hi j d ha => ?_) hi
      have := hd i hi j d ha
      omega
    rw [e1]
    show advance id job' cpt speed' ((k + 1 + q + 1) * cpt) (Fluid.start job' ((k + 1 + q + 1) * cpt) _) i =
      late _ (advance id job cpt speed ((k + 1 + 1) * cpt) (Fluid.start job ((k + 1 + 1) * cpt) _) i)
    rw [e2]
    refine L.advance_eq (Or.inr (by omega)) (hs _ _ _ (by omega) hst) (fun i hi c m ha => ?_) hst (by omega) hi
    have := start_inTime (job := job) (hin i)
    rw [ha] at this
    exact this


/-! ### The engine -/

/-- The later initial states of transfers. -/
def laterT (S : Nat) (t : TState) : TState := { t with params := postponed S t.params, start := t.start + S }

theorem initOne_later {dev : Device} {ord : List Int → List Int} {N S : Nat} : ∀ (l : List Transfer)
    (slots r : List (Option TState)), Out.foldlM (initOne dev ord N) slots l = .ok r →
    Out.foldlM (initOne dev ord N) (slots.map (Option.map (laterT S))) (l.map (postponed S)) =
      .ok (r.map (Option.map (laterT S))) := by
  intro l
  induction l with
  | nil => intro slots r h; rw [← Out.ok.inj h]; rfl
  | cons t l ih =>
    intro slots r h
    rw [Out.foldlM_cons] at h
    obtain ⟨sl, h1, h2⟩ := Out.bind_eq_ok.mp h
    rw [List.map_cons, Out.foldlM_cons]
    unfold initOne at h1
    obtain ⟨u, h3, h1⟩ := Out.bind_eq_ok.mp h1
    obtain ⟨rt, h4, h1⟩ := Out.bind_eq_ok.mp h1
    have e : initOne dev ord N (slots.map (Option.map (laterT S))) (postponed S t) =
        .ok (sl.map (Option.map (laterT S))) := by
      unfold initOne
      show (Out.assert (0 ≤ t.id && decide (t.id < N)) >>= fun _ => dev.route ord t.noc t.src t.dst >>= fun r => _) = _
      rw [h3, Out.bind_ok, h4, Out.bind_ok, ← Out.ok.inj h1, List.map_set]
      rfl
    rw [e, Out.bind_ok]
    exact ih sl r h2

theorem mapM_later {S : Nat} (slots : List (Option TState)) (ts : List TState)
    (h : Out.mapM (fun o => match o with | some t => Out.ok t | none => .ub) slots = .ok ts) :
    Out.mapM (fun o => match o with | some t => Out.ok t | none => .ub) (slots.map (Option.map (laterT S))) =
      .ok (ts.map (laterT S)) := by
  rw [Out.mapM_eq_ok] at h ⊢
  induction h with
  | nil => exact .nil
  | @cons a b la lb hab _ ih =>
    refine .cons ?_ ih
    cases a with
    | none => simp at hab
    | some t => rw [← Out.ok.inj hab]; rfl

theorem init_later {dev : Device} {ord : List Int → List Int} {wl wl' : Workload} {S : Nat} {ts : List TState}
    (hS : wl'.transfers = wl.transfers.map (postponed S)) (h : initTransferState dev ord wl = .ok ts) :
    initTransferState dev ord wl' = .ok (ts.map (laterT S)) := by
  unfold initTransferState at h ⊢
  obtain ⟨slots, h1, h2⟩ := Out.bind_eq_ok.mp h
  have h3 := initOne_later (S := S) _ _ _ h1
  rw [List.map_replicate] at h3
  simp only [hS, List.length_map]
  have h3 : Out.foldlM (initOne dev ord wl.transfers.length) (List.replicate wl.transfers.length none)
      (List.map (postponed S) wl.transfers) = .ok (slots.map (Option.map (laterT S))) := h3
  rw [h3, Out.bind_ok]
  exact mapM_later _ _ h2

theorem groupMap_later {S : Nat} (ts : List TState) : groupMap (ts.map (laterT S)) = groupMap ts := by
  unfold groupMap
  rw [List.filter_map, List.map_map]
  rfl

theorem devAt_later {S : Nat} (ts : List TState) (j : Nat) : devAt (ts.map (laterT S)) j = devAt ts j := by
  unfold devAt
  rw [List.getElem?_map]
  cases ts[j]? <;> rfl

theorem later_jobs {fp : FP} {dev : Device} {ho : HashOrder} {wl wl' : Workload} {s0 s0' : Sim} {S : Nat}
    (h0 : initSim fp dev ho wl = .ok s0) (h0' : initSim fp dev ho wl' = .ok s0')
    (hb : ∀ l, (ho.buckets l).Perm l) (hS : wl'.transfers = wl.transfers.map (postponed S))
    {job job' : Nat → Job} (hd : Describes job s0) (hd' : Describes job' s0') :
    s0'.ts.length = s0.ts.length ∧ Later s0.ts.length S job job' := by
  obtain ⟨ts, I⟩ := init0 h0
  obtain ⟨ts', I'⟩ := init0 h0'
  have hts : ts' = ts.map (laterT S) := by
    have b := I'.state
    rw [init_later hS I.state] at b
    exact (Out.ok.inj b).symm
  subst hts
  have hlen : s0'.ts.length = s0.ts.length := by
    rw [(initSim_ok h0).1.len, (initSim_ok h0').1.len, hS, List.length_map]
  have get : ∀ (i : Nat) (t : TState), s0.ts[i]? = some t → ∃ t', s0'.ts[i]? = some t' ∧
      t'.params = postponed S t.params ∧ t'.route = t.route := by
    intro i t ht
    obtain ⟨q, h1, h2, h3⟩ := I.get ht
    have h1' : (ts.map (laterT S))[i]? = some (laterT S q) := by rw [List.getElem?_map, h1]; rfl
    obtain ⟨q', h4, h5, h6⟩ := I'.get' h1'
    exact ⟨q', h4, by rw [← h5, ← h2]; rfl, by rw [← h6.1, ← h3.1]; rfl⟩
  have get' : ∀ (i : Nat) (t' : TState), s0'.ts[i]? = some t' → ∃ t, s0.ts[i]? = some t ∧
      t'.params = postponed S t.params ∧ t'.route = t.route := by
    intro i t' ht'
    have hlt : i < s0.ts.length := by rw [← hlen]; exact (List.getElem?_eq_some_iff.mp ht').1
    obtain ⟨u, a1, a2, a3⟩ := get i _ (List.getElem?_eq_getElem hlt)
    rw [ht'] at a1
    rw [Option.some.inj a1]
    exact ⟨_, List.getElem?_eq_getElem hlt, a2, a3⟩
  have mates : ∀ a b, LaneMates (SameLane dev) s0' a b ↔ LaneMates (SameLane dev) s0 a b := by
    intro a b
    have lane : ∀ {t u t' u' : TState}, t'.params = postponed S t.params → u'.params = postponed S u.params →
        t'.route = t.route → u'.route = u.route → (SameLane dev t' u' ↔ SameLane dev t u) := by
      intro t u t' u' e1 e2 e3 e4
      unfold SameLane FirstLink
      rw [e1, e2, e3, e4]
      exact Iff.rfl
    constructor
    · rintro ⟨x, y, c1, c2, c3⟩
      obtain ⟨x', d1, d2, d3⟩ := get' _ _ c1
      obtain ⟨y', f1, f2, f3⟩ := get' _ _ c2
      exact ⟨x', y', d1, f1, (lane d2 f2 d3 f3).mp c3⟩
    · rintro ⟨x, y, c1, c2, c3⟩
      obtain ⟨x', d1, d2, d3⟩ := get _ _ c1
      obtain ⟨y', f1, f2, f3⟩ := get _ _ c2
      exact ⟨x', y', d1, f1, (lane d2 f2 d3 f3).mpr c3⟩
  have early : ∀ a b, Earlier s0' a b ↔ Earlier s0 a b := by
    intro a b
    have off : ∀ {t t' : TState}, t'.params = postponed S t.params → t'.params.offset = t.params.offset + S := by
      intro t t' e; rw [e]; rfl
    constructor
    · rintro ⟨x, y, c1, c2, c3⟩
      obtain ⟨x', d1, d2, d3⟩ := get' _ _ c1
      obtain ⟨y', f1, f2, f3⟩ := get' _ _ c2
      refine ⟨x', y', d1, f1, ?_⟩
      rw [off d2, off f2] at c3
      omega
    · rintro ⟨x, y, c1, c2, c3⟩
      obtain ⟨x', d1, d2, d3⟩ := get _ _ c1
      obtain ⟨y', f1, f2, f3⟩ := get _ _ c2
      refine ⟨x', y', d1, f1, ?_⟩
      rw [off d2, off f2]
      omega
  have waits : ∀ i t, s0.ts[i]? = some t → ∀ j d, WaitsFor s0' i j d ↔ WaitsFor s0 i j d := by
    intro i t ht j d
    obtain ⟨t', ht', e1, _⟩ := get i t ht
    by_cases hp : HasParent t.params
    · rw [I'.waits_group ht' (by rw [e1]; exact hp), I.waits_group ht hp, e1, groupMap_later, devAt_later]
      exact Iff.rfl
    · rw [I'.waits_niu hb ht' (by rw [e1]; exact hp), I.waits_niu hb ht hp]
      unfold TwoBefore
      simp only [mates, early]
  refine ⟨hlen, fun i hi => ?_, fun i hi => ?_, fun i hi => ?_, fun i hi j d ha => ?_⟩
  · have ht := List.getElem?_eq_getElem hi
    obtain ⟨t', a1, a2, a3⟩ := get i _ ht
    rw [(hd i _ ht).1, (hd' i t' a1).1, a2]
  · have ht := List.getElem?_eq_getElem hi
    obtain ⟨t', a1, a2, a3⟩ := get i _ ht
    rw [(hd i _ ht).2.1]
    exact (hd' i t' a1).2.1.trans a3
  · have ht := List.getElem?_eq_getElem hi
    obtain ⟨t', a1, a2, a3⟩ := get i _ ht
    have e := (hd i _ ht).2.2
    have e' := (hd' i t' a1).2.2
    have key : ∀ p : Nat × Nat, (job' i).after = some p ↔ (job i).after = some p := by
      intro p
      exact (e' p.1 p.2).trans ((waits i _ ht p.1 p.2).trans (e p.1 p.2).symm)
    cases h1 : (job i).after with
    | none =>
      cases h2 : (job' i).after with
      | none => rfl
      | some p => rw [(key p).mp h2] at h1; cases h1
    | some p => exact (key p).mpr h1
  · have ht := List.getElem?_eq_getElem hi
    obtain ⟨_, _, _, _, h2, _⟩ := ((hd i _ ht).2.2 j d).mp ha
    exact (List.getElem?_eq_some_iff.mp h2).1

/-- The ends of the two runs. -/
theorem Later.ends (L : Later n (q * cpt) job job') (hpos : 0 < cpt) (hn : 0 < n) {speed speed' : Speed}
    (hs : ∀ curr σ σ', cpt ≤ curr → (∀ i, i < n → σ' i = late (q * cpt) (σ i)) → ∀ i, i < n →
      speed' (curr + q * cpt) σ' i = speed curr σ i)
    (hbytes : ∀ i, i < n → 0 < (job i).t.totalBytes) {s : Sim} {c : Nat} {e' : Ending}
    (hlim : c + q * cpt ≤ 50000000)
    (h32 : c + 2 * cpt + q * cpt < 4294967296)
    (hd : ∀ i, i < n → ∀ j d, (job i).after = some (j, d) → c + 2 * cpt + d + q * cpt < 4294967296)
    (h : EndsAs n cpt (run id job cpt speed) (.finished s c)) (h' : EndsAs n cpt (run id job' cpt speed') e') :
    ∃ s', e' = .finished s' (c + q * cpt) ∧ s'.ts.map (fun t => (t.start, t.endc)) =
      s.ts.map (fun t => (t.start + q * cpt, t.endc + q * cpt)) := by
  obtain ⟨l, K, k1, k2, k3, k4⟩ := h
  have e1 : (K + 2) * cpt = c + 2 * cpt := by rw [k2]; ring
  have R := fun k h1 h2 i hi => L.run_eq hpos hs hbytes (K := K) (by rw [e1]; exact h32)
    (fun i hi j d ha => by rw [e1]; exact hd i hi j d ha) k h1 h2 i hi
  have fin : ∀ (i : Nat) (t : TState), s.ts[i]? = some t →
      run id job' cpt speed' (K + q) i = .finished (t.start + q * cpt) (t.endc + q * cpt) := by
    intro i t ht
    rw [R K k1 (le_refl _) i (by rw [← l]; exact (List.getElem?_eq_some_iff.mp ht).1), k3 i t ht]
    rfl
  have all : AllFinished n (run id job' cpt speed' (K + q)) := by
    intro i hi
    exact ⟨_, _, fin i _ (List.getElem?_eq_getElem (by rw [l]; exact hi))⟩
  have e2 : (K + q) * cpt = c + q * cpt := by rw [k2]; ring
  cases e' with
  | limit s' c' =>
    exfalso
    obtain ⟨_, k, m1, m2, m3⟩ := h'
    refine m3 (allFinished_le ?_ all)
    have : (K + q) * cpt < k * cpt := by omega
    exact Nat.le_of_lt (Nat.lt_of_mul_lt_mul_right this)
  | finished s' c' =>
    obtain ⟨l', k, m1, m2, m3, m4⟩ := h'
    have a1 : k ≤ K + q := by
      by_contra hcon
      exact m4 (K + q) (by omega) (by omega) all
    have allk : AllFinished n (run id job' cpt speed' k) := by
      intro i hi
      exact ⟨_, _, m3 i _ (List.getElem?_eq_getElem (by rw [l']; exact hi))⟩
    have a2 : q < k := by
      by_contra hcon
      obtain ⟨x, y, hxy⟩ := allk 0 hn
      rcases L.before hpos (speed' := speed') hbytes k (by omega) 0 hn with hw | ⟨_, _, _, hw⟩ <;>
        rw [hxy] at hw <;> cases hw
    have a3 : k = K + q := by
      by_contra hcon
      refine k4 (k - q) (by omega) (by omega) fun i hi => ?_
      have hr := R (k - q) (by omega) (by omega) i hi
      obtain ⟨x, y, hxy⟩ := allk i hi
      rw [show k - q + q = k by omega, hxy] at hr
      cases hx : run id job cpt speed (k - q) i with
      | waiting => rw [hx] at hr; cases hr
      | active a b => rw [hx] at hr; cases hr
      | finished a b => exact ⟨a, b, rfl⟩
    subst a3
    rw [e2] at m2
    subst m2
    refine ⟨s', rfl, List.ext_getElem? fun i => ?_⟩
    rw [List.getElem?_map, List.getElem?_map]
    by_cases hi : i < n
    · have g1 : s.ts[i]? = some (s.ts[i]'(by rw [l]; exact hi)) := List.getElem?_eq_getElem _
      have g2 : s'.ts[i]? = some (s'.ts[i]'(by rw [l']; exact hi)) := List.getElem?_eq_getElem _
      have f1 := fin i _ g1
      rw [m3 i _ g2] at f1
      obtain ⟨x1, x2⟩ := Prog.finished.inj f1
      rw [g1, g2]
      simp [x1, x2]
    · rw [List.getElem?_eq_none (by rw [l']; omega), List.getElem?_eq_none (by rw [l]; omega)]
      rfl

theorem later_pos {fp : FP} {dev : Device} {ho : HashOrder} {wl : Workload} {s0 : Sim}
    (h0 : initSim fp dev ho wl = .ok s0) (h : wl.transfers ≠ []) : 0 < s0.ts.length := by
  rw [(initSim_ok h0).1.len]
  exact List.length_pos_iff.mpr h

theorem later_bytes {fp : FP} {dev : Device} {ho : HashOrder} {wl : Workload} {s0 : Sim}
    (h0 : initSim fp dev ho wl = .ok s0) (h : ∀ t ∈ wl.transfers, 0 < t.totalBytes) (hd : Describes job s0) :
    ∀ i, i < s0.ts.length → 0 < (job i).t.totalBytes := by
  intro i hi
  have hg := List.getElem?_eq_getElem hi
  rw [(hd i _ hg).1]
  exact h _ ((initSim_ok h0).1.slots i _ hg).1

end
end NPE
