import Verif.Proofs.FluidShift
import Verif.Spec.More

/-
Transfers that wait for nothing: with lower speeds, none of them ends earlier.
-/

namespace NPE
open NPE.Spec NPE.Spec.Fluid

theorem Spec.SameData.more {t u : Transfer} (h : SameData t u) : MoreData t u := by
  unfold SameData at h; rw [← h]
  exact ⟨rfl, rfl, rfl, rfl, rfl, le_rfl⟩

/-- The second one is not ahead of the first one: it began at the same cycle, has moved no more than the first one, which
has `total` bytes, and did not end earlier.  If only the first one is finished, it ended by cycle `b`. -/
def Behind (total b : Nat) : Prog → Prog → Prop
  | .waiting, .waiting => True
  | .active c m, .active c' m' => c' = c ∧ m' ≤ m ∧ m ≤ total
  | .finished c e, .active c' _ => c' = c ∧ e ≤ b
  | .finished c e, .finished c' e' => c' = c ∧ e ≤ e'
  | _, _ => False

section
variable {job job' : Nat → Job} {cpt : Nat}

theorem credit_free {curr i c : Nat} {σ : Fluid.State} (h : (job i).after = none) :
    credit job cpt curr σ i c = min cpt (curr - c) := by
  unfold Fluid.credit; rw [h]

theorem begins_free {curr i : Nat} {σ : Fluid.State} (h : (job i).after = none) (hσ : σ i = .waiting) :
    begins job curr σ i = if (job i).t.offset ≤ curr then some (job i).t.offset else none := by
  unfold Fluid.begins; rw [hσ, h]

theorem start_other {curr i : Nat} {σ : Fluid.State} (hσ : σ i ≠ .waiting) : start job curr σ i = σ i := by
  unfold Fluid.start
  have : begins job curr σ i = none := by
    unfold Fluid.begins
    cases h : σ i with
    | waiting => exact absurd h hσ
    | active c m => rfl
    | finished c e => rfl
  rw [this]

theorem start_behind {total b curr i i' : Nat} {σ σ' : Fluid.State} (ho : (job' i').t.offset = (job i).t.offset)
    (ha : (job i).after = none) (ha' : (job' i').after = none) (h : Behind total b (σ i) (σ' i')) :
    Behind total b (start job curr σ i) (start job' curr σ' i') := by
  cases hσ : σ i with
  | waiting =>
    cases hσ' : σ' i' with
    | waiting =>
      unfold Fluid.start
      rw [begins_free ha hσ, begins_free ha' hσ', ho]
      by_cases hle : (job i).t.offset ≤ curr
      · rw [if_pos hle]
        exact ⟨rfl, le_rfl, Nat.zero_le _⟩
      · rw [if_neg hle, hσ, hσ']
        trivial
    | active c m => rw [hσ, hσ'] at h; exact h.elim
    | finished c e => rw [hσ, hσ'] at h; exact h.elim
  | active c m =>
    rw [start_other (by rw [hσ]; exact Prog.noConfusion)]
    have : σ' i' ≠ .waiting := by intro h'; rw [hσ, h'] at h; exact h
    rw [start_other this]; exact h
  | finished c e =>
    rw [start_other (by rw [hσ]; exact Prog.noConfusion)]
    have : σ' i' ≠ .waiting := by intro h'; rw [hσ, h'] at h; exact h
    rw [start_other this]; exact h

theorem floor_mono {a : Nat} {v v' : ℚ} (h : v' ≤ v) : ((a : ℚ) * v').floor.toNat ≤ ((a : ℚ) * v).floor.toNat := by
  refine Int.toNat_le_toNat ?_
  exact Rat.le_floor_iff.mpr (le_trans (Rat.floor_le _) (mul_le_mul_of_nonneg_left h (Nat.cast_nonneg a)))

/-- More bytes at a lower speed take longer. -/
theorem longer {a b b' : Nat} {v v' : ℚ} (hb : b ≤ b') (hv : v' ≤ v) (hm : b' ≤ ((a : ℚ) * v').floor.toNat) :
    ((b : ℚ) / v).ceil.toNat ≤ ((b' : ℚ) / v').ceil.toNat := by
  by_cases h0 : b' = 0
  · have : b = 0 := by omega
    rw [h0, this]
    simp
  · have hpos : 0 < v' := by
      by_contra hcon
      have h1 : ((a : ℚ) * v') ≤ 0 := mul_nonpos_of_nonneg_of_nonpos (Nat.cast_nonneg a) (not_lt.mp hcon)
      have h2 : ((a : ℚ) * v').floor ≤ 0 := by
        have := Rat.floor_le (a := (a : ℚ) * v')
        by_contra hc
        have h3 : (1 : ℤ) ≤ ((a : ℚ) * v').floor := by omega
        have h4 : (1 : ℚ) ≤ (((a : ℚ) * v').floor : ℚ) := by exact_mod_cast h3
        linarith
      omega
    refine Int.toNat_le_toNat ?_
    have hle : (b : ℚ) / v ≤ (b' : ℚ) / v' := by
      refine div_le_div₀ (Nat.cast_nonneg _) (by exact_mod_cast hb) hpos hv
    have h1 : (b' : ℚ) / v' ≤ (((b' : ℚ) / v').ceil : ℚ) := Rat.le_ceil
    exact Rat.ceil_le_iff.mpr (le_trans hle h1)

theorem advance_behind {speed speed' : Speed} {curr i i' : Nat} {σ σ' : Fluid.State} (hcur : cpt ≤ curr)
    (h32 : curr < 4294967296)
    (hb : (job i).t.totalBytes ≤ (job' i').t.totalBytes) (ha : (job i).after = none) (ha' : (job' i').after = none)
    (hs : ∀ c m, σ' i' = .active c m → ∀ c' m', σ i = .active c' m' → speed' curr σ' i' ≤ speed curr σ i)
    (hst : ∀ c m, σ' i' = .active c m → c ≤ curr)
    (h : Behind (job i).t.totalBytes (curr - cpt) (σ i) (σ' i')) :
    Behind (job i).t.totalBytes curr (advance id job cpt speed curr σ i) (advance id job' cpt speed' curr σ' i') := by
  have idle : ∀ {jb : Nat → Job} {sp : Speed} {τ : Fluid.State} {j c e : Nat}, τ j = .finished c e →
      advance id jb cpt sp curr τ j = .finished c e := by
    intro jb sp τ j c e hτ; unfold Fluid.advance; rw [hτ]
  have idle' : ∀ {jb : Nat → Job} {sp : Speed} {τ : Fluid.State} {j : Nat}, τ j = .waiting →
      advance id jb cpt sp curr τ j = .waiting := by
    intro jb sp τ j hτ; unfold Fluid.advance; rw [hτ]
  cases hσ : σ i with
  | waiting =>
    cases hσ' : σ' i' with
    | waiting => rw [idle' hσ, idle' hσ']; trivial
    | active c m => rw [hσ, hσ'] at h; exact h.elim
    | finished c e => rw [hσ, hσ'] at h; exact h.elim
  | finished c e =>
    cases hσ' : σ' i' with
    | waiting => rw [hσ, hσ'] at h; exact h.elim
    | finished c' e' => rw [idle hσ, idle hσ']; rw [hσ, hσ'] at h; exact h
    | active c' m' =>
      rw [hσ, hσ'] at h
      obtain ⟨h1, h2⟩ := h
      rw [idle hσ, advance_exact hσ', credit_free ha']
      have hc := hst c' m' hσ'
      generalize hB : moves (job' i').t m' (min cpt (curr - c')) (speed' curr σ' i') = B
      have hz := moves_time (t := (job' i').t) (m := m') (cr := min cpt (curr - c')) (v := speed' curr σ' i')
      have hm : B ≤ (job' i').t.totalBytes - m' := by rw [← hB]; exact Nat.min_le_left _ _
      rw [hB] at hz
      generalize ((B : ℚ) / speed' curr σ' i').ceil.toNat = z at *
      split
      · refine ⟨h1, ?_⟩
        rw [Nat.mod_eq_of_lt (by omega)]; omega
      · exact ⟨h1, by omega⟩
  | active c m =>
    cases hσ' : σ' i' with
    | waiting => rw [hσ, hσ'] at h; exact h.elim
    | finished c' e' => rw [hσ, hσ'] at h; exact h.elim
    | active c' m' =>
      have hv := hs c' m' hσ' c m hσ
      have hcc := hst c' m' hσ'
      rw [hσ, hσ'] at h
      obtain ⟨h1, h2, h3⟩ := h
      subst h1
      rw [advance_exact hσ, advance_exact hσ', credit_free ha, credit_free ha']
      have hz := moves_time (t := (job i).t) (m := m) (cr := min cpt (curr - c')) (v := speed curr σ i)
      have hz' := moves_time (t := (job' i').t) (m := m') (cr := min cpt (curr - c')) (v := speed' curr σ' i')
      have hx : ((min cpt (curr - c') : ℕ) * speed' curr σ' i' : ℚ).floor.toNat ≤
        ((min cpt (curr - c') : ℕ) * speed curr σ i : ℚ).floor.toNat := floor_mono hv
      have hlong : moves (job i).t m (min cpt (curr - c')) (speed curr σ i) ≤
          moves (job' i').t m' (min cpt (curr - c')) (speed' curr σ' i') →
          (((moves (job i).t m (min cpt (curr - c')) (speed curr σ i) : ℕ) : ℚ) / speed curr σ i).ceil.toNat ≤
          (((moves (job' i').t m' (min cpt (curr - c')) (speed' curr σ' i') : ℕ) : ℚ) / speed' curr σ' i').ceil.toNat :=
        fun hle => longer hle hv (Nat.min_le_right _ _)
      have e1 : moves (job i).t m (min cpt (curr - c')) (speed curr σ i) = min ((job i).t.totalBytes - m)
        ((min cpt (curr - c') : ℕ) * speed curr σ i : ℚ).floor.toNat := rfl
      have e2 : moves (job' i').t m' (min cpt (curr - c')) (speed' curr σ' i') = min ((job' i').t.totalBytes - m')
        ((min cpt (curr - c') : ℕ) * speed' curr σ' i' : ℚ).floor.toNat := rfl
      generalize ((min cpt (curr - c') : ℕ) * speed curr σ i : ℚ).floor.toNat = X at *
      generalize ((min cpt (curr - c') : ℕ) * speed' curr σ' i' : ℚ).floor.toNat = X' at *
      generalize moves (job i).t m (min cpt (curr - c')) (speed curr σ i) = B at *
      generalize moves (job' i').t m' (min cpt (curr - c')) (speed' curr σ' i') = B' at *
      generalize ((B : ℚ) / speed curr σ i).ceil.toNat = z at *
      generalize ((B' : ℚ) / speed' curr σ' i').ceil.toNat = z' at *
      by_cases f' : m' + B' = (job' i').t.totalBytes
      · have f : m + B = (job i).t.totalBytes := by omega
        rw [if_pos f, if_pos f']
        refine ⟨rfl, ?_⟩
        have := hlong (by omega)
        rw [Nat.mod_eq_of_lt (by omega), Nat.mod_eq_of_lt (by omega)]
        omega
      · rw [if_neg f']
        by_cases f : m + B = (job i).t.totalBytes
        · rw [if_pos f, Nat.mod_eq_of_lt (by omega)]
          exact ⟨rfl, by omega⟩
        · rw [if_neg f]
          exact ⟨rfl, by omega, by omega⟩

variable {n : Nat} {f : Nat → Nat}

/-- The same transfers, which wait for nothing, in a second list, where they may have more bytes. -/
structure Freely (n : Nat) (f : Nat → Nat) (job job' : Nat → Job) : Prop where
  data : ∀ i, i < n → MoreData (job i).t (job' (f i)).t
  route : ∀ i, i < n → (job' (f i)).route = (job i).route
  free : ∀ i, i < n → (job i).after = none
  free' : ∀ i, i < n → (job' (f i)).after = none

/-- The states of the first transfers, not ahead of those of the second list. -/
def AllBehind (n : Nat) (f : Nat → Nat) (job : Nat → Job) (b : Nat) (σ σ' : Fluid.State) : Prop :=
  ∀ i, i < n → Behind (job i).t.totalBytes b (σ i) (σ' (f i))

theorem Freely.run_behind (F : Freely n f job job') {speed speed' : Speed}
    (hs : ∀ curr σ σ', cpt ≤ curr → AllBehind n f job (curr - cpt) σ σ' →
      (∀ i c m, σ i = .active c m → c ≤ curr) → (∀ i c m, σ' i = .active c m → c ≤ curr) → ∀ i, i < n →
      speed' curr σ' (f i) ≤ speed curr σ i) (k : Nat) (hk : k * cpt < 4294967296) :
    AllBehind n f job (k * cpt) (run id job cpt speed k) (run id job' cpt speed' k) := by
  induction k with
  | zero => intro i _; trivial
  | succ k ih =>
    have e : (k + 1) * cpt = k * cpt + cpt := by ring
    have ih := ih (by omega)
    have h1 : AllBehind n f job ((k + 1) * cpt - cpt) (start job ((k + 1) * cpt) (run id job cpt speed k))
        (start job' ((k + 1) * cpt) (run id job' cpt speed' k)) := by
      intro i hi
      rw [show (k + 1) * cpt - cpt = k * cpt by omega]
      exact start_behind (F.data i hi).offset (F.free i hi) (F.free' i hi) (ih i hi)
    have tm : ∀ {jb : Nat → Job} {sp : Speed} (i c m : Nat), start jb ((k + 1) * cpt) (run id jb cpt sp k) i = .active c m →
        c ≤ (k + 1) * cpt := by
      intro jb sp i c m h
      have := start_inTime (job := jb) (curr := (k + 1) * cpt) (i := i)
        ((run_inTime (job := jb) (cpt := cpt) (speed := sp) k i).le (a' := (k + 1) * cpt) (b' := (k + 2) * cpt) (by omega) le_rfl)
      rw [h] at this
      exact this
    intro i hi
    exact advance_behind (by omega) hk (F.data i hi).bytes (F.free i hi) (F.free' i hi)
      (fun _ _ _ _ _ _ => hs _ _ _ (by omega) h1 tm tm i hi) (tm (f i)) (h1 i hi)

/-! ### Speeds -/

theorem own_nonneg {dev : Device} (hT : TableOk .exact dev.tbt) {t : Transfer} (h : 0 ≤ t.injectionRate) :
    0 ≤ own .exact dev t := by
  unfold own
  split
  · rename_i b hb
    exact le_min h (interpolateBW_ok hT hb).1
  · exact le_rfl

theorem load_nonneg {dev : Device} (hT : TableOk .exact dev.tbt) (hinj : ∀ i, i < n → 0 ≤ (job i).t.injectionRate)
    {w : TState → Nat} {curr : Nat} {σ : Fluid.State} (hst : ∀ i c m, σ i = .active c m → c ≤ curr) :
    0 ≤ load dev job n cpt w curr σ := by
  unfold Fluid.load
  refine List.sum_nonneg fun x hx => ?_
  obtain ⟨j, hj, rfl⟩ := List.mem_map.mp hx
  rw [List.mem_range] at hj
  cases hσ : σ j with
  | waiting => exact le_rfl
  | finished c e => exact le_rfl
  | active c m =>
    exact mul_nonneg (Nat.cast_nonneg _) (mul_nonneg (share_nonneg (Nat.sub_le _ _) (hst j c m hσ)) (own_nonneg hT (hinj j hj)))

theorem Freely.load_le (F : Freely n f job job') (hf : Function.Injective f) {n' : Nat} (hn : ∀ i, i < n → f i < n')
    {dev : Device} (hT : TableOk .exact dev.tbt) (hinj : ∀ i, i < n' → 0 ≤ (job' i).t.injectionRate)
    (hown : ∀ i, i < n → own .exact dev (job' (f i)).t = own .exact dev (job i).t) {b curr : Nat} {w : TState → Nat}
    (hw : ∀ t u : TState, MoreData t.params u.params → t.route = u.route → w u = w t)
    {σ σ' : Fluid.State} (h : AllBehind n f job b σ σ') (hst : ∀ i c m, σ' i = .active c m → c ≤ curr) :
    load dev job n cpt w curr σ ≤ load dev job' n' cpt w curr σ' := by
  unfold Fluid.load
  have hnn : ∀ j, j < n' → 0 ≤ (match σ' j with
    | .active c _ => (w ((job' j).began c) : ℚ) *
        (share (curr - cpt) curr ((job' j).began c) * own .exact dev (job' j).t)
    | _ => 0 : ℚ) := by
    intro j hj
    cases hσ : σ' j with
    | waiting => exact le_rfl
    | finished c e => exact le_rfl
    | active c m =>
      exact mul_nonneg (Nat.cast_nonneg _)
        (mul_nonneg (share_nonneg (Nat.sub_le _ _) (hst j c m hσ)) (own_nonneg hT (hinj j hj)))
  rw [← List.sum_toFinset _ List.nodup_range, ← List.sum_toFinset _ List.nodup_range]
  have himg : ((List.range n).toFinset.image f) ⊆ (List.range n').toFinset := by
    intro x hx
    obtain ⟨i, hi, rfl⟩ := Finset.mem_image.mp hx
    rw [List.mem_toFinset, List.mem_range] at hi ⊢
    exact hn i hi
  refine le_trans ?_ (Finset.sum_le_sum_of_subset_of_nonneg himg fun j hj _ =>
    hnn j (List.mem_range.mp (List.mem_toFinset.mp hj)))
  rw [Finset.sum_image (fun a _ b _ e => hf e)]
  refine Finset.sum_le_sum fun i hi => ?_
  rw [List.mem_toFinset, List.mem_range] at hi
  have hi' := hnn (f i) (hn i hi)
  have hB := h i hi
  cases hσ : σ i with
  | waiting => exact hi'
  | finished c e => exact hi'
  | active c m =>
    rw [hσ] at hB
    cases hσ' : σ' (f i) with
    | waiting => rw [hσ'] at hB; exact hB.elim
    | finished c' e' => rw [hσ'] at hB; exact hB.elim
    | active c' m' =>
      rw [hσ'] at hB
      obtain ⟨rfl, _⟩ := hB
      simp only
      rw [hw ((job i).began c') ((job' (f i)).began c') (F.data i hi) (F.route i hi).symm, hown i hi]
      exact le_rfl

theorem served_le {limit limit' x y : ℚ} (hl : 0 ≤ limit) (hle : limit' ≤ limit) (hx : 0 ≤ x) (hxy : x ≤ y) :
    min 1 (served limit' y) ≤ min 1 (served limit x) := by
  unfold served
  by_cases h0 : x = 0
  · rw [if_pos h0, min_self]
    exact min_le_left _ _
  · have hp : 0 < x := lt_of_le_of_ne hx (Ne.symm h0)
    rw [if_neg h0, if_neg (by linarith)]
    exact min_le_min_left _ (le_trans (div_le_div_of_nonneg_right hle (le_trans hx hxy))
      (div_le_div_of_nonneg_left hl hp hxy))

theorem foldl_max_le {α : Type*} {g g' : α → ℚ} : ∀ (l : List α) {a a' : ℚ}, a ≤ a' → (∀ x ∈ l, g x ≤ g' x) →
    (l.map g).foldl max a ≤ (l.map g').foldl max a'
  | [], _, _, h, _ => h
  | x :: l, _, _, h, hl => foldl_max_le l (max_le_max h (hl x (by simp))) fun y hy => hl y (by simp [hy])

theorem foldl_max_nonneg {l : List ℚ} {a : ℚ} (h : 0 ≤ a) : 0 ≤ l.foldl max a := by
  induction l generalizing a with
  | nil => exact h
  | cons x l ih => exact ih (le_trans h (le_max_left _ _))

theorem min_one3 {a b c a' b' c' : ℚ} (ha : min 1 a ≤ min 1 a') (hb : min 1 b ≤ min 1 b') (hc : min 1 c ≤ min 1 c') :
    min 1 (min a (min b c)) ≤ min 1 (min a' (min b' c')) := by
  have e : ∀ x y z : ℚ, min 1 (min x (min y z)) = min (min 1 x) (min (min 1 y) (min 1 z)) := by
    intro x y z
    rw [min_min_min_comm 1 y 1 z, min_self, min_min_min_comm 1 x 1, min_self]
  rw [e, e]
  exact min_le_min ha (min_le_min hb hc)

/-- More load and less bandwidth, lower speeds. -/
theorem Freely.shared_le (F : Freely n f job job') (hf : Function.Injective f) {n' : Nat} (hn : ∀ i, i < n → f i < n')
    {dev : Device} (hT : TableOk .exact dev.tbt) (hC : Capacities dev) {link : ℚ} {sink : CoreType → ℚ}
    (hlink : link ≤ dev.linkBw) (hsink : ∀ c, sink c ≤ dev.absRate c)
    (hinj : ∀ i, i < n → 0 ≤ (job i).t.injectionRate) (hinj' : ∀ i, i < n' → 0 ≤ (job' i).t.injectionRate)
    (hown : ∀ i, i < n → own .exact dev (job' (f i)).t = own .exact dev (job i).t)
    {b curr : Nat} {σ σ' : Fluid.State} (h : AllBehind n f job b σ σ')
    (hst : ∀ i c m, σ i = .active c m → c ≤ curr) (hst' : ∀ i c m, σ' i = .active c m → c ≤ curr) {i : Nat} (hi : i < n) :
    shared (withRates dev link sink) job' n' cpt curr σ' (f i) ≤ shared dev job n cpt curr σ i := by
  have hl : ∀ l ∈ (job i).route, load dev job n cpt (fun u => u.route.count l) curr σ ≤
      load dev job' n' cpt (fun u => u.route.count l) curr σ' := fun l _ =>
    F.load_le hf hn hT hinj' hown (fun t u _ e => by simp only [e]) h hst'
  have hs : load dev job n cpt (leaves dev (job i).t.noc (job i).t.src) curr σ ≤
      load dev job' n' cpt (leaves dev (job i).t.noc (job i).t.src) curr σ' :=
    F.load_le hf hn hT hinj' hown (fun t u e _ => by unfold leaves; rw [e.noc, e.src]) h hst'
  have hk : ∀ d, load dev job n cpt (reaches dev (job i).t.noc d) curr σ ≤
      load dev job' n' cpt (reaches dev (job i).t.noc d) curr σ' := fun d =>
    F.load_le hf hn hT hinj' hown (fun t u e _ => by unfold reaches; rw [e.noc, e.dst]) h hst'
  have hd := F.data i hi
  have e1 : (job' (f i)).t.noc = (job i).t.noc := hd.noc
  have e2 : (job' (f i)).t.src = (job i).t.src := hd.src
  have e3 : (job' (f i)).t.dst = (job i).t.dst := hd.dst
  have e4 : (job' (f i)).t.injectionRate = (job i).t.injectionRate := hd.injectionRate
  have eo : own .exact (withRates dev link sink) (job' (f i)).t = own .exact dev (job i).t := hown i hi
  unfold Fluid.shared
  simp only
  rw [eo, F.route i hi, e1, e2, e3, e4]
  refine mul_le_mul_of_nonneg_left (min_one3 ?_ ?_ ?_) (own_nonneg hT (hinj i hi))
  · exact served_le hC.1 hlink (foldl_max_nonneg le_rfl) (foldl_max_le _ le_rfl hl)
  · exact served_le (hinj i hi) le_rfl (load_nonneg hT hinj hst) hs
  · cases hdst : (job i).t.dst with
    | mcast gs => exact le_rfl
    | unicast d =>
      simp only
      unfold Device.getSinkAbsorptionRate
      show min 1 (match (dev.getCoreType d >>= fun ct => pure (sink ct) : Out ℚ) with
        | .ok a => served a (load dev job' n' cpt (reaches dev (job i).t.noc d) curr σ')
        | _ => 1) ≤ _
      cases dev.getCoreType d with
      | ok ct => exact served_le (hC.2.2 ct) (hsink ct) (load_nonneg hT hinj hst) (hk d)
      | _ => exact le_rfl

theorem shared_le_alone {dev : Device} (hT : TableOk .exact dev.tbt) {curr i : Nat} {σ σ' : Fluid.State}
    (hinj : 0 ≤ (job i).t.injectionRate) :
    shared dev job n cpt curr σ' i ≤ alone .exact dev job curr σ i := by
  unfold Fluid.shared Fluid.alone
  exact mul_le_of_le_one_right (own_nonneg hT hinj) (min_le_left _ _)

/-! ### Routes do not depend on bandwidths -/

theorem unicastLoop_rates (dev : Device) (b : ℚ) (a : CoreType → ℚ) (noc : Noc) (er ec : Int) (fuel : Nat) (r c : Int) :
    (withRates dev b a).unicastLoop noc er ec fuel r c = dev.unicastLoop noc er ec fuel r c := by
  induction fuel generalizing r c with
  | zero => rfl
  | succ fuel ih =>
    unfold Device.unicastLoop
    simp only [ih]
    rfl

theorem unicastRoute_rates (dev : Device) (b : ℚ) (a : CoreType → ℚ) (noc : Noc) (s e : Coord) :
    (withRates dev b a).unicastRoute noc s e = dev.unicastRoute noc s e := unicastLoop_rates ..

theorem routeSingle_rates (dev : Device) (b : ℚ) (a : CoreType → ℚ) (ord : List Int → List Int) (noc : Noc) (s : Coord) (d : Dest) :
    (withRates dev b a).routeSingle ord noc s d = dev.routeSingle ord noc s d := by
  unfold Device.routeSingle Device.multicastRoute
  simp only [unicastRoute_rates]

theorem route_rates (dev : Device) (b : ℚ) (a : CoreType → ℚ) (ord : List Int → List Int) (noc : Noc) (s : Coord) (d : Dest) :
    (withRates dev b a).route ord noc s d = dev.route ord noc s d := by
  unfold Device.route
  rw [routeSingle_rates]
  have : (withRates dev b a).base.routeSingle ord noc s d = dev.base.routeSingle ord noc s d :=
    routeSingle_rates dev.base b a ord noc s d
  rw [this]
  rfl

theorem initTransferState_rates (dev : Device) (b : ℚ) (a : CoreType → ℚ) (ord : List Int → List Int) (wl : Workload) :
    initTransferState (withRates dev b a) ord wl = initTransferState dev ord wl := by
  unfold initTransferState
  have : initOne (withRates dev b a) ord = initOne dev ord := by
    funext n s t
    unfold initOne
    rw [route_rates]
  rw [this]

theorem initSim_rates (fp : FP) (dev : Device) (b : ℚ) (a : CoreType → ℚ) (ho : HashOrder) (wl : Workload) :
    initSim fp (withRates dev b a) ho wl = initSim fp dev ho wl := by
  unfold initSim
  rw [initTransferState_rates]
  rfl

/-! ### Ends -/

theorem behind_times {n' : Nat} (hf : ∀ i, i < n → f i < n') {total : Nat → Nat} {b : Nat → Nat} {speed speed' : Speed}
    (hA : ∀ k, k * cpt < 4294967296 → ∀ i, i < n →
      Behind (total i) (b k) (run id job cpt speed k i) (run id job' cpt speed' k (f i)))
    (hcpt : cpt < 4244967296)
    {e : Ending} {s' : Sim} {c' : Nat} (h : EndsAs n cpt (run id job cpt speed) e)
    (h' : EndsAs n' cpt (run id job' cpt speed') (.finished s' c')) (hc' : c' ≤ 50000000 + cpt) :
    ∃ s c, e = .finished s c ∧ c ≤ c' ∧ ∀ (i : Nat) (t : TState), s.ts[i]? = some t →
      ∃ t', s'.ts[f i]? = some t' ∧ t'.start = t.start ∧ t.endc ≤ t'.endc := by
  obtain ⟨l', k', a1, a2, a3, _⟩ := h'
  have get : ∀ i, i < n → ∃ t' e, s'.ts[f i]? = some t' ∧ run id job cpt speed k' i = .finished t'.start e ∧ e ≤ t'.endc := by
    intro i hi
    have hlt : f i < s'.ts.length := by rw [l']; exact hf i hi
    have h1 := a3 _ _ (List.getElem?_eq_getElem hlt)
    have h2 := hA k' (by omega) i hi
    rw [h1] at h2
    cases h3 : run id job cpt speed k' i with
    | waiting => rw [h3] at h2; exact h2.elim
    | active c m => rw [h3] at h2; exact h2.elim
    | finished c e =>
      rw [h3] at h2
      exact ⟨_, e, List.getElem?_eq_getElem hlt, by rw [h2.1], h2.2⟩
  have all : AllFinished n (run id job cpt speed k') := by
    intro i hi
    obtain ⟨t', e, _, h2, _⟩ := get i hi
    exact ⟨_, _, h2⟩
  cases e with
  | limit s c =>
    obtain ⟨_, k, b1, b2, b3⟩ := h
    exfalso
    refine b3 (allFinished_le ?_ all)
    have h1 : k' * cpt < (k + 1) * cpt := by
      have : (k + 1) * cpt = k * cpt + cpt := by ring
      omega
    have := Nat.lt_of_mul_lt_mul_right h1
    omega
  | finished s c =>
    obtain ⟨l, k, b1, b2, b3, b4⟩ := h
    have hk : k ≤ k' := by
      by_contra hcon
      exact b4 k' a1 (by omega) all
    refine ⟨s, c, rfl, by rw [b2, a2]; exact Nat.mul_le_mul_right _ hk, fun i t ht => ?_⟩
    obtain ⟨t', e, h1, h2, h4⟩ := get i (by rw [← l]; exact (List.getElem?_eq_some_iff.mp ht).1)
    have h3 := run_finished_le hk (b3 i t ht)
    rw [h2] at h3
    obtain ⟨x1, x2⟩ := Prog.finished.inj h3
    exact ⟨t', h1, x1, x2 ▸ h4⟩

end
end NPE
