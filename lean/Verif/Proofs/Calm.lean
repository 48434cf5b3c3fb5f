import Verif.Spec.Calm
import Verif.Proofs.FluidEmbed
import Verif.Proofs.FluidDeadline
import Verif.Proofs.FluidRounded
import Verif.Proofs.Bottleneck
import Verif.Proofs.DemandError

/-
Without overload, congestion changes nothing.
-/

namespace NPE
open NPE.Spec NPE.Spec.Fluid

section
variable {fp : FP} {dev : Device} {job : Nat → Job} {n cpt : Nat}

/-! ### Speeds -/

theorem one_le_servedIn {limit x : ℚ} (h0 : 0 ≤ x) (h : x ≤ limit) : 1 ≤ servedIn fp limit x := by
  unfold servedIn
  by_cases hx : x = 0
  · rw [if_pos hx]
  · rw [if_neg hx]
    have hp : 0 < x := lt_of_le_of_ne h0 (Ne.symm hx)
    exact fp.f32.le_fl_of_rep fp.f32.rep_one ((one_le_div hp).mpr h)

/-- A transfer keeps its bandwidth if no point that it passes is asked for too much. -/
theorem sharedIn_kept {order : Nat → List Nat} {curr i c : Nat} {σ : Fluid.State}
    (hN : ∀ w, 0 ≤ loadIn fp dev job cpt (order curr) w curr σ)
    (h : ∀ cap w, Passes dev ((job i).began c) cap w → loadIn fp dev job cpt (order curr) w curr σ ≤ cap) :
    sharedIn fp dev job cpt order curr σ i = own fp dev (job i).t := by
  unfold Fluid.sharedIn
  simp only
  rw [if_neg]
  refine not_lt.mpr (le_min ?_ (le_min ?_ ?_))
  · rcases foldl_max_mem ((job i).route.map fun l => loadIn fp dev job cpt (order curr) (fun u => u.route.count l) curr σ) 0 with
      e | e
    · rw [e]
      unfold servedIn
      rw [if_pos rfl]
    · obtain ⟨l, hl, e⟩ := List.mem_map.mp e
      rw [← e]
      exact one_le_servedIn (hN _) (h _ _ (.link l hl))
  · exact one_le_servedIn (hN _) (h _ _ .source)
  · cases hdst : (job i).t.dst with
    | mcast gs => exact le_rfl
    | unicast d =>
      simp only
      cases ha : dev.getSinkAbsorptionRate d with
      | ok a => exact one_le_servedIn (hN _) (h _ _ (.sink d a hdst ha))
      | _ => exact le_rfl

/-! ### Sums of demands -/

theorem sum_listed {f : Nat → ℚ} {l : List Nat} (hl : l.Nodup) (hm : ∀ i ∈ l, i < n) (hz : ∀ i, i < n → i ∉ l → f i = 0) :
    (l.map f).sum = ((List.range n).map f).sum := by
  rw [← List.sum_toFinset _ hl, ← List.sum_toFinset _ List.nodup_range]
  refine Finset.sum_subset (fun i hi => ?_) fun i hi hni => ?_
  · rw [List.mem_toFinset] at hi ⊢
    exact List.mem_range.mpr (hm i hi)
  · rw [List.mem_toFinset] at hi hni
    exact hz i (List.mem_range.mp hi) hni

theorem sum_listed_nat {f : Nat → Nat} {l : List Nat} (hl : l.Nodup) (hm : ∀ i ∈ l, i < n) (hz : ∀ i, i < n → i ∉ l → f i = 0) :
    (l.map f).sum = ((List.range n).map f).sum := by
  rw [← List.sum_toFinset _ hl, ← List.sum_toFinset _ List.nodup_range]
  refine Finset.sum_subset (fun i hi => ?_) fun i hi hni => ?_
  · rw [List.mem_toFinset] at hi ⊢
    exact List.mem_range.mpr (hm i hi)
  · rw [List.mem_toFinset] at hi hni
    exact hz i (List.mem_range.mp hi) hni

/-- The transfers with their bandwidths, as the congestion model finds them. -/
def posed (fp : FP) (dev : Device) (job : Nat → Job) (σ : Fluid.State) (j : Nat) : TState :=
  match σ j with
  | .active c _ => { (job j).began c with bw := own fp dev (job j).t }
  | _ => (job j).began 0

theorem posed_get (σ : Fluid.State) {j : Nat} (hj : j < n) :
    ((List.range n).map (posed fp dev job σ))[j]? = some (posed fp dev job σ j) := by
  rw [List.getElem?_map, List.getElem?_range hj, Option.map_some]

/-- The rounded sum of demands is near the sum. -/
theorem loadIn_close
    (hown : ∀ i, i < n → 0 ≤ own fp dev (job i).t) {l : List Nat} (hl : l.Nodup) {curr : Nat} {σ : Fluid.State}
    (hm : ∀ i, i ∈ l ↔ i < n ∧ ∃ c m, σ i = .active c m) (hc : ∀ i, i < n → ∀ c m, σ i = .active c m → c ≤ curr)
    (hpos : 0 < cpt) (hcpt : cpt ≤ curr) (hcurr : curr < 4294967296) {w : TState → Nat}
    (hw : ∀ t u : TState, t.params = u.params → t.route = u.route → w t = w u) (hn : askers job n w σ ≤ 65536) :
    |loadIn fp dev job cpt l w curr σ - asked fp dev job n cpt w curr σ| ≤ asked fp dev job n cpt w curr σ / 128 := by
  have hact : ∀ i ∈ l, ∃ c m, σ i = .active c m ∧ i < n ∧ c ≤ curr ∧
      posed fp dev job σ i = { (job i).began c with bw := own fp dev (job i).t } := by
    intro i hi
    obtain ⟨h1, c, m, h2⟩ := (hm i).mp hi
    refine ⟨c, m, h2, h1, hc i h1 c m h2, ?_⟩
    unfold posed
    rw [h2]
  have eload : loadIn fp dev job cpt l w curr σ = accum fp (contrib (fun t => List.replicate (w t) (effectiveDemand fp (curr - cpt) curr t))
      ((List.range n).map (posed fp dev job σ)) l) 0 := by
    unfold accum loadIn
    rw [contrib_listed (f := fun j => List.replicate (w ((job j).began 0)) (demand fp dev job cpt curr σ j))]
    intro j hj
    obtain ⟨c, m, h1, h2, h3, h4⟩ := hact j hj
    refine ⟨_, posed_get σ h2, ?_⟩
    rw [h4, hw { (job j).began c with bw := own fp dev (job j).t } ((job j).began 0) rfl rfl]
    congr 1
    unfold effectiveDemand demand
    rw [h1]
    simp only
    have : ((curr : ℚ) - ((curr - cpt : ℕ) : ℚ)) = cpt := by rw [Nat.cast_sub hcpt]; ring
    rw [this]
    show _ = _
    have e : ((job j).began c).start = c := rfl
    rw [e, toU32_sub (by omega) hcurr]
  have easked : offered w (curr - cpt) curr ((List.range n).map (posed fp dev job σ)) l = asked fp dev job n cpt w curr σ := by
    unfold offered asked
    rw [← sum_listed hl (fun i hi => ((hm i).mp hi).1)]
    · refine congrArg List.sum (List.map_congr_left fun j hj => ?_)
      obtain ⟨c, m, h1, h2, h3, h4⟩ := hact j hj
      rw [posed_get σ h2, h1, h4]
      simp only
      rw [hw { (job j).began c with bw := own fp dev (job j).t } ((job j).began c) rfl rfl]
      rfl
    · intro i hi hni
      cases hσ : σ i with
      | active c m => exact absurd ((hm i).mpr ⟨hi, c, m, hσ⟩) hni
      | _ => rfl
  have euses : uses w ((List.range n).map (posed fp dev job σ)) l = askers job n w σ := by
    unfold uses askers
    rw [← sum_listed_nat hl (fun i hi => ((hm i).mp hi).1)]
    · refine congrArg List.sum (List.map_congr_left fun j hj => ?_)
      obtain ⟨c, m, h1, h2, h3, h4⟩ := hact j hj
      rw [posed_get σ h2, h1, h4]
      simp only
      rw [hw { (job j).began c with bw := own fp dev (job j).t } ((job j).began c) rfl rfl]
    · intro i hi hni
      cases hσ : σ i with
      | active c m => exact absurd ((hm i).mpr ⟨hi, c, m, hσ⟩) hni
      | _ => rfl
  rw [eload, ← easked]
  refine entry_close (by omega) hcurr (fun i hi => ?_) (by rw [euses]; exact hn)
  obtain ⟨c, m, h1, h2, h3, h4⟩ := hact i hi
  refine ⟨_, posed_get σ h2, ?_⟩
  rw [h4]
  exact ⟨h3, hown i h2, rfl⟩

/-- In exact arithmetic both are the same. -/
theorem loadIn_asked {l : List Nat} (hl : l.Nodup) {curr : Nat} {σ : Fluid.State}
    (hm : ∀ i, i ∈ l ↔ i < n ∧ ∃ c m, σ i = .active c m) (hc : ∀ i, i < n → ∀ c m, σ i = .active c m → c ≤ curr)
    (hcpt : cpt ≤ curr) {w : TState → Nat}
    (hw : ∀ t u : TState, t.params = u.params → t.route = u.route → w t = w u) :
    loadIn .exact dev job cpt l w curr σ = asked .exact dev job n cpt w curr σ := by
  have e1 : loadIn .exact dev job cpt l w curr σ =
      (l.map fun j => (w ((job j).began 0) : ℚ) * demand .exact dev job cpt curr σ j).sum := by
    unfold loadIn
    have key : ∀ (l : List Nat) (a : ℚ), (l.flatMap fun j => List.replicate (w ((job j).began 0)) (demand .exact dev job cpt curr σ j)).foldl
        (fun y x => FP.exact.f32.fl (y + x)) a = a + (l.map fun j => (w ((job j).began 0) : ℚ) * demand .exact dev job cpt curr σ j).sum := by
      intro l
      have rep : ∀ (k : Nat) (x a : ℚ), (List.replicate k x).foldl (fun y x => FP.exact.f32.fl (y + x)) a = a + k * x := by
        intro k x
        induction k with
        | zero => intro a; simp
        | succ k ih =>
          intro a
          rw [List.replicate_succ, List.foldl_cons, ih]
          show a + x + _ = _
          push_cast
          ring
      induction l with
      | nil => intro a; simp
      | cons j l ih =>
        intro a
        rw [List.flatMap_cons, List.foldl_append, rep, ih, List.map_cons, List.sum_cons]
        ring
    rw [key, zero_add]
  rw [e1]
  unfold asked
  rw [← sum_listed hl (fun i hi => ((hm i).mp hi).1)]
  · refine congrArg List.sum (List.map_congr_left fun j hj => ?_)
    obtain ⟨h1, c, m, h2⟩ := (hm j).mp hj
    have h3 := hc j h1 c m h2
    unfold demand share
    rw [h2]
    simp only
    rw [hw ((job j).began c) ((job j).began 0) rfl rfl]
    show _ * ((((curr - max (curr - cpt) c : ℕ) : ℚ) / (cpt : ℚ)) * _) = _
    have e : ((job j).began c).start = c := rfl
    rw [e, Nat.cast_sub (by omega), Nat.cast_sub hcpt, sub_sub_cancel]
  · intro i hi hni
    cases hσ : σ i with
    | active c m => exact absurd ((hm i).mpr ⟨hi, c, m, hσ⟩) hni
    | _ => rfl

/-! ### Runs -/

/-- Transfers are active only after their start. -/
theorem active_le {fl : ℚ → ℚ} {speed : Speed} (k i : Nat) : ∀ c m, start job ((k + 1) * cpt) (run fl job cpt speed k) i = .active c m →
    c ≤ (k + 1) * cpt := by
  have key : ∀ (curr : Nat) (σ : Fluid.State) (i : Nat), (∀ c m, σ i = .active c m → c ≤ curr) →
      ∀ c m, start job curr σ i = .active c m → c ≤ curr := by
    intro curr σ i h c m hs
    unfold Fluid.start at hs
    cases hb : begins job curr σ i with
    | none => rw [hb] at hs; exact h c m hs
    | some b =>
      rw [hb] at hs
      obtain ⟨rfl, _⟩ := Prog.active.inj hs
      unfold Fluid.begins at hb
      split at hb
      · split at hb
        · rename_i ho
          split at hb
          · rw [← Option.some.inj hb]; exact ho
          · split at hb
            · split at hb
              · rename_i hd
                rw [← Option.some.inj hb]
                exact max_le ho hd
              · cases hb
            · cases hb
        · cases hb
      · cases hb
  induction k with
  | zero => exact key _ _ i (fun c m h => by cases h)
  | succ k ih =>
    refine key _ _ i fun c m h => ?_
    change advance fl job cpt speed ((k + 1) * cpt) (Fluid.start job ((k + 1) * cpt) (run fl job cpt speed k)) i = _ at h
    have : (k + 1) * cpt ≤ (k + 1 + 1) * cpt := Nat.mul_le_mul_right _ (by omega)
    unfold Fluid.advance at h
    cases ha : Fluid.start job ((k + 1) * cpt) (run fl job cpt speed k) i with
    | waiting => rw [ha] at h; cases h
    | finished c' e' => rw [ha] at h; cases h
    | active c' m' =>
      rw [ha] at h
      simp only at h
      split at h
      · cases h
      · obtain ⟨rfl, _⟩ := Prog.active.inj h
        exact le_trans (ih _ _ ha) this

/-- Two speeds that agree for the active transfers of every timestep give the same states. -/
theorem run_congr {fl : ℚ → ℚ} {speed speed' : Speed} (hcl : ∀ i, i < n → ∀ j d, (job i).after = some (j, d) → j < n) (K : Nat)
    (hs : ∀ k, k < K → Agree n id (start job ((k + 1) * cpt) (run fl job cpt speed k)) (start job ((k + 1) * cpt) (run fl job cpt speed' k)) →
      ∀ i, i < n → ∀ c m, start job ((k + 1) * cpt) (run fl job cpt speed k) i = .active c m →
        speed' ((k + 1) * cpt) (start job ((k + 1) * cpt) (run fl job cpt speed' k)) i =
          speed ((k + 1) * cpt) (start job ((k + 1) * cpt) (run fl job cpt speed k)) i) :
    ∀ k, k ≤ K → Agree n id (run fl job cpt speed k) (run fl job cpt speed' k) := by
  have F : Frame n id job job := ⟨fun _ _ => rfl, fun _ _ => rfl, fun i _ => by show (job i).after = _; cases (job i).after <;> rfl, hcl⟩
  intro k
  induction k with
  | zero => intro _ i _; rfl
  | succ k ih =>
    intro hk i hi
    have hA := F.start_eq (ih (by omega)) ((k + 1) * cpt)
    have h1 := hA i hi
    change advance fl job cpt speed' ((k + 1) * cpt) _ i = advance fl job cpt speed ((k + 1) * cpt) _ i
    unfold Fluid.advance
    simp only [id] at h1
    rw [h1]
    cases hσ : start job ((k + 1) * cpt) (run fl job cpt speed k) i with
    | waiting => rfl
    | finished c e => rfl
    | active c m =>
      simp only
      have h2 := F.credit_eq hA (cpt := cpt) (curr := (k + 1) * cpt) (c := c) hi
      simp only [id] at h2
      rw [h2, hs k (by omega) hA i hi c m hσ]

/-- The clock at the end of a run. -/
def endClock : Ending → Nat
  | .finished _ c => c
  | .limit _ c => c

/-- Two runs of the same transfers whose states agree until the end of the second one. -/
theorem same_end {fl : ℚ → ℚ} {speed speed' : Speed} {s : Sim} {c : Nat} {e' : Ending}
    (h : EndsAs n cpt (run fl job cpt speed) (.finished s c)) (hc : c ≤ 50000000 + cpt)
    (h' : EndsAs n cpt (run fl job cpt speed') e')
    (hA : ∀ k, k * cpt ≤ endClock e' →
      Agree n id (run fl job cpt speed k) (run fl job cpt speed' k)) :
    ∃ s', e' = .finished s' c ∧ s'.ts.map (fun t => (t.start, t.endc)) = s.ts.map (fun t => (t.start, t.endc)) := by
  obtain ⟨l, k, b1, b2, b3, b4⟩ := h
  have hall : AllFinished n (run fl job cpt speed k) := fun i hi =>
    ⟨_, _, b3 i _ (List.getElem?_eq_getElem (by rw [l]; exact hi))⟩
  cases e' with
  | limit s' c' =>
    exfalso
    obtain ⟨_, k', a2, a3, a4⟩ := h'
    have hk : k ≤ k' := by
      by_contra hcon
      have : (k' + 1) * cpt ≤ k * cpt := Nat.mul_le_mul_right _ (by omega)
      have e : (k' + 1) * cpt = k' * cpt + cpt := by ring
      omega
    refine a4 fun i hi => ?_
    obtain ⟨x, y, hxy⟩ := allFinished_le hk hall i hi
    exact ⟨x, y, by rw [← hxy]; exact hA k' (by unfold endClock; simp only; omega) i hi⟩
  | finished s' c' =>
    obtain ⟨l', k', a1, a2, a3, a4⟩ := h'
    have hall' : AllFinished n (run fl job cpt speed k') := fun i hi =>
      ⟨_, _, by rw [← hA k' (by unfold endClock; simp only; omega) i hi]; exact a3 i _ (List.getElem?_eq_getElem (by rw [l']; exact hi))⟩
    have h1 : k ≤ k' := by
      by_contra hcon
      exact b4 k' a1 (by omega) hall'
    have hkc : k * cpt ≤ c' := by rw [a2]; exact Nat.mul_le_mul_right _ h1
    have h2 : k' ≤ k := by
      by_contra hcon
      refine a4 k b1 (by omega) fun i hi => ?_
      obtain ⟨x, y, hxy⟩ := hall i hi
      exact ⟨x, y, by rw [← hxy]; exact hA k hkc i hi⟩
    have hk : k' = k := by omega
    subst hk
    refine ⟨s', by rw [a2, b2], List.ext_getElem? fun i => ?_⟩
    rw [List.getElem?_map, List.getElem?_map]
    by_cases hi : i < n
    · have g : s.ts[i]? = some (s.ts[i]'(by rw [l]; exact hi)) := List.getElem?_eq_getElem _
      have g' : s'.ts[i]? = some (s'.ts[i]'(by rw [l']; exact hi)) := List.getElem?_eq_getElem _
      have e1 := b3 i _ g
      have e2 := a3 i _ g'
      have e3 := hA k' (by unfold endClock; simp only; omega) i hi
      simp only [id] at e3
      rw [e1, e2] at e3
      obtain ⟨e4, e5⟩ := Prog.finished.inj e3
      rw [g, g', Option.map_some, Option.map_some, e4, e5]
    · rw [List.getElem?_eq_none (by omega), List.getElem?_eq_none (by omega)]

end

end NPE
