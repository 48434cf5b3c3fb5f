import Verif.Proofs.FluidCrowd
import Verif.Proofs.FluidEmbed

/-
Transfers that wait for nothing, with rounding: transfers that share nothing with them do not change their speeds.
-/

namespace NPE
open NPE.Spec NPE.Spec.Fluid

section
variable {fp : FP} {dev : Device} {job job' : Nat → Job} {cpt n n' : Nat} {f : Nat → Nat}

theorem Frame.run_eq_of (F : Frame n f job job') {fl : ℚ → ℚ} {speed speed' : Speed}
    (hs : ∀ k, Agree n f (Fluid.start job ((k + 1) * cpt) (run fl job cpt speed k))
        (Fluid.start job' ((k + 1) * cpt) (run fl job' cpt speed' k)) →
      ∀ i, i < n → speed' ((k + 1) * cpt) (Fluid.start job' ((k + 1) * cpt) (run fl job' cpt speed' k)) (f i) =
        speed ((k + 1) * cpt) (Fluid.start job ((k + 1) * cpt) (run fl job cpt speed k)) i) (k : Nat) :
    Agree n f (run fl job cpt speed k) (run fl job' cpt speed' k) := by
  induction k with
  | zero => intro i _; rfl
  | succ k ih =>
    have hA := F.start_eq ih ((k + 1) * cpt)
    have hk := hs k hA
    intro i hi
    change advance fl job' cpt speed' ((k + 1) * cpt) (Fluid.start job' ((k + 1) * cpt) (run fl job' cpt speed' k)) (f i) =
      advance fl job cpt speed ((k + 1) * cpt) (Fluid.start job ((k + 1) * cpt) (run fl job cpt speed k)) i
    generalize Fluid.start job ((k + 1) * cpt) (run fl job cpt speed k) = σ at *
    generalize Fluid.start job' ((k + 1) * cpt) (run fl job' cpt speed' k) = σ' at *
    unfold Fluid.advance
    rw [hA i hi]
    cases hσ : σ i with
    | waiting => rfl
    | finished c e => rfl
    | active c m =>
      simp only
      rw [F.credit_eq hA hi, hk i hi, (F.data i hi).bytes]

/-- Demands on a resource that only the smaller workload uses. -/
theorem Frame.loadIn_part (F : Frame n f job job') {σ σ' : Fluid.State} (h : Agree n f σ σ') {curr : Nat}
    {order order' : List Nat} (ho : ∀ i ∈ order, i < n) (ho' : ∀ i ∈ order', i < n')
    (hpart : order.map f = order'.filter fun j => decide (j ∈ order.map f))
    (hrest : ∀ j ∈ order', j ∉ order.map f → ∀ i, i < n → f i ≠ j)
    {w : TState → Nat} (hw : ∀ t u : TState, SameData t.params u.params → t.route = u.route → w u = w t)
    (hz : ∀ i', i' < n' → (∀ i, i < n → f i ≠ i') → w ((job' i').began 0) = 0) :
    loadIn fp dev job' cpt order' w curr σ' = loadIn fp dev job cpt order w curr σ := by
  unfold loadIn
  have e : (order.flatMap fun j => List.replicate (w ((job j).began 0)) (demand fp dev job cpt curr σ j)) =
      (order.map f).flatMap fun j => List.replicate (w ((job' j).began 0)) (demand fp dev job' cpt curr σ' j) := by
    rw [List.flatMap_map, List.flatMap_def, List.flatMap_def]
    congr 1
    refine List.map_congr_left fun i hi => ?_
    have hlt := ho i hi
    rw [hw ((job i).began 0) ((job' (f i)).began 0) (F.data i hlt) (F.route i hlt).symm]
    unfold demand
    rw [h i hlt, own_same fp dev (F.data i hlt)]
  have drop : ∀ (l : List Nat) (P : Nat → Bool), (∀ j ∈ l, P j = false → w ((job' j).began 0) = 0) →
      (l.flatMap fun j => List.replicate (w ((job' j).began 0)) (demand fp dev job' cpt curr σ' j)) =
      ((l.filter P).flatMap fun j => List.replicate (w ((job' j).began 0)) (demand fp dev job' cpt curr σ' j)) := by
    intro l P hP
    induction l with
    | nil => rfl
    | cons a l ih =>
      have ih := ih fun j hj => hP j (by simp [hj])
      by_cases ha : P a = true
      · rw [List.filter_cons_of_pos ha, List.flatMap_cons, List.flatMap_cons, ih]
      · rw [List.filter_cons_of_neg ha, List.flatMap_cons, hP a (by simp) (by simpa using ha), List.replicate_zero,
          List.nil_append, ih]
  rw [e]
  congr 1
  rw [drop order' (fun j => decide (j ∈ order.map f)), ← hpart]
  intro j hj hn
  exact hz j (ho' j hj) (hrest j hj (of_decide_eq_false hn))

theorem Frame.sharedIn_part (F : Frame n f job job') (P : Private dev n n' f job job') {σ σ' : Fluid.State}
    (h : Agree n f σ σ') {curr : Nat} {order order' : Nat → List Nat} (ho : ∀ i ∈ order curr, i < n)
    (ho' : ∀ i ∈ order' curr, i < n')
    (hpart : (order curr).map f = (order' curr).filter fun j => decide (j ∈ (order curr).map f))
    (hrest : ∀ j ∈ order' curr, j ∉ (order curr).map f → ∀ i, i < n → f i ≠ j) {i : Nat} (hi : i < n) :
    sharedIn fp dev job' cpt order' curr σ' (f i) = sharedIn fp dev job cpt order curr σ i := by
  have hL : ∀ {w : TState → Nat}, (∀ t u : TState, SameData t.params u.params → t.route = u.route → w u = w t) →
      (∀ i', i' < n' → (∀ i, i < n → f i ≠ i') → w ((job' i').began 0) = 0) →
      loadIn fp dev job' cpt (order' curr) w curr σ' = loadIn fp dev job cpt (order curr) w curr σ := fun hw hz =>
    F.loadIn_part h ho ho' hpart hrest hw hz
  have hl : ∀ l ∈ (job i).route, loadIn fp dev job' cpt (order' curr) (fun u => u.route.count l) curr σ' =
      loadIn fp dev job cpt (order curr) (fun u => u.route.count l) curr σ := fun l hlm =>
    hL (fun t u _ e => by simp only [e]) fun i' hi' hne => List.count_eq_zero_of_not_mem (P.links i' hi' hne i hi l hlm)
  have hs : loadIn fp dev job' cpt (order' curr) (leaves dev (job i).t.noc (job i).t.src) curr σ' =
      loadIn fp dev job cpt (order curr) (leaves dev (job i).t.noc (job i).t.src) curr σ :=
    hL (fun t u e _ => by unfold SameData at e; unfold leaves; rw [← e]) fun i' hi' hne => P.sources i' hi' hne i hi 0
  have hk : ∀ d, (job i).t.dst = .unicast d → loadIn fp dev job' cpt (order' curr) (reaches dev (job i).t.noc d) curr σ' =
      loadIn fp dev job cpt (order curr) (reaches dev (job i).t.noc d) curr σ := fun d hd =>
    hL (fun t u e _ => by unfold SameData at e; unfold reaches; rw [← e]) fun i' hi' hne => P.sinks i' hi' hne i hi d hd 0
  have hd := F.data i hi
  have e1 : (job' (f i)).t.noc = (job i).t.noc := by unfold SameData at hd; rw [← hd]
  have e2 : (job' (f i)).t.src = (job i).t.src := by unfold SameData at hd; rw [← hd]
  have e3 : (job' (f i)).t.dst = (job i).t.dst := by unfold SameData at hd; rw [← hd]
  have e4 : (job' (f i)).t.injectionRate = (job i).t.injectionRate := by unfold SameData at hd; rw [← hd]
  unfold Fluid.sharedIn
  simp only
  rw [own_same fp dev hd, F.route i hi, e1, e2, e3, e4, hs, List.map_congr_left hl]
  cases hdst : (job i).t.dst with
  | mcast gs => rfl
  | unicast d => simp only; rw [hk d hdst]

/-- Two runs of transfers that wait for nothing, the second one with further transfers that share nothing. -/
theorem Frame.apart_agree (F : Frame n f job job') (hn : ∀ i, i < n → f i < n') (P : Private dev n n' f job job')
    {q q' : List (Nat × Nat)} (L : Line job n q) (L' : Line job' n' q')
    (hm : ∀ i j, i < n → j < n → (job i).t.offset = (job j).t.offset → i < j → f i < f j) (hpos : 0 < cpt) (k : Nat) :
    Agree n f (run fp.f32.fl job cpt (sharedIn fp dev job cpt (planOrder fp dev job n cpt q)) k)
      (run fp.f32.fl job' cpt (sharedIn fp dev job' cpt (planOrder fp dev job' n' cpt q')) k) := by
  refine F.run_eq_of ?_ k
  intro k hA i hi
  have E := L.order_eq (fp := fp) (dev := dev) hpos k
  have E' := L'.order_eq (fp := fp) (dev := dev) hpos k
  generalize Fluid.start job ((k + 1) * cpt) (run fp.f32.fl job cpt (sharedIn fp dev job cpt
    (planOrder fp dev job n cpt q)) k) = σ at *
  generalize Fluid.start job' ((k + 1) * cpt) (run fp.f32.fl job' cpt (sharedIn fp dev job' cpt
    (planOrder fp dev job' n' cpt q')) k) = σ' at *
  refine F.sharedIn_part P hA ?_ ?_ ?_ ?_ hi
  · intro j hj; rw [E] at hj; exact L.mem.mp (List.mem_filter.mp hj).1
  · intro j hj; rw [E'] at hj; exact L'.mem.mp (List.mem_filter.mp hj).1
  · rw [E, E', List.filter_filter]
    have := (L.part L' hn (fun i hi => (F.data i hi).offset) hm (P := fun i => (σ i).isActive)
      (P' := fun i => (σ' i).isActive) fun i hi h => by rw [hA i hi]; exact h).2
    refine this.trans (List.filter_congr fun j hj => ?_)
    by_cases hd : j ∈ ((lineOf q).filter fun i => (σ i).isActive).map f
    · obtain ⟨i, hi, rfl⟩ := List.mem_map.mp hd
      obtain ⟨h1, h2⟩ := List.mem_filter.mp hi
      rw [decide_eq_true hd, hA i (L.mem.mp h1), h2]; rfl
    · rw [decide_eq_false hd]; rfl
  · intro j hj hnot i hi e
    subst e
    rw [E'] at hj
    obtain ⟨h1, h2⟩ := List.mem_filter.mp hj
    refine hnot ?_
    rw [E]
    rw [hA i hi] at h2
    exact List.mem_map.mpr ⟨i, List.mem_filter.mpr ⟨L.mem.mpr hi, h2⟩, rfl⟩

end
end NPE
