import Verif.Proofs.FluidQueue

/-
Transfers that wait for nothing, with rounding: sums of more demands are not smaller, and speeds under more load or with
less bandwidth are not higher.
-/

namespace NPE
open NPE.Spec NPE.Spec.Fluid

/-! ### Queues -/

theorem line_of_init {fp : FP} {dev : Device} {ho : HashOrder} {wl : Workload} {s0 : Sim}
    (h0 : initSim fp dev ho wl = .ok s0) {job : Nat → Job} (hd : Describes job s0)
    (hfree : ∀ i, i < s0.ts.length → (job i).after = none) : Line job s0.ts.length s0.queue := by
  obtain ⟨ts, I⟩ := init0 h0
  have hI := (initSim_ok h0).1
  have hlt : ∀ x ∈ s0.queue, x.2 < s0.ts.length := fun x hx =>
    List.mem_range.mp (hI.queue.subset (List.mem_map.mpr ⟨x, hx, rfl⟩))
  have hoffs : ∀ x ∈ s0.queue, x.1 = (job x.2).t.offset := by
    intro x hx
    obtain ⟨t, ht, e⟩ := hI.offs x hx
    rw [e, (hd _ t ht).1]
  refine ⟨hfree, ?_, hlt, fun i hi => ?_, hoffs⟩
  · have h1 : s0.queue.Pairwise fun a b => b.1 < a.1 ∨ (b.1 = a.1 ∧ b.2 ≤ a.2) := by
      rw [init_queue h0 I]
      have := sortBy_pairwise (le := fun a b : Nat × Nat => decide (b.1 < a.1 ∨ (b.1 = a.1 ∧ b.2 ≤ a.2)))
        (by intro a b h; simp only [decide_eq_false_iff_not, decide_eq_true_eq] at h ⊢; omega)
        (by intro a b c h1 h2; simp only [decide_eq_true_eq] at h1 h2 ⊢; omega)
        (ts.map fun t => (t.params.offset, t.params.id.toNat))
      exact this.imp fun h => by simpa using h
    have h2 : s0.queue.Pairwise fun a b => a.2 ≠ b.2 := by
      have : (s0.queue.map (·.2)).Nodup := hI.queue.nodup_iff.mpr List.nodup_range
      exact List.pairwise_map.mp this
    exact (h1.and h2).imp fun {a b} h => by
      obtain ⟨h | h, hne⟩ := h
      · exact Or.inl h
      · exact Or.inr ⟨h.1, lt_of_le_of_ne h.2 (Ne.symm hne)⟩
  · have : i ∈ s0.queue.map (·.2) := hI.queue.symm.subset (List.mem_range.mpr hi)
    obtain ⟨x, hx, rfl⟩ := List.mem_map.mp this
    rw [← hoffs x hx]
    exact hx

section
variable {R : Rounding} {job job' : Nat → Job} {cpt n n' : Nat} {f : Nat → Nat}

/-- The line of a part of the transfers is the part of the line. -/
theorem Line.part {q q' : List (Nat × Nat)} (L : Line job n q) (L' : Line job' n' q')
    (hn : ∀ i, i < n → f i < n') (ho : ∀ i, i < n → (job' (f i)).t.offset = (job i).t.offset)
    (hm : ∀ i j, i < n → j < n → (job i).t.offset = (job j).t.offset → i < j → f i < f j) {P : Nat → Bool} {P' : Nat → Bool}
    (hP : ∀ i, i < n → P i = true → P' (f i) = true) :
    (((lineOf q).filter P).map f).Sublist ((lineOf q').filter P') ∧
    (((lineOf q).filter P).map f) = ((lineOf q').filter fun j => decide (j ∈ ((lineOf q).filter P).map f)) := by
  have e : ((lineOf q).filter P).map f = (lineOf q').filter fun j => decide (j ∈ ((lineOf q).filter P).map f) := by
    refine ahead_unique (job := job') ?_ (L'.ahead.filter _) fun j => ?_
    · rw [List.pairwise_map]
      refine List.Pairwise.imp_of_mem ?_ (L.ahead.filter _)
      intro a b ha hb h
      have ha := L.mem.mp (List.mem_filter.mp ha).1
      have hb := L.mem.mp (List.mem_filter.mp hb).1
      unfold Ahead at h ⊢
      rw [ho a ha, ho b hb]
      rcases h with h | h
      · exact Or.inl h
      · exact Or.inr ⟨h.1, hm a b ha hb h.1 h.2⟩
    · rw [List.mem_filter, decide_eq_true_eq]
      refine ⟨fun h => ⟨?_, h⟩, fun h => h.2⟩
      obtain ⟨i, hi, rfl⟩ := List.mem_map.mp h
      exact L'.mem.mpr (hn i (L.mem.mp (List.mem_filter.mp hi).1))
  refine ⟨?_, e⟩
  rw [e]
  refine List.monotone_filter_right _ fun j hj => ?_
  obtain ⟨i, hi, rfl⟩ := List.mem_map.mp (of_decide_eq_true hj)
  obtain ⟨h1, h2⟩ := List.mem_filter.mp hi
  exact hP i (L.mem.mp h1) h2

/-! ### Loads -/

theorem sumIn_le {l l' : List ℚ} (h : l.Sublist l') : ∀ {a a' : ℚ}, a ≤ a' → R.Rep a' → (∀ x ∈ l', 0 ≤ x) →
    l.foldl (fun y x => R.fl (y + x)) a ≤ l'.foldl (fun y x => R.fl (y + x)) a' := by
  induction h with
  | slnil => intro a a' h _ _; exact h
  | @cons l l' x _ ih =>
    intro a a' h hr hx
    refine ih ?_ (R.idem _) fun y hy => hx y (by simp [hy])
    refine le_trans h ?_
    have := R.mono (show a' ≤ a' + x from le_add_of_nonneg_right (hx x (by simp)))
    rwa [show R.fl a' = a' from hr] at this
  | @cons_cons l l' x _ ih =>
    intro a a' h hr hx
    exact ih (R.mono (add_le_add_left h x)) (R.idem _) fun y hy => hx y (by simp [hy])

theorem sumIn_nonneg {l : List ℚ} (h : ∀ x ∈ l, 0 ≤ x) : 0 ≤ l.foldl (fun y x => R.fl (y + x)) 0 :=
  sumIn_le (R := R) (List.nil_sublist l) le_rfl R.fl_zero h

end

section
variable {fp : FP} {dev : Device} {job job' : Nat → Job} {cpt n n' : Nat} {f : Nat → Nat}

theorem demand_nonneg (hT : TableOk fp dev.tbt) {j : Nat} (hinj : 0 ≤ (job j).t.injectionRate)
    (hr : fp.f32.Rep (job j).t.injectionRate) (curr : Nat) (σ : Fluid.State) : 0 ≤ demand fp dev job cpt curr σ j := by
  unfold demand
  cases σ j with
  | waiting => exact le_rfl
  | finished c e => exact le_rfl
  | active c m =>
    refine fp.f32.fl_nonneg (mul_nonneg (fp.f32.fl_nonneg (div_nonneg ?_ ?_)) (own_rep hT hinj hr).1)
    · exact fp.f32.fl_nonneg (Nat.cast_nonneg _)
    · exact fp.f32.fl_nonneg (Nat.cast_nonneg _)

theorem loadIn_nonneg (hT : TableOk fp dev.tbt) (hinj : ∀ i, i < n → 0 ≤ (job i).t.injectionRate)
    (hr : ∀ i, i < n → fp.f32.Rep (job i).t.injectionRate) {order : List Nat} (ho : ∀ i ∈ order, i < n)
    {w : TState → Nat} {curr : Nat} {σ : Fluid.State} : 0 ≤ loadIn fp dev job cpt order w curr σ := by
  refine sumIn_nonneg fun x hx => ?_
  obtain ⟨j, hj, hx⟩ := List.mem_flatMap.mp hx
  rw [(List.mem_replicate.mp hx).2]
  exact demand_nonneg hT (hinj j (ho j hj)) (hr j (ho j hj)) _ _

/-- More demands, added in an order that extends the other one. -/
theorem Freely.loadIn_le (F : Freely n f job job') (hT : TableOk fp dev.tbt)
    (hinj : ∀ i, i < n' → 0 ≤ (job' i).t.injectionRate) (hr : ∀ i, i < n' → fp.f32.Rep (job' i).t.injectionRate)
    (hown : ∀ i, i < n → own fp dev (job' (f i)).t = own fp dev (job i).t)
    {order order' : List Nat} (ho : ∀ i ∈ order, i < n) (ho' : ∀ i ∈ order', i < n') (hsub : (order.map f).Sublist order')
    {curr : Nat} {σ σ' : Fluid.State}
    (hact : ∀ i ∈ order, ∃ c m m', σ i = .active c m ∧ σ' (f i) = .active c m')
    {w : TState → Nat} (hw : ∀ t u : TState, MoreData t.params u.params → t.route = u.route → w u = w t) :
    loadIn fp dev job cpt order w curr σ ≤ loadIn fp dev job' cpt order' w curr σ' := by
  unfold loadIn
  have e : (order.flatMap fun j => List.replicate (w ((job j).began 0)) (demand fp dev job cpt curr σ j)) =
      (order.map f).flatMap fun j => List.replicate (w ((job' j).began 0)) (demand fp dev job' cpt curr σ' j) := by
    rw [List.flatMap_map, List.flatMap_def, List.flatMap_def]
    congr 1
    refine List.map_congr_left fun i hi => ?_
    have hlt := ho i hi
    obtain ⟨c, m, m', a1, a2⟩ := hact i hi
    rw [hw ((job i).began 0) ((job' (f i)).began 0) (F.data i hlt) (F.route i hlt).symm]
    unfold demand
    rw [a1, a2]
    simp only
    rw [hown i hlt]
  rw [e]
  refine sumIn_le (hsub.flatMap _) le_rfl fp.f32.fl_zero fun x hx => ?_
  obtain ⟨j, hj, hx⟩ := List.mem_flatMap.mp hx
  rw [(List.mem_replicate.mp hx).2]
  exact demand_nonneg hT (hinj j (ho' j hj)) (hr j (ho' j hj)) _ _

/-! ### Speeds -/

theorem servedIn_le {limit limit' x y : ℚ} (hl : 0 ≤ limit) (hle : limit' ≤ limit) (hx : 0 ≤ x) (hxy : x ≤ y) :
    min 1 (servedIn fp limit' y) ≤ min 1 (servedIn fp limit x) := by
  unfold servedIn
  by_cases h0 : x = 0
  · rw [if_pos h0, min_self]
    exact min_le_left _ _
  · have hp : 0 < x := lt_of_le_of_ne hx (Ne.symm h0)
    rw [if_neg h0, if_neg (by linarith)]
    exact min_le_min_left _ (fp.f32.mono (le_trans (div_le_div_of_nonneg_right hle (le_trans hx hxy))
      (div_le_div_of_nonneg_left hl hp hxy)))

theorem reduced_le {b d d' : ℚ} (hb : 0 ≤ b) (h : d' ≤ d) : reduced fp dev b d' ≤ reduced fp dev b d := by
  unfold reduced
  split
  · exact fp.f32.mono (mul_le_mul_of_nonneg_left h hb)
  · refine fp.f32.mono (fp.f64.mono (mul_le_mul_of_nonneg_left (fp.f64.mono ?_) hb))
    have := fp.f32.mono (show 1 - d ≤ 1 - d' by linarith)
    linarith

theorem limited_le {b d d' : ℚ} (hb : 0 ≤ b) (hr : fp.f32.Rep b) (h : min 1 d' ≤ min 1 d) :
    (if d' < 1 then reduced fp dev b d' else b) ≤ (if d < 1 then reduced fp dev b d else b) := by
  by_cases h1 : d < 1
  · rw [min_eq_right h1.le] at h
    have h2 : d' < 1 := by
      by_contra hcon
      rw [min_eq_left (not_lt.mp hcon)] at h
      linarith
    rw [min_eq_right h2.le] at h
    rw [if_pos h1, if_pos h2]
    exact reduced_le hb h
  · rw [if_neg h1]
    have := applyDerate_le' (dev := dev) (d := some d') hb hr
    rwa [applyDerate_reduced] at this

/-- More load and less bandwidth, lower speeds. -/
theorem Freely.sharedIn_le (F : Freely n f job job')
    (hT : TableOk fp dev.tbt) (hC : Capacities dev) {link : ℚ} {sink : CoreType → ℚ}
    (hlink : link ≤ dev.linkBw) (hsink : ∀ c, sink c ≤ dev.absRate c)
    (hinj : ∀ i, i < n → 0 ≤ (job i).t.injectionRate) (hinj' : ∀ i, i < n' → 0 ≤ (job' i).t.injectionRate)
    (hr : ∀ i, i < n → fp.f32.Rep (job i).t.injectionRate) (hr' : ∀ i, i < n' → fp.f32.Rep (job' i).t.injectionRate)
    (hown : ∀ i, i < n → own fp dev (job' (f i)).t = own fp dev (job i).t)
    {order order' : Nat → List Nat} {curr : Nat} (ho : ∀ i ∈ order curr, i < n) (ho' : ∀ i ∈ order' curr, i < n')
    (hsub : ((order curr).map f).Sublist (order' curr)) {σ σ' : Fluid.State}
    (hact : ∀ i ∈ order curr, ∃ c m m', σ i = .active c m ∧ σ' (f i) = .active c m') {i : Nat} (hi : i < n) :
    sharedIn fp (withRates dev link sink) job' cpt order' curr σ' (f i) ≤ sharedIn fp dev job cpt order curr σ i := by
  have hL : ∀ {w : TState → Nat}, (∀ t u : TState, MoreData t.params u.params → t.route = u.route → w u = w t) →
      loadIn fp dev job cpt (order curr) w curr σ ≤ loadIn fp dev job' cpt (order' curr) w curr σ' := fun hw =>
    F.loadIn_le hT hinj' hr' hown ho ho' hsub hact hw
  have hN : ∀ {w : TState → Nat}, 0 ≤ loadIn fp dev job cpt (order curr) w curr σ := loadIn_nonneg hT hinj hr ho
  have hl : ∀ l ∈ (job i).route, loadIn fp dev job cpt (order curr) (fun u => u.route.count l) curr σ ≤
      loadIn fp dev job' cpt (order' curr) (fun u => u.route.count l) curr σ' := fun l _ =>
    hL (fun t u _ e => by simp only [e])
  have hs : loadIn fp dev job cpt (order curr) (leaves dev (job i).t.noc (job i).t.src) curr σ ≤
      loadIn fp dev job' cpt (order' curr) (leaves dev (job i).t.noc (job i).t.src) curr σ' :=
    hL (fun t u e _ => by unfold leaves; rw [e.noc, e.src])
  have hk : ∀ d, loadIn fp dev job cpt (order curr) (reaches dev (job i).t.noc d) curr σ ≤
      loadIn fp dev job' cpt (order' curr) (reaches dev (job i).t.noc d) curr σ' := fun d =>
    hL (fun t u e _ => by unfold reaches; rw [e.noc, e.dst])
  have hd := F.data i hi
  have e1 : (job' (f i)).t.noc = (job i).t.noc := hd.noc
  have e2 : (job' (f i)).t.src = (job i).t.src := hd.src
  have e3 : (job' (f i)).t.dst = (job i).t.dst := hd.dst
  have e4 : (job' (f i)).t.injectionRate = (job i).t.injectionRate := hd.injectionRate
  have eo : own fp (withRates dev link sink) (job' (f i)).t = own fp dev (job i).t := hown i hi
  obtain ⟨o1, o2⟩ := own_rep (dev := dev) hT (hinj i hi) (hr i hi)
  unfold Fluid.sharedIn
  simp only
  rw [eo, F.route i hi, e1, e2, e3, e4]
  refine limited_le (dev := dev) o1 o2 (min_one3 ?_ ?_ ?_)
  · exact servedIn_le hC.1 hlink (foldl_max_nonneg le_rfl) (foldl_max_le _ le_rfl hl)
  · exact servedIn_le (hinj i hi) le_rfl hN hs
  · cases hdst : (job i).t.dst with
    | mcast gs => exact le_rfl
    | unicast d =>
      simp only
      unfold Device.getSinkAbsorptionRate
      show min 1 (match (dev.getCoreType d >>= fun ct => pure (sink ct) : Out ℚ) with
        | .ok a => servedIn fp a (loadIn fp dev job' cpt (order' curr) (reaches dev (job i).t.noc d) curr σ')
        | _ => 1) ≤ _
      cases dev.getCoreType d with
      | ok ct => exact servedIn_le (hC.2.2 ct) (hsink ct) hN (hk d)
      | _ => exact le_rfl

/-- Two runs of transfers that wait for nothing, the second one with further transfers and less bandwidth. -/
theorem Freely.crowd_trails (F : Freely n f job job') (hn : ∀ i, i < n → f i < n')
    (hT : TableOk fp dev.tbt) (hC : Capacities dev) {link : ℚ} {sink : CoreType → ℚ}
    (hlink : link ≤ dev.linkBw) (hsink : ∀ c, sink c ≤ dev.absRate c)
    (hinj : ∀ i, i < n → 0 ≤ (job i).t.injectionRate) (hinj' : ∀ i, i < n' → 0 ≤ (job' i).t.injectionRate)
    (hr : ∀ i, i < n → fp.f32.Rep (job i).t.injectionRate) (hr' : ∀ i, i < n' → fp.f32.Rep (job' i).t.injectionRate)
    (hown : ∀ i, i < n → own fp dev (job' (f i)).t = own fp dev (job i).t)
    {q q' : List (Nat × Nat)} (L : Line job n q) (L' : Line job' n' q')
    (hm : ∀ i j, i < n → j < n → (job i).t.offset = (job j).t.offset → i < j → f i < f j) (hpos : 0 < cpt)
    (k : Nat) (hk : k * cpt + 1 ≤ 16777216) :
    AllTrail n f job job' (k * cpt)
      (run fp.f32.fl job cpt (sharedIn fp dev job cpt (planOrder fp dev job n cpt q)) k)
      (run fp.f32.fl job' cpt (sharedIn fp (withRates dev link sink) job' cpt
        (planOrder fp (withRates dev link sink) job' n' cpt q')) k) := by
  refine F.run_trails (R := fp.f32) hn L'.free ?_ k hk
  intro k hA i hi
  have E := L.order_eq (fp := fp) (dev := dev) hpos k
  have E' := L'.order_eq (fp := fp) (dev := withRates dev link sink) hpos k
  generalize Fluid.start job ((k + 1) * cpt) (run fp.f32.fl job cpt (sharedIn fp dev job cpt
    (planOrder fp dev job n cpt q)) k) = σ at *
  generalize Fluid.start job' ((k + 1) * cpt) (run fp.f32.fl job' cpt (sharedIn fp (withRates dev link sink) job' cpt
    (planOrder fp (withRates dev link sink) job' n' cpt q')) k) = σ' at *
  have both : ∀ i, i < n → (σ i).isActive = true → ∃ c m m', σ i = .active c m ∧ σ' (f i) = .active c m' := by
    intro i hi h
    have hB := hA i hi
    cases hσ : σ i with
    | waiting => rw [hσ] at h; cases h
    | finished c e => rw [hσ] at h; cases h
    | active c m =>
      rw [hσ] at hB
      cases hσ' : σ' (f i) with
      | waiting => rw [hσ'] at hB; exact hB.elim
      | finished c' e' => rw [hσ'] at hB; exact hB.elim
      | active c' m' =>
        rw [hσ'] at hB
        obtain ⟨rfl, _⟩ := hB
        exact ⟨_, m, m', rfl, rfl⟩
  refine F.sharedIn_le hT hC hlink hsink hinj hinj' hr hr' hown ?_ ?_ ?_ ?_ hi
  · intro j hj; rw [E] at hj; exact L.mem.mp (List.mem_filter.mp hj).1
  · intro j hj; rw [E'] at hj; exact L'.mem.mp (List.mem_filter.mp hj).1
  · rw [E, E']
    refine (L.part L' hn (fun i hi => (F.data i hi).offset) hm fun i hi h => ?_).1
    obtain ⟨_, _, _, _, h2⟩ := both i hi h
    rw [h2]; rfl
  · intro j hj
    rw [E] at hj
    obtain ⟨h1, h2⟩ := List.mem_filter.mp hj
    exact both j (L.mem.mp h1) h2

end

theorem independent_after {s0 : Sim} {job : Nat → Job} (hd : Describes job s0) (hI : Independent s0) {i : Nat}
    (hi : i < s0.ts.length) : (job i).after = none := by
  cases h : (job i).after with
  | none => rfl
  | some p => exact absurd (((hd i _ (List.getElem?_eq_getElem hi)).2.2 p.1 p.2).mp h) (hI _ _ _)

/-- How a run ends, with the order of the queue. -/
theorem plan_ends {fp : FP} {dev : Device} (hdev : DeviceOk dev) (hT : TableOk fp dev.tbt) {cpt : Nat}
    (hpos : 0 < cpt) (hcpt : cpt < 4244967296) {golden : GoldenMap}
    {ho : HashOrder} {wl : Workload} (hw : ∀ t ∈ wl.transfers, 0 ≤ t.injectionRate ∧ RectsOk t)
    {s0 : Sim} (h0 : initSim fp dev ho wl = .ok s0) {job : Nat → Job} (hd : Describes job s0) {e : Ending}
    (h : runLoop (simConfig fp dev cpt golden true) ho wl = .ok e) :
    EndsAs s0.ts.length cpt (run fp.f32.fl job cpt
      (sharedIn fp dev job cpt (planOrder fp dev job s0.ts.length cpt s0.queue))) e := by
  refine endsAs_of_shows (cfg := simConfig fp dev cpt golden true) hpos (computeRates_ok fp dev true) h0 (fun c s hs => ?_) h
  obtain ⟨k, k1, k2, _, _, _⟩ := follows_plan hdev hT hw h0 hpos hcpt hd hs
  rw [← run_plan fp dev job s0.ts.length hpos s0.queue k] at k2
  exact ⟨k, k1, k2⟩

end NPE
