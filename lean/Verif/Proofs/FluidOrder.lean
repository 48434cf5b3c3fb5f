import Verif.Proofs.FluidRounded

/-
Two runs of the same transfers with the same queue: the active transfers have the same order, so that even rounded
sums are the same.
-/

namespace NPE
open NPE.Spec NPE.Spec.Fluid

theorem pick_mem {ready : Nat → Bool} {curr : Nat} : ∀ (m : Nat) (s : List (Nat × Nat) × List Nat × Nat),
    ∀ j ∈ (pick ready curr m s).2.1, j ∈ s.2.1 ∨ ready j = true := by
  intro m
  induction m with
  | zero => intro s j hj; exact Or.inl hj
  | succ i ih =>
    intro s j hj
    unfold pick at hj
    cases hq : s.1[i]? with
    | none => rw [hq] at hj; exact Or.inl hj
    | some x =>
      rw [hq] at hj
      simp only at hj
      split at hj
      · split at hj
        · rename_i hr
          cases hsw : swap s.1 (s.1.length - 1 - s.2.2) i with
          | ok q =>
            rw [hsw] at hj
            simp only at hj
            rcases ih _ j hj with h | h
            · rcases List.mem_append.mp h with h | h
              · exact Or.inl h
              · rw [List.mem_singleton.mp h]; exact Or.inr hr
            · exact Or.inr h
          | exc _ => rw [hsw] at hj; exact Or.inl hj
          | std _ => rw [hsw] at hj; exact Or.inl hj
          | exit => rw [hsw] at hj; exact Or.inl hj
          | ub => rw [hsw] at hj; exact Or.inl hj
          | diverge => rw [hsw] at hj; exact Or.inl hj
        · exact ih s j hj
      · exact Or.inl hj

theorem picked_lt {job : Nat → Job} {n curr : Nat} {p : Plan} (h : ∀ j ∈ p.live, j < n) :
    ∀ j ∈ (p.picked job n curr).2.1, j < n := by
  intro j hj
  rcases pick_mem _ _ j hj with h' | h'
  · exact h j h'
  · unfold readyIn at h'
    simp only [Bool.and_eq_true, decide_eq_true_eq] at h'
    exact h'.1

theorem plan_lt (fp : FP) (dev : Device) (job : Nat → Job) (n cpt : Nat) (q0 : List (Nat × Nat)) :
    ∀ k, ∀ j ∈ (plan fp dev job n cpt q0 k).live, j < n := by
  intro k
  induction k with
  | zero => intro j hj; cases hj
  | succ k ih => intro j hj; exact picked_lt ih j (List.mem_filter.mp hj).1

theorem Frame.readyIn_eq {n : Nat} {job job' : Nat → Job} (F : Frame n id job job') {σ σ' : Fluid.State}
    (h : Agree n id σ σ') (curr : Nat) : readyIn job' n curr σ' = readyIn job n curr σ := by
  funext i
  unfold readyIn
  by_cases hi : i < n
  · have e : (job' i).after = (job i).after := by
      have := F.after i hi
      simpa using this
    rw [e]
    cases ha : (job i).after with
    | none => rfl
    | some p =>
      obtain ⟨j, d⟩ := p
      simp only
      rw [show σ' j = σ j from h j (F.closed i hi j d ha)]
  · simp only [hi, decide_false, Bool.false_and]

theorem Frame.loadIn_eq {n : Nat} {job job' : Nat → Job} (F : Frame n id job job') {σ σ' : Fluid.State}
    (h : Agree n id σ σ') (fp : FP) (dev : Device) (cpt curr : Nat) {order : List Nat} (ho : ∀ j ∈ order, j < n)
    {w : TState → Nat} (hw : ∀ t u : TState, SameData t.params u.params → t.route = u.route → w u = w t) :
    loadIn fp dev job' cpt order w curr σ' = loadIn fp dev job cpt order w curr σ := by
  unfold loadIn
  congr 1
  rw [List.flatMap_def, List.flatMap_def]
  congr 1
  refine List.map_congr_left fun j hj => ?_
  have hlt := ho j hj
  rw [hw ((job j).began 0) ((job' j).began 0) (F.data j hlt) (F.route j hlt).symm]
  congr 1
  unfold demand
  rw [show σ' j = σ j from h j hlt, show own fp dev (job' j).t = own fp dev (job j).t from own_same fp dev (F.data j hlt)]

theorem Frame.sharedIn_eq {n : Nat} {job job' : Nat → Job} (F : Frame n id job job') {σ σ' : Fluid.State}
    (h : Agree n id σ σ') (fp : FP) (dev : Device) (cpt curr : Nat) {order : Nat → List Nat}
    (ho : ∀ j ∈ order curr, j < n) {i : Nat} (hi : i < n) :
    sharedIn fp dev job' cpt order curr σ' i = sharedIn fp dev job cpt order curr σ i := by
  have hd := F.data i hi
  have e0 : (job' i).route = (job i).route := F.route i hi
  have e1 : (job' i).t.noc = (job i).t.noc := by have := hd; unfold SameData at this; simp only [id] at this; rw [← this]
  have e2 : (job' i).t.src = (job i).t.src := by have := hd; unfold SameData at this; simp only [id] at this; rw [← this]
  have e3 : (job' i).t.dst = (job i).t.dst := by have := hd; unfold SameData at this; simp only [id] at this; rw [← this]
  have e4 : (job' i).t.injectionRate = (job i).t.injectionRate := by
    have := hd; unfold SameData at this; simp only [id] at this; rw [← this]
  have e5 : own fp dev (job' i).t = own fp dev (job i).t := own_same fp dev hd
  have hl : ∀ l, loadIn fp dev job' cpt (order curr) (fun u => u.route.count l) curr σ' =
      loadIn fp dev job cpt (order curr) (fun u => u.route.count l) curr σ :=
    fun l => F.loadIn_eq h fp dev cpt curr ho fun t u _ e => by simp only [e]
  have hs : ∀ noc c, loadIn fp dev job' cpt (order curr) (leaves dev noc c) curr σ' =
      loadIn fp dev job cpt (order curr) (leaves dev noc c) curr σ :=
    fun noc c => F.loadIn_eq h fp dev cpt curr ho fun t u e _ => by unfold SameData at e; unfold leaves; rw [← e]
  have hk : ∀ noc c, loadIn fp dev job' cpt (order curr) (reaches dev noc c) curr σ' =
      loadIn fp dev job cpt (order curr) (reaches dev noc c) curr σ :=
    fun noc c => F.loadIn_eq h fp dev cpt curr ho fun t u e _ => by unfold SameData at e; unfold reaches; rw [← e]
  unfold sharedIn
  simp only [e0, e1, e2, e3, e4, e5, hl, hs, hk]

/-- Two runs with the same queue. -/
theorem Frame.plan_eq {n : Nat} {job job' : Nat → Job} (F : Frame n id job job') (fp : FP) (dev : Device) (cpt : Nat)
    (q0 : List (Nat × Nat)) : ∀ k, Agree n id (plan fp dev job n cpt q0 k).σ (plan fp dev job' n cpt q0 k).σ ∧
      (plan fp dev job' n cpt q0 k).queue = (plan fp dev job n cpt q0 k).queue ∧
      (plan fp dev job' n cpt q0 k).live = (plan fp dev job n cpt q0 k).live := by
  intro k
  induction k with
  | zero => exact ⟨fun _ _ => rfl, rfl, rfl⟩
  | succ k ih =>
    obtain ⟨a, b, c⟩ := ih
    have hp : (plan fp dev job' n cpt q0 k).picked job' n ((k + 1) * cpt) =
        (plan fp dev job n cpt q0 k).picked job n ((k + 1) * cpt) := by
      unfold Plan.picked
      rw [b, c, F.readyIn_eq a]
    have hlt := picked_lt (job := job) (curr := (k + 1) * cpt) (plan_lt fp dev job n cpt q0 k)
    have hσ : Agree n id (plan fp dev job n cpt q0 (k + 1)).σ (plan fp dev job' n cpt q0 (k + 1)).σ := by
      refine F.advance_eq (fun σ σ' hA i hi => ?_) (F.start_eq a _)
      rw [hp]
      exact F.sharedIn_eq hA fp dev cpt _ hlt hi
    refine ⟨hσ, ?_, ?_⟩
    · show List.take _ _ = List.take _ _
      rw [hp]
    · show List.filter _ _ = List.filter _ _
      rw [hp]
      refine List.filter_congr fun i hi => ?_
      have := congrArg Prog.isActive (hσ i (hlt i hi))
      have e : (plan fp dev job' n cpt q0 (k + 1)).σ = advance fp.f32.fl job' cpt
        (sharedIn fp dev job' cpt fun _ => ((plan fp dev job' n cpt q0 k).picked job' n ((k + 1) * cpt)).2.1) ((k + 1) * cpt)
        (Fluid.start job' ((k + 1) * cpt) (plan fp dev job' n cpt q0 k).σ) := rfl
      rw [e, hp] at this
      exact this

/-! ### The same transfers at the same places -/

/-- The same transfers at the same places, apart from the numbers of phases. -/
def Parallel (s0 s0' : Sim) : Prop := s0'.ts.length = s0.ts.length ∧
  ∀ (i : Nat) (t : TState), s0.ts[i]? = some t → ∃ t', s0'.ts[i]? = some t' ∧ SameData t.params t'.params ∧ t'.route = t.route

section
variable {fp : FP} {dev : Device} {ho ho' : HashOrder} {wl wl' : Workload} {s0 s0' : Sim}

theorem parallel_back (P : Parallel s0 s0') {i : Nat} {t' : TState} (h : s0'.ts[i]? = some t') :
    ∃ t, s0.ts[i]? = some t ∧ SameData t.params t'.params ∧ t'.route = t.route := by
  have hlt : i < s0.ts.length := by rw [← P.1]; exact (List.getElem?_eq_some_iff.mp h).1
  obtain ⟨t'', h1, h2, h3⟩ := P.2 i _ (List.getElem?_eq_getElem hlt)
  rw [h] at h1
  rw [← Option.some.inj h1] at h2 h3
  exact ⟨_, List.getElem?_eq_getElem hlt, h2, h3⟩

theorem init_queue (h0 : initSim fp dev ho wl = .ok s0) {ts : List TState} (I : Init0 fp dev ho wl s0 ts) :
    s0.queue = createTransferQueue ts := by
  unfold initSim at h0
  obtain ⟨ts', h1, h0⟩ := Out.bind_eq_ok.mp h0
  obtain ⟨p, _, h0⟩ := Out.bind_eq_ok.mp h0
  rw [I.state] at h1
  rw [← Out.ok.inj h0, Out.ok.inj h1]

/-- What the initial lists have in common. -/
theorem parallel_map (P : Parallel s0 s0') {ts ts' : List TState} (I : Init0 fp dev ho wl s0 ts)
    (I' : Init0 fp dev ho' wl' s0' ts') {β : Type} (g : Transfer → β)
    (hg : ∀ t u, SameData t u → u.id = t.id → g u = g t) :
    ts'.map (fun t => g t.params) = ts.map (fun t => g t.params) := by
  have l : s0.ts.length = ts.length := by rw [I.states, tsOf_length]
  have l' : s0'.ts.length = ts'.length := by rw [I'.states, tsOf_length]
  refine List.ext_getElem? fun i => ?_
  rw [List.getElem?_map, List.getElem?_map]
  by_cases hi : i < ts.length
  · have hg0 := List.getElem?_eq_getElem hi
    obtain ⟨t, h1, h2, _⟩ := I.get' hg0
    obtain ⟨t', h3, h4, _⟩ := P.2 i t h1
    obtain ⟨t0', h5, h6, _⟩ := I'.get h3
    rw [hg0, h5]
    simp only [Option.map_some, Option.some.injEq]
    refine hg _ _ (by rw [h2, h6]; exact h4) ?_
    rw [I.dense i _ hg0, I'.dense i _ h5]
  · have hp := P.1
    rw [List.getElem?_eq_none (l := ts) (by omega), List.getElem?_eq_none (l := ts') (by omega)]

theorem parallel_queue (h0 : initSim fp dev ho wl = .ok s0) (h0' : initSim fp dev ho' wl' = .ok s0')
    (P : Parallel s0 s0') : s0'.queue = s0.queue := by
  obtain ⟨ts, I⟩ := init0 h0
  obtain ⟨ts', I'⟩ := init0 h0'
  rw [init_queue h0 I, init_queue h0' I']
  unfold createTransferQueue
  rw [parallel_map P I I' (fun t => (t.offset, t.id.toNat)) fun t u h e => by rw [h.offset, e]]

theorem groupMap_eq (ts : List TState) : groupMap ts =
    (((ts.map fun t => (t.params.groupId, t.params.groupIdx, t.params.id.toNat)).filter
      fun p => p.1 ≠ -1 ∧ p.2.1 ≠ -1).map fun p => ((p.1, p.2.1), p.2.2)).reverse := by
  unfold groupMap
  rw [List.filter_map, List.map_map]
  rfl

theorem parallel_frame (h0 : initSim fp dev ho wl = .ok s0) (h0' : initSim fp dev ho' wl' = .ok s0')
    (hb : ∀ l, (ho.buckets l).Perm l) (hb' : ∀ l, (ho'.buckets l).Perm l) (P : Parallel s0 s0')
    {job job' : Nat → Job} (hd : Describes job s0) (hd' : Describes job' s0') : Frame s0.ts.length id job job' := by
  obtain ⟨ts, I⟩ := init0 h0
  obtain ⟨ts', I'⟩ := init0 h0'
  have get := P.2
  have hgm : groupMap ts' = groupMap ts := by
    rw [groupMap_eq, groupMap_eq, parallel_map P I I' (fun t => (t.groupId, t.groupIdx, t.id.toNat)) fun t u h e => by
      obtain ⟨_, _, _, _, g1, g2, _⟩ := SameData.fields h
      rw [g1, g2, e]]
  have hdev : ∀ p, devAt ts' p = devAt ts p := by
    intro p
    have := congrArg (fun l => l[p]?) (parallel_map P I I' (fun t => t.src.dev) fun t u h _ => by
      rw [(SameData.fields h).2.1])
    simp only [List.getElem?_map] at this
    unfold devAt
    cases h1 : ts'[p]? <;> cases h2 : ts[p]? <;> rw [h1, h2] at this <;> simp_all
  have mates : ∀ a b, LaneMates (SameLane dev) s0' a b ↔ LaneMates (SameLane dev) s0 a b := by
    intro a b
    constructor
    · rintro ⟨x, y, c1, c2, c3⟩
      obtain ⟨x', d1, d2, d3⟩ := parallel_back P c1
      obtain ⟨y', f1, f2, f3⟩ := parallel_back P c2
      exact ⟨x', y', d1, f1, (sameLane_same d2 f2 d3 f3).mp c3⟩
    · rintro ⟨x, y, c1, c2, c3⟩
      obtain ⟨x', d1, d2, d3⟩ := get _ _ c1
      obtain ⟨y', f1, f2, f3⟩ := get _ _ c2
      exact ⟨x', y', d1, f1, (sameLane_same d2 f2 d3 f3).mpr c3⟩
  have early : ∀ a b, Earlier s0' a b ↔ Earlier s0 a b := by
    intro a b
    constructor
    · rintro ⟨x, y, c1, c2, c3⟩
      obtain ⟨x', d1, d2, d3⟩ := parallel_back P c1
      obtain ⟨y', f1, f2, f3⟩ := parallel_back P c2
      exact ⟨x', y', d1, f1, by rw [← d2.offset, ← f2.offset]; exact c3⟩
    · rintro ⟨x, y, c1, c2, c3⟩
      obtain ⟨x', d1, d2, d3⟩ := get _ _ c1
      obtain ⟨y', f1, f2, f3⟩ := get _ _ c2
      exact ⟨x', y', d1, f1, by rw [d2.offset, f2.offset]; exact c3⟩
  have waits : ∀ i t, s0.ts[i]? = some t → ∀ j d, WaitsFor s0' i j d ↔ WaitsFor s0 i j d := by
    intro i t ht j d
    obtain ⟨t', ht', e1, _⟩ := get i t ht
    obtain ⟨_, _, _, _, g1, _, g2, _⟩ := SameData.fields e1
    have hpp : HasParent t'.params ↔ HasParent t.params := by unfold HasParent; rw [g1, g2]
    by_cases hp : HasParent t.params
    · rw [I'.waits_group ht' (hpp.mpr hp), I.waits_group ht hp, hgm, hdev, groupDelay_same fp dev e1]
      unfold parentOf
      rw [g1, g2]
    · rw [I'.waits_niu hb' ht' (fun h => hp (hpp.mp h)), I.waits_niu hb ht hp]
      unfold TwoBefore
      simp only [mates, early]
  refine ⟨fun i hi => ?_, fun i hi => ?_, fun i hi => ?_, fun i hi j d ha => ?_⟩
  · have ht := List.getElem?_eq_getElem hi
    obtain ⟨t', a1, a2, a3⟩ := get i _ ht
    show SameData (job i).t (job' i).t
    rw [(hd i _ ht).1, (hd' i t' a1).1]
    exact a2
  · have ht := List.getElem?_eq_getElem hi
    obtain ⟨t', a1, a2, a3⟩ := get i _ ht
    rw [(hd i _ ht).2.1]
    exact (hd' i t' a1).2.1.trans a3
  · have ht := List.getElem?_eq_getElem hi
    obtain ⟨t', a1, a2, a3⟩ := get i _ ht
    have e := (hd i _ ht).2.2
    have e' := (hd' i t' a1).2.2
    have key : ∀ p : Nat × Nat, (job' i).after = some p ↔ (job i).after = some p := by
      intro p
      exact (e' p.1 p.2).trans ((waits i _ ht p.1 p.2).trans (e p.1 p.2).symm)
    show (job' i).after = ((job i).after).map fun p => (p.1, p.2)
    cases h1 : (job i).after with
    | none =>
      cases h2 : (job' i).after with
      | none => rfl
      | some p => rw [(key p).mp h2] at h1; cases h1
    | some p => exact (key p).mpr h1
  · have ht := List.getElem?_eq_getElem hi
    obtain ⟨_, _, _, _, h2, _⟩ := ((hd i _ ht).2.2 j d).mp ha
    exact (List.getElem?_eq_some_iff.mp h2).1

/-- Two hash orders. -/
theorem parallel_orders (h0 : initSim fp dev ho wl = .ok s0) (h0' : initSim fp dev ho' wl = .ok s0')
    (hl : ho'.links = ho.links ∨ ∀ t ∈ wl.transfers, ∃ d, t.dst = .unicast d) : Parallel s0 s0' := by
  obtain ⟨ts, I⟩ := init0 h0
  obtain ⟨ts', I'⟩ := init0 h0'
  have hts : ts' = ts := by
    have a := I.state
    have b := I'.state
    rw [initTransferState_links hl, a] at b
    exact (Out.ok.inj b).symm
  subst hts
  refine ⟨by rw [(initSim_ok h0).1.len, (initSim_ok h0').1.len], fun i t ht => ?_⟩
  obtain ⟨q, h1, h2, h3⟩ := I.get ht
  obtain ⟨q', h4, h5, h6⟩ := I'.get' h1
  exact ⟨q', h4, by rw [← h5, h2]; rfl, by rw [← h6.1, h3.1]⟩

end

/-- Two runs with congestion and rounding. -/
theorem same_rounded {fp : FP} {dev : Device} {ho ho' : HashOrder} {wl wl' : Workload} {s0 s0' : Sim} {cpt : Nat}
    {golden golden' : GoldenMap}
    (hdev : DeviceOk dev) (hT : TableOk fp dev.tbt) (hw : ∀ t ∈ wl.transfers, 0 ≤ t.injectionRate ∧ RectsOk t)
    (hw' : ∀ t ∈ wl'.transfers, 0 ≤ t.injectionRate ∧ RectsOk t)
    (hpos : 0 < cpt) (hcpt : cpt < 4244967296)
    (h0 : initSim fp dev ho wl = .ok s0) (h0' : initSim fp dev ho' wl' = .ok s0')
    (hb : ∀ l, (ho.buckets l).Perm l) (hb' : ∀ l, (ho'.buckets l).Perm l) (P : Parallel s0 s0')
    {e : Ending} {s' : Sim} {c' : Nat}
    (h : runLoop (simConfig fp dev cpt golden true) ho wl = .ok e)
    (h' : runLoop (simConfig fp dev cpt golden' true) ho' wl' = .ok (.finished s' c')) :
    ∃ s, e = .finished s c' ∧ s.ts.map (fun t => (t.start, t.endc)) = s'.ts.map (fun t => (t.start, t.endc)) := by
  obtain ⟨job, hd⟩ := describes_exists h0
  obtain ⟨job', hd'⟩ := describes_exists h0'
  have F := parallel_frame h0 h0' hb hb' P hd hd'
  have a := endsAs_of_shows (cfg := simConfig fp dev cpt golden true) hpos (computeRates_ok fp dev true) h0
    (fl := fp.f32.fl) (job := job) (speed := sharedIn fp dev job cpt (planOrder fp dev job s0.ts.length cpt s0.queue))
    (fun c s hs => by
      obtain ⟨k, k1, k2, _⟩ := follows_plan hdev hT hw h0 hpos hcpt hd hs
      rw [← run_plan fp dev job s0.ts.length hpos s0.queue k] at k2
      exact ⟨k, k1, k2⟩) h
  have a' := endsAs_of_shows (cfg := simConfig fp dev cpt golden' true) hpos (computeRates_ok fp dev true) h0'
    (fl := fp.f32.fl) (job := job') (speed := sharedIn fp dev job' cpt (planOrder fp dev job' s0'.ts.length cpt s0'.queue))
    (fun c s hs => by
      obtain ⟨k, k1, k2, _⟩ := follows_plan hdev hT hw' h0' hpos hcpt hd' hs
      rw [← run_plan fp dev job' s0'.ts.length hpos s0'.queue k] at k2
      exact ⟨k, k1, k2⟩) h'
  rw [P.1, parallel_queue h0 h0' P] at a'
  refine same_run (cpt := cpt) (fun k => ?_) a (fun s c he => finished_le (he ▸ h)) a'
    (finished_le (cfg := simConfig fp dev cpt golden' true) h')
  have hA := (F.plan_eq fp dev cpt s0.queue k).1
  show Agree _ _ (run _ _ cpt _ k) (run _ _ cpt _ k)
  rw [run_plan fp dev job _ hpos, run_plan fp dev job' _ hpos]
  exact hA

end NPE
